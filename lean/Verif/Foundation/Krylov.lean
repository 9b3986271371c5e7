import Verif.Foundation.Pointwise
import Mathlib.Analysis.SpecialFunctions.Trigonometric.Deriv
import Mathlib.Analysis.SpecialFunctions.Trigonometric.DerivHyp
import Mathlib.Analysis.Real.Sqrt

/-!
The exact beam on a Winkler foundation, member by member: the functions of Krylov, and the response
to every load the code accepts on a foundation member.
-/

set_option linter.unusedSectionVars false
set_option linter.unusedSimpArgs false

namespace PyCBA

open Matrix Finset MeasureTheory

/-! ### Functions of Krylov -/

noncomputable def kry1 (β x : ℝ) : ℝ := Real.cosh (β * x) * Real.cos (β * x)
noncomputable def kry2 (β x : ℝ) : ℝ :=
  (Real.cosh (β * x) * Real.sin (β * x) + Real.sinh (β * x) * Real.cos (β * x)) / (2 * β)
noncomputable def kry3 (β x : ℝ) : ℝ := Real.sinh (β * x) * Real.sin (β * x) / (2 * β ^ 2)
noncomputable def kry4 (β x : ℝ) : ℝ :=
  (Real.cosh (β * x) * Real.sin (β * x) - Real.sinh (β * x) * Real.cos (β * x)) / (4 * β ^ 3)

theorem kry_derivs {β : ℝ} (hβ : β ≠ 0) (x : ℝ) :
    HasDerivAt (kry1 β) (-4 * β ^ 4 * kry4 β x) x ∧ HasDerivAt (kry2 β) (kry1 β x) x ∧
    HasDerivAt (kry3 β) (kry2 β x) x ∧ HasDerivAt (kry4 β) (kry3 β x) x := by
  have hx : HasDerivAt (fun x : ℝ => β * x) β x := by
    simpa using (hasDerivAt_id x).const_mul β
  have hs := hx.sin
  have hc := hx.cos
  have hS := hx.sinh
  have hC := hx.cosh
  refine ⟨?_, ?_, ?_, ?_⟩
  · refine (hC.mul hc).congr_deriv ?_
    simp only [kry4]
    field_simp
    ring
  · refine (((hC.mul hs).add (hS.mul hc)).div_const (2 * β)).congr_deriv ?_
    simp only [kry1]
    field_simp
    ring
  · refine ((hS.mul hs).div_const (2 * β ^ 2)).congr_deriv ?_
    simp only [kry2]
    field_simp
  · refine (((hC.mul hs).sub (hS.mul hc)).div_const (4 * β ^ 3)).congr_deriv ?_
    simp only [kry3]
    field_simp
    ring

theorem kry_zero (β : ℝ) : kry1 β 0 = 1 ∧ kry2 β 0 = 0 ∧ kry3 β 0 = 0 ∧ kry4 β 0 = 0 := by
  simp [kry1, kry2, kry3, kry4]

/-- Deflection, rotation, curvature and its slope with initial values `a`. -/
noncomputable def kryW (β : ℝ) (a : Fin 4 → ℝ) (x : ℝ) : ℝ :=
  a 0 * kry1 β x + a 1 * kry2 β x + a 2 * kry3 β x + a 3 * kry4 β x
noncomputable def kryT (β : ℝ) (a : Fin 4 → ℝ) (x : ℝ) : ℝ :=
  a 0 * (-4 * β ^ 4 * kry4 β x) + a 1 * kry1 β x + a 2 * kry2 β x + a 3 * kry3 β x
noncomputable def kryC (β : ℝ) (a : Fin 4 → ℝ) (x : ℝ) : ℝ :=
  a 0 * (-4 * β ^ 4 * kry3 β x) + a 1 * (-4 * β ^ 4 * kry4 β x) + a 2 * kry1 β x + a 3 * kry2 β x
noncomputable def kryG (β : ℝ) (a : Fin 4 → ℝ) (x : ℝ) : ℝ :=
  a 0 * (-4 * β ^ 4 * kry2 β x) + a 1 * (-4 * β ^ 4 * kry3 β x) + a 2 * (-4 * β ^ 4 * kry4 β x)
    + a 3 * kry1 β x

theorem kryW_derivs {β : ℝ} (hβ : β ≠ 0) (a : Fin 4 → ℝ) (x : ℝ) :
    HasDerivAt (kryW β a) (kryT β a x) x ∧ HasDerivAt (kryT β a) (kryC β a x) x ∧
    HasDerivAt (kryC β a) (kryG β a x) x ∧ HasDerivAt (kryG β a) (-4 * β ^ 4 * kryW β a x) x := by
  obtain ⟨h1, h2, h3, h4⟩ := kry_derivs hβ x
  refine ⟨?_, ?_, ?_, ?_⟩
  · refine ((((h1.const_mul (a 0)).add (h2.const_mul (a 1))).add (h3.const_mul (a 2))).add
      (h4.const_mul (a 3))).congr_deriv ?_
    simp only [kryT]
  · refine (((((h4.const_mul (-4 * β ^ 4)).const_mul (a 0)).add (h1.const_mul (a 1))).add
      (h2.const_mul (a 2))).add (h3.const_mul (a 3))).congr_deriv ?_
    simp only [kryC]
  · refine (((((h3.const_mul (-4 * β ^ 4)).const_mul (a 0)).add
      ((h4.const_mul (-4 * β ^ 4)).const_mul (a 1))).add
      (h1.const_mul (a 2))).add (h2.const_mul (a 3))).congr_deriv ?_
    simp only [kryG]
  · refine (((((h2.const_mul (-4 * β ^ 4)).const_mul (a 0)).add
      ((h3.const_mul (-4 * β ^ 4)).const_mul (a 1))).add
      ((h4.const_mul (-4 * β ^ 4)).const_mul (a 2))).add (h1.const_mul (a 3))).congr_deriv ?_
    simp only [kryW]
    ring

theorem kryW_zero (β : ℝ) (a : Fin 4 → ℝ) :
    kryW β a 0 = a 0 ∧ kryT β a 0 = a 1 ∧ kryC β a 0 = a 2 ∧ kryG β a 0 = a 3 := by
  obtain ⟨z1, z2, z3, z4⟩ := kry_zero β
  simp [kryW, kryT, kryC, kryG, z1, z2, z3, z4]

theorem winkler_root {EI k : ℝ} (hE : 0 < EI) (hk : 0 < k) : ∃ β : ℝ, β ≠ 0 ∧ 4 * β ^ 4 = k / EI := by
  have h4 : 0 < k / (4 * EI) := by positivity
  refine ⟨√√(k / (4 * EI)), (Real.sqrt_pos.2 (Real.sqrt_pos.2 h4)).ne', ?_⟩
  have : √√(k / (4 * EI)) ^ 4 = (√√(k / (4 * EI)) ^ 2) ^ 2 := by ring
  rw [this, Real.sq_sqrt (Real.sqrt_nonneg _), Real.sq_sqrt h4.le]
  field_simp

/-! ### Integration by parts -/

theorem SlopeOn.add {f f' g g' : ℝ → ℝ} {a b : ℝ} (h : SlopeOn f f' a b) (hg : SlopeOn g g' a b) :
    SlopeOn (fun x => f x + g x) (fun x => f' x + g' x) a b :=
  ⟨h.cont.add hg.cont, fun x hx => (h.deriv x hx).add (hg.deriv x hx)⟩

theorem SlopeOn.ii {f f' : ℝ → ℝ} {a b : ℝ} (h : SlopeOn f f' a b) (hab : a ≤ b) :
    IntervalIntegrable f volume a b := by
  apply ContinuousOn.intervalIntegrable
  rw [Set.uIcc_of_le hab]
  exact h.cont

/-- Twice by parts, for a state that starts at `a`. -/
theorem winkler_parts {EI k ρ a L : ℝ} (hE : EI ≠ 0) (haL : a ≤ L) {w c g v θ κ : ℝ → ℝ}
    (hw : Continuous w) (hc : ∀ x, HasDerivAt c (g x) x)
    (hg : ∀ x, HasDerivAt g (-(k / EI) * w x + ρ) x) (hv : SlopeOn v θ a L) (hθ : SlopeOn θ κ a L)
    (hκ : IntervalIntegrable κ volume a L) :
    EI * (∫ x in a..L, c (x - a) * κ x) + k * (∫ x in a..L, w (x - a) * v x)
      = EI * (c (L - a) * θ L - g (L - a) * v L - c 0 * θ a + g 0 * v a)
        + EI * ρ * ∫ x in a..L, v x := by
  have hca : ∀ x, HasDerivAt (fun x => c (x - a)) (g (x - a)) x := fun x => by
    exact (hc (x - a)).comp_sub_const x a
  have hga : ∀ x, HasDerivAt (fun x => g (x - a)) (-(k / EI) * w (x - a) + ρ) x := fun x => by
    exact (hg (x - a)).comp_sub_const x a
  have cc : Continuous fun x => c (x - a) := continuous_iff_continuousAt.2 fun x => (hca x).continuousAt
  have gc : Continuous fun x => g (x - a) := continuous_iff_continuousAt.2 fun x => (hga x).continuousAt
  have wc : Continuous fun x => w (x - a) := hw.comp (continuous_id.sub continuous_const)
  have hG : SlopeOn (fun x => c (x - a) * θ x - g (x - a) * v x)
      (fun x => c (x - a) * κ x - ((-(k / EI)) * (w (x - a) * v x) + ρ * v x)) a L := by
    refine ⟨(cc.continuousOn.mul hθ.cont).sub (gc.continuousOn.mul hv.cont), fun x hx => ?_⟩
    refine (((hca x).hasDerivWithinAt.mul (hθ.deriv x hx)).sub
      ((hga x).hasDerivWithinAt.mul (hv.deriv x hx))).congr_deriv ?_
    ring
  have i1 : IntervalIntegrable (fun x => c (x - a) * κ x) volume a L := hκ.continuousOn_mul cc.continuousOn
  have i2 : IntervalIntegrable (fun x => w (x - a) * v x) volume a L :=
    (hv.ii haL).continuousOn_mul wc.continuousOn
  have hI := hG.integral haL (i1.sub ((i2.const_mul _).add ((hv.ii haL).const_mul _)))
  rw [intervalIntegral.integral_sub i1 ((i2.const_mul _).add ((hv.ii haL).const_mul _)),
    intervalIntegral.integral_add (i2.const_mul _) ((hv.ii haL).const_mul _),
    intervalIntegral.integral_const_mul, intervalIntegral.integral_const_mul] at hI
  simp only [sub_self] at hI
  have : EI * (∫ x in a..L, c (x - a) * κ x)
      = EI * (c (L - a) * θ L - g (L - a) * v L - (c 0 * θ a - g 0 * v a)
        + (-(k / EI) * (∫ x in a..L, w (x - a) * v x) + ρ * ∫ x in a..L, v x)) := by
    rw [← hI]
    ring
  rw [this]
  field_simp
  ring

/-! ### Responses -/

/-- End values of a shape. -/
def endsOf (L : ℝ) (v θ : ℝ → ℝ) : Vec4 ℝ := ![v 0, θ 0, v L, θ L]

/-- The shape `w`, `t`, `c` of a member on a foundation with the end forces `f` is in equilibrium with
a load whose work on a virtual shape is `Λ`. -/
structure FResp (EI k L : ℝ) (Λ : (ℝ → ℝ) → (ℝ → ℝ) → ℝ) (w t c : ℝ → ℝ) (f : Vec4 ℝ) : Prop where
  sw : SlopeOn w t 0 L
  st : SlopeOn t c 0 L
  wc : Continuous w
  cc : Continuous c
  work : ∀ v θ κ, SlopeOn v θ 0 L → SlopeOn θ κ 0 L → IntervalIntegrable κ volume 0 L →
    EI * (∫ x in (0 : ℝ)..L, c x * κ x) + k * (∫ x in (0 : ℝ)..L, w x * v x) - Λ v θ
      = endsOf L v θ ⬝ᵥ f

theorem FResp.add {EI k L : ℝ} (hL : 0 ≤ L) {Λ Λ' : (ℝ → ℝ) → (ℝ → ℝ) → ℝ} {w t c w' t' c' : ℝ → ℝ}
    {f f' : Vec4 ℝ} (h : FResp EI k L Λ w t c f) (h' : FResp EI k L Λ' w' t' c' f') :
    FResp EI k L (fun v θ => Λ v θ + Λ' v θ) (fun x => w x + w' x) (fun x => t x + t' x)
      (fun x => c x + c' x) (f + f') := by
  refine ⟨h.sw.add h'.sw, h.st.add h'.st, h.wc.add h'.wc, h.cc.add h'.cc, fun v θ κ hv hθ hκ => ?_⟩
  have e1 := h.work v θ κ hv hθ hκ
  have e2 := h'.work v θ κ hv hθ hκ
  have i1 : IntervalIntegrable (fun x => c x * κ x) volume 0 L := hκ.continuousOn_mul h.cc.continuousOn
  have i2 : IntervalIntegrable (fun x => c' x * κ x) volume 0 L := hκ.continuousOn_mul h'.cc.continuousOn
  have i3 : IntervalIntegrable (fun x => w x * v x) volume 0 L :=
    (hv.ii hL).continuousOn_mul h.wc.continuousOn
  have i4 : IntervalIntegrable (fun x => w' x * v x) volume 0 L :=
    (hv.ii hL).continuousOn_mul h'.wc.continuousOn
  simp only [add_mul]
  rw [intervalIntegral.integral_add i1 i2, intervalIntegral.integral_add i3 i4, dotProduct_add, ← e1, ← e2]
  ring

theorem FResp.congr {EI k L : ℝ} {Λ Λ' : (ℝ → ℝ) → (ℝ → ℝ) → ℝ} {w t c : ℝ → ℝ} {f : Vec4 ℝ}
    (h : FResp EI k L Λ w t c f) (e : ∀ v θ κ, SlopeOn v θ 0 L → SlopeOn θ κ 0 L → Λ' v θ = Λ v θ) :
    FResp EI k L Λ' w t c f :=
  ⟨h.sw, h.st, h.wc, h.cc, fun v θ κ hv hθ hκ => by rw [e v θ κ hv hθ]; exact h.work v θ κ hv hθ hκ⟩

/-- The unloaded member with given values at its left end. -/
theorem resp_free {EI k L β : ℝ} (hE : 0 < EI) (hβ : β ≠ 0) (hb : 4 * β ^ 4 = k / EI) (hL : 0 ≤ L)
    (a : Fin 4 → ℝ) :
    FResp EI k L (fun _ _ => 0) (kryW β a) (kryT β a) (kryC β a)
      ![EI * a 3, -(EI * a 2), -(EI * kryG β a L), EI * kryC β a L] := by
  have hd := fun x => kryW_derivs hβ a x
  refine ⟨.of_hasDerivAt _ _ fun x => (hd x).1, .of_hasDerivAt _ _ fun x => (hd x).2.1,
    continuous_iff_continuousAt.2 fun x => (hd x).1.continuousAt,
    continuous_iff_continuousAt.2 fun x => (hd x).2.2.1.continuousAt, fun v θ κ hv hθ hκ => ?_⟩
  have := winkler_parts (ρ := 0) (k := k) hE.ne' hL
    (continuous_iff_continuousAt.2 fun x => (hd x).1.continuousAt) (fun x => (hd x).2.2.1)
    (fun x => (hd x).2.2.2.congr_deriv (by rw [← hb]; ring)) hv hθ hκ
  simp only [sub_zero] at this
  obtain ⟨z1, z2, z3, z4⟩ := kryW_zero β a
  rw [this, z3, z4]
  simp [endsOf, dotProduct, Fin.sum_univ_four]
  ring

/-- A state that begins at `a`. -/
theorem resp_from {EI k L ρ a : ℝ} (hE : 0 < EI) (h0 : 0 ≤ a) (h1 : a ≤ L) {w t c g : ℝ → ℝ}
    (hw : ∀ x, HasDerivAt w (t x) x) (ht : ∀ x, HasDerivAt t (c x) x) (hc : ∀ x, HasDerivAt c (g x) x)
    (hg : ∀ x, HasDerivAt g (-(k / EI) * w x + ρ) x) (w0 : w 0 = 0) (t0 : t 0 = 0) (c0 : c 0 = 0) :
    ∃ w' t' c' f, FResp EI k L (fun v _ => EI * g 0 * v a + EI * ρ * ∫ x in a..L, v x) w' t' c' f := by
  have key : ∀ f f' : ℝ → ℝ, (∀ x, HasDerivAt f (f' x) x) → f 0 = 0 → f' 0 = 0 →
      SlopeOn (fun x => f (max (x - a) 0)) (fun x => f' (max (x - a) 0)) 0 L := by
    intro f f' hf f0 f0'
    have fc : Continuous f := continuous_iff_continuousAt.2 fun x => (hf x).continuousAt
    refine ⟨(fc.comp ((continuous_id.sub continuous_const).max continuous_const)).continuousOn, fun x _ => ?_⟩
    rcases lt_or_ge x a with hx | hx
    · rw [max_eq_right (by linarith), f0']
      have : (fun x => f (max (x - a) 0)) =ᶠ[nhds x] fun _ => 0 := by
        filter_upwards [Iio_mem_nhds hx] with y hy
        rw [max_eq_right (by linarith [Set.mem_Iio.1 hy]), f0]
      exact ((hasDerivAt_const x (0 : ℝ)).congr_of_eventuallyEq this).hasDerivWithinAt
    · rw [max_eq_left (by linarith)]
      have hd : HasDerivAt (fun x => f (x - a)) (f' (x - a)) x := by
        exact (hf (x - a)).comp_sub_const x a
      refine hd.hasDerivWithinAt.congr (fun y hy => ?_) ?_
      · rw [max_eq_left (by linarith [Set.mem_Ioi.1 hy])]
      · rw [max_eq_left (by linarith)]
  have wc : Continuous w := continuous_iff_continuousAt.2 fun x => (hw x).continuousAt
  have cc : Continuous c := continuous_iff_continuousAt.2 fun x => (hc x).continuousAt
  have mc : Continuous fun x : ℝ => max (x - a) 0 := (continuous_id.sub continuous_const).max continuous_const
  have cut : ∀ f u : ℝ → ℝ, Continuous f → f 0 = 0 → IntervalIntegrable u volume 0 L →
      ∫ x in (0 : ℝ)..L, f (max (x - a) 0) * u x = ∫ x in a..L, f (x - a) * u x := by
    intro f u fc f0 hu
    have hi : IntervalIntegrable (fun x => f (max (x - a) 0) * u x) volume 0 L :=
      hu.continuousOn_mul (fc.comp mc).continuousOn
    have s1 : Set.uIcc 0 a ⊆ Set.uIcc 0 L := by
      rw [Set.uIcc_of_le h0, Set.uIcc_of_le (h0.trans h1)]; exact Set.Icc_subset_Icc le_rfl h1
    have s2 : Set.uIcc a L ⊆ Set.uIcc 0 L := by
      rw [Set.uIcc_of_le h1, Set.uIcc_of_le (h0.trans h1)]; exact Set.Icc_subset_Icc h0 le_rfl
    rw [← intervalIntegral.integral_add_adjacent_intervals (hi.mono_set s1) (hi.mono_set s2)]
    have z1 : ∫ x in (0 : ℝ)..a, f (max (x - a) 0) * u x = 0 := by
      rw [intervalIntegral.integral_congr (g := fun _ => 0)]
      · simp
      · intro x hx
        rw [Set.uIcc_of_le h0] at hx
        simp only
        rw [max_eq_right (by linarith [hx.2]), f0, zero_mul]
    rw [z1, zero_add]
    apply intervalIntegral.integral_congr
    intro x hx
    rw [Set.uIcc_of_le h1] at hx
    simp only
    rw [max_eq_left (by linarith [hx.1])]
  refine ⟨fun x => w (max (x - a) 0), fun x => t (max (x - a) 0), fun x => c (max (x - a) 0),
    ![0, 0, -(EI * g (L - a)), EI * c (L - a)], key w t hw w0 t0, key t c ht t0 c0, wc.comp mc, cc.comp mc,
    fun v θ κ hv hθ hκ => ?_⟩
  rw [cut c κ cc c0 hκ, cut w v wc w0 (hv.ii (h0.trans h1))]
  have s2 : Set.uIcc a L ⊆ Set.uIcc 0 L := by
    rw [Set.uIcc_of_le h1, Set.uIcc_of_le (h0.trans h1)]; exact Set.Icc_subset_Icc h0 le_rfl
  have := winkler_parts (k := k) hE.ne' h1 wc hc hg (hv.mono h0 le_rfl) (hθ.mono h0 le_rfl) (hκ.mono_set s2)
  rw [this, c0]
  simp [endsOf, dotProduct, Fin.sum_univ_four]
  ring

/-- A load that begins at `a` and goes to the end. -/
theorem resp_step {EI k L a : ℝ} (hE : 0 < EI) (hk : 0 < k) (h0 : 0 ≤ a) (h1 : a ≤ L) (q : ℝ) :
    ∃ w t c f, FResp EI k L (fun v _ => -q * ∫ x in a..L, v x) w t c f := by
  obtain ⟨β, hβ, hb⟩ := winkler_root hE hk
  have hd := fun x => kryW_derivs hβ ![q / k, 0, 0, 0] x
  obtain ⟨z1, z2, z3, z4⟩ := kryW_zero β ![q / k, 0, 0, 0]
  obtain ⟨w, t, c, f, h⟩ := resp_from (ρ := -q / EI) (k := k) hE h0 h1
    (w := fun x => kryW β ![q / k, 0, 0, 0] x - q / k) (fun x => (hd x).1.sub_const _) (fun x => (hd x).2.1)
    (fun x => (hd x).2.2.1) (fun x => (hd x).2.2.2.congr_deriv (by
      rw [← hb]
      have : q / EI = 4 * β ^ 4 * (q / k) := by rw [hb]; field_simp
      rw [neg_div, this]
      ring)) (by simp [z1]) (by simp [z2]) (by simp [z3])
  refine ⟨w, t, c, f, h.congr fun v θ κ _ _ => ?_⟩
  rw [z4]
  simp
  field_simp

/-- A point load. -/
theorem resp_point {EI k L a : ℝ} (hE : 0 < EI) (hk : 0 < k) (h0 : 0 ≤ a) (h1 : a ≤ L) (P : ℝ) :
    ∃ w t c f, FResp EI k L (fun v _ => -P * v a) w t c f := by
  obtain ⟨β, hβ, hb⟩ := winkler_root hE hk
  have hd := fun x => kryW_derivs hβ ![0, 0, 0, -P / EI] x
  obtain ⟨z1, z2, z3, z4⟩ := kryW_zero β ![0, 0, 0, -P / EI]
  obtain ⟨w, t, c, f, h⟩ := resp_from (ρ := 0) (k := k) hE h0 h1
    (fun x => (hd x).1) (fun x => (hd x).2.1)
    (fun x => (hd x).2.2.1) (fun x => (hd x).2.2.2.congr_deriv (by rw [← hb]; ring))
    (by simp [z1]) (by simp [z2]) (by simp [z3])
  refine ⟨w, t, c, f, h.congr fun v θ κ _ _ => ?_⟩
  rw [z4]
  simp
  field_simp

/-- The loads a foundation member takes. -/
def Load.OnFound : Load ℝ → Prop
  | .udl _ => True
  | .pl _ _ => True
  | .pudl _ _ _ => True
  | _ => False

theorem resp_load {EI k L : ℝ} (hE : 0 < EI) (hk : 0 < k) (hL : 0 ≤ L) (l : Load ℝ) (hl : l.OnFound)
    (hs : l.OnSpan L) : ∃ w t c f, FResp EI k L (fun v θ => l.work L v θ) w t c f := by
  cases l with
  | udl q =>
    obtain ⟨w, t, c, f, h⟩ := resp_step hE hk le_rfl hL q
    refine ⟨w, t, c, f, h.congr fun v θ κ _ _ => ?_⟩
    simp [Load.work, Load.intensity, Load.forces, Load.couplesAt]
  | pl P a =>
    obtain ⟨w, t, c, f, h⟩ := resp_point hE hk hs.1 hs.2 P
    refine ⟨w, t, c, f, h.congr fun v θ κ _ _ => ?_⟩
    simp [Load.work, Load.intensity, Load.forces, Load.couplesAt]
  | pudl q a e =>
    obtain ⟨a0, e0, ae⟩ := hs
    obtain ⟨w, t, c, f, h⟩ := resp_step hE hk a0 (by linarith : a ≤ L) q
    obtain ⟨w', t', c', f', h'⟩ := resp_step hE hk (by linarith : 0 ≤ a + e) ae (-q)
    refine ⟨_, _, _, _, (h.add hL h').congr fun v θ κ hv _ => ?_⟩
    have i0 := hv.ii hL
    have s1 : Set.uIcc a L ⊆ Set.uIcc 0 L := by
      rw [Set.uIcc_of_le (by linarith : a ≤ L), Set.uIcc_of_le hL]; exact Set.Icc_subset_Icc a0 le_rfl
    have s2 : Set.uIcc (a + e) L ⊆ Set.uIcc 0 L := by
      rw [Set.uIcc_of_le ae, Set.uIcc_of_le hL]; exact Set.Icc_subset_Icc (by linarith) le_rfl
    have e1 : ∫ x in a..(a + e), v x = (∫ x in a..L, v x) - ∫ x in (a + e)..L, v x := by
      have := intervalIntegral.integral_add_adjacent_intervals
        ((i0.mono_set s1).trans (i0.mono_set s2).symm) (i0.mono_set s2)
      linarith
    simp only [Load.work, Load.forces, Load.couplesAt, List.map_nil, List.sum_nil]
    rw [pudl_integral a0 e0 ae, e1]
    ring
  | _ => exact absurd hl (by simp [Load.OnFound])

theorem resp_loads {EI k L : ℝ} (hE : 0 < EI) (hk : 0 < k) (hL : 0 ≤ L) (own : List (Load ℝ))
    (hl : ∀ l ∈ own, l.OnFound ∧ l.OnSpan L) :
    ∃ w t c f, FResp EI k L (fun v θ => (own.map fun l => l.work L v θ).sum) w t c f := by
  induction own with
  | nil =>
    obtain ⟨β, hβ, hb⟩ := winkler_root hE hk
    exact ⟨_, _, _, _, (resp_free hE hβ hb hL 0).congr fun v θ κ _ _ => by simp⟩
  | cons l own ih =>
    obtain ⟨w, t, c, f, h⟩ := ih fun l' hl' => hl l' (by simp [hl'])
    obtain ⟨w', t', c', f', h'⟩ := resp_load hE hk hL l (hl l (by simp)).1 (hl l (by simp)).2
    exact ⟨_, _, _, _, (h'.add hL h).congr fun v θ κ _ _ => by simp⟩

/-! ### The member -/

/-- No energy, no motion. -/
theorem shape_zero {EI k L : ℝ} (hE : 0 < EI) (hk : 0 < k) (hL : 0 < L) {w t c : ℝ → ℝ}
    (sw : SlopeOn w t 0 L) (st : SlopeOn t c 0 L) (cc : Continuous c)
    (h : EI * (∫ x in (0 : ℝ)..L, c x * c x) + k * (∫ x in (0 : ℝ)..L, w x * w x) ≤ 0) :
    (∀ x ∈ Set.Icc 0 L, c x = 0) ∧ w 0 = 0 ∧ t 0 = 0 ∧ w L = 0 ∧ t L = 0 := by
  have pos : ∀ f : ℝ → ℝ, 0 ≤ ∫ x in (0 : ℝ)..L, f x * f x := fun f =>
    intervalIntegral.integral_nonneg hL.le fun x _ => mul_self_nonneg _
  have zero : ∀ f : ℝ → ℝ, ContinuousOn f (Set.Icc 0 L) → (∫ x in (0 : ℝ)..L, f x * f x) = 0 →
      ∀ x ∈ Set.Icc 0 L, f x = 0 := by
    intro f hf h0 x hx
    by_contra hne
    have h1 : 0 < ∫ x in (0 : ℝ)..L, f x * f x := by
      refine intervalIntegral.integral_pos hL (hf.mul hf) (fun y _ => mul_self_nonneg _)
        ⟨x, hx, mul_self_pos.2 hne⟩
    linarith
  have hc2 : ∫ x in (0 : ℝ)..L, c x * c x = 0 := by
    refine le_antisymm ?_ (pos c)
    by_contra hn
    have := mul_pos hE (not_le.1 hn)
    linarith [mul_nonneg hk.le (pos w)]
  have hw2 : ∫ x in (0 : ℝ)..L, w x * w x = 0 := by
    refine le_antisymm ?_ (pos w)
    by_contra hn
    have := mul_pos hk (not_le.1 hn)
    linarith [mul_nonneg hE.le (pos c)]
  have hc0 := zero c cc.continuousOn hc2
  have hw0 := zero w sw.cont hw2
  have ht : ∀ x ∈ Set.Icc 0 L, t x = t 0 := by
    intro x hx
    have := (st.mono le_rfl hx.2).integral hx.1 (cc.intervalIntegrable _ _)
    rw [intervalIntegral.integral_congr (g := fun _ => 0)] at this
    · simp at this; linarith
    · intro y hy
      rw [Set.uIcc_of_le hx.1] at hy
      exact hc0 y ⟨hy.1, hy.2.trans hx.2⟩
  have hti : IntervalIntegrable t volume 0 L := st.ii hL.le
  have hw := sw.integral hL.le hti
  rw [hw0 L ⟨hL.le, le_rfl⟩, hw0 0 ⟨le_rfl, hL.le⟩, intervalIntegral.integral_congr (g := fun _ => t 0)] at hw
  · simp only [intervalIntegral.integral_const, sub_zero, smul_eq_mul, mul_eq_zero] at hw
    have t0 : t 0 = 0 := hw.resolve_left hL.ne'
    exact ⟨hc0, hw0 0 ⟨le_rfl, hL.le⟩, t0, hw0 L ⟨hL.le, le_rfl⟩, by rw [ht L ⟨hL.le, le_rfl⟩, t0]⟩
  · intro y hy
    rw [Set.uIcc_of_le hL.le] at hy
    exact ht y hy

theorem exact_free {EI k L β : ℝ} (hE : 0 < EI) (hk : 0 < k) (hL : 0 < L) (hβ : β ≠ 0)
    (hb : 4 * β ^ 4 = k / EI) :
    ∃ KX : Mat4 ℝ, (∀ d, 0 ≤ energy KX d) ∧ (∀ d, energy KX d = 0 → d = 0) ∧
      ∀ d : Vec4 ℝ, ∃ a, endsOf L (kryW β a) (kryT β a) = d ∧
        KX *ᵥ d = ![EI * a 3, -(EI * a 2), -(EI * kryG β a L), EI * kryC β a L] := by
  set T : (Fin 4 → ℝ) →ₗ[ℝ] (Fin 4 → ℝ) :=
    { toFun := fun a => endsOf L (kryW β a) (kryT β a)
      map_add' := fun a b => by
        funext i; fin_cases i <;> simp [endsOf, kryW, kryT] <;> ring
      map_smul' := fun s a => by
        funext i; fin_cases i <;> simp [endsOf, kryW, kryT] <;> ring } with hT
  set B : (Fin 4 → ℝ) →ₗ[ℝ] (Fin 4 → ℝ) :=
    { toFun := fun a => ![EI * a 3, -(EI * a 2), -(EI * kryG β a L), EI * kryC β a L]
      map_add' := fun a b => by
        funext i; fin_cases i <;> simp [kryG, kryC] <;> ring
      map_smul' := fun s a => by
        funext i; fin_cases i <;> simp [kryG, kryC] <;> ring } with hB
  have hen : ∀ a, EI * (∫ x in (0 : ℝ)..L, kryC β a x * kryC β a x)
      + k * (∫ x in (0 : ℝ)..L, kryW β a x * kryW β a x) = T a ⬝ᵥ B a := by
    intro a
    have hr := resp_free hE hβ hb hL.le a
    have := hr.work _ _ _ hr.sw hr.st (hr.cc.intervalIntegrable _ _)
    rw [sub_zero] at this
    exact this
  have hz : ∀ a, T a ⬝ᵥ B a ≤ 0 → a = 0 := by
    intro a ha
    have hr := resp_free hE hβ hb hL.le a
    obtain ⟨q1, q2, q3, -, -⟩ := shape_zero hE hk hL hr.sw hr.st hr.cc (by rw [hen a]; exact ha)
    obtain ⟨z1, z2, z3, z4⟩ := kryW_zero β a
    have q4 : kryC β a 0 = 0 := q1 0 ⟨le_rfl, hL.le⟩
    have q5 : kryG β a 0 = 0 := by
      have d1 := (kryW_derivs hβ a 0).2.2.1.hasDerivWithinAt (s := Set.Icc 0 L)
      have d2 : HasDerivWithinAt (kryC β a) 0 (Set.Icc 0 L) 0 :=
        (hasDerivWithinAt_const (0 : ℝ) (Set.Icc 0 L) (0 : ℝ)).congr (fun x hx => q1 x hx) q4
      exact (uniqueDiffOn_Icc hL 0 ⟨le_rfl, hL.le⟩).eq_deriv _ d1 d2
    funext i
    fin_cases i
    · simpa [z1] using q2
    · simpa [z2] using q3
    · simpa [z3] using q4
    · simpa [z4] using q5
  have hinj : Function.Injective T := by
    rw [← LinearMap.ker_eq_bot, LinearMap.ker_eq_bot']
    intro a ha
    exact hz a (by rw [ha, zero_dotProduct])
  have hsurj := LinearMap.injective_iff_surjective.1 hinj
  set e := LinearEquiv.ofBijective T ⟨hinj, hsurj⟩ with he
  set KX : Mat4 ℝ := LinearMap.toMatrix' (B ∘ₗ e.symm.toLinearMap) with hKX
  have hKd : ∀ d, KX *ᵥ d = B (e.symm d) := by
    intro d
    rw [hKX, ← Matrix.toLin'_apply, Matrix.toLin'_toMatrix']
    rfl
  have hTe : ∀ d, T (e.symm d) = d := fun d => e.apply_symm_apply d
  refine ⟨KX, fun d => ?_, fun d hd => ?_, fun d => ⟨e.symm d, hTe d, hKd d⟩⟩
  · have := hen (e.symm d)
    rw [hTe, ← hKd] at this
    rw [energy, ← this]
    have pos : ∀ f : ℝ → ℝ, 0 ≤ ∫ x in (0 : ℝ)..L, f x * f x := fun f =>
      intervalIntegral.integral_nonneg hL.le fun x _ => mul_self_nonneg _
    exact add_nonneg (mul_nonneg hE.le (pos _)) (mul_nonneg hk.le (pos _))
  · have := hz (e.symm d) (by rw [hTe, ← hKd]; exact le_of_eq hd)
    rw [← hTe d, this, map_zero]

/-- The exact stiffness of a member on a foundation, its exact fixed-end forces, and the exact shape
for any displacements of its ends. -/
theorem exact_member {EI k L : ℝ} (hE : 0 < EI) (hk : 0 < k) (hL : 0 < L) (own : List (Load ℝ))
    (hl : ∀ l ∈ own, l.OnFound ∧ l.OnSpan L) :
    ∃ (KX : Mat4 ℝ) (RX : Vec4 ℝ), (∀ d, 0 ≤ energy KX d) ∧ (∀ d, energy KX d = 0 → d = 0) ∧
      ∀ d : Vec4 ℝ, ∃ w t c, endsOf L w t = d ∧
        FResp EI k L (fun v θ => (own.map fun l => l.work L v θ).sum) w t c (KX *ᵥ d + RX) := by
  obtain ⟨β, hβ, hb⟩ := winkler_root hE hk
  obtain ⟨w1, t1, c1, f1, h1⟩ := resp_loads hE hk hL.le own hl
  obtain ⟨KX, e1, e2, e3⟩ := exact_free hE hk hL hβ hb
  refine ⟨KX, f1 - KX *ᵥ endsOf L w1 t1, e1, e2, fun d => ?_⟩
  obtain ⟨a, ht, ha⟩ := e3 (d - endsOf L w1 t1)
  have hr := resp_free hE hβ hb hL.le a
  refine ⟨fun x => kryW β a x + w1 x, fun x => kryT β a x + t1 x, fun x => kryC β a x + c1 x, ?_, ?_⟩
  · have : endsOf L (fun x => kryW β a x + w1 x) (fun x => kryT β a x + t1 x)
        = endsOf L (kryW β a) (kryT β a) + endsOf L w1 t1 := by
      funext i; fin_cases i <;> simp [endsOf]
    rw [this, ht]
    abel
  · have := (hr.add hL.le h1).congr (Λ' := fun v θ => (own.map fun l => l.work L v θ).sum)
      fun v θ κ _ _ => by simp
    rw [← ha] at this
    have hf : KX *ᵥ d + (f1 - KX *ᵥ endsOf L w1 t1) = KX *ᵥ (d - endsOf L w1 t1) + f1 := by
      rw [mulVec_sub]
      abel
    rw [hf]
    exact this

end PyCBA
