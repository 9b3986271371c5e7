import Verif.Modal.Order
import Mathlib.MeasureTheory.Integral.IntervalIntegral.FundThmCalculus

/-!
Interpolation of a deflected shape by the cubic with its end values over one element of the
modal mesh: strain energy at most that of the shape, and how far the kinetic energies differ
(for C148).
-/

set_option linter.unusedSectionVars false
set_option linter.unusedSimpArgs false

namespace PyCBA

open Matrix Finset MeasureTheory

/-- `f` has the derivative `f'` along `[a, b]`: it is continuous there, has `f'` as its
derivative from the right inside. -/
structure SlopeOn (f f' : ℝ → ℝ) (a b : ℝ) : Prop where
  cont : ContinuousOn f (Set.Icc a b)
  deriv : ∀ x ∈ Set.Ioo a b, HasDerivWithinAt f (f' x) (Set.Ioi x) x

theorem SlopeOn.mono {f f' : ℝ → ℝ} {a b c d : ℝ} (h : SlopeOn f f' a b) (hc : a ≤ c) (hd : d ≤ b) :
    SlopeOn f f' c d :=
  ⟨h.cont.mono (Set.Icc_subset_Icc hc hd), fun x hx =>
    h.deriv x ⟨hc.trans_lt hx.1, hx.2.trans_le hd⟩⟩

theorem SlopeOn.sub {f f' g g' : ℝ → ℝ} {a b : ℝ} (h : SlopeOn f f' a b) (hg : SlopeOn g g' a b) :
    SlopeOn (fun x => f x - g x) (fun x => f' x - g' x) a b :=
  ⟨h.cont.sub hg.cont, fun x hx => (h.deriv x hx).sub (hg.deriv x hx)⟩

theorem SlopeOn.of_hasDerivAt {f f' : ℝ → ℝ} (a b : ℝ) (h : ∀ x, HasDerivAt f (f' x) x) :
    SlopeOn f f' a b :=
  ⟨fun x _ => (h x).continuousAt.continuousWithinAt, fun x _ => (h x).hasDerivWithinAt⟩

theorem SlopeOn.integral {f f' : ℝ → ℝ} {a b : ℝ} (h : SlopeOn f f' a b) (hab : a ≤ b)
    (hi : IntervalIntegrable f' volume a b) : ∫ x in a..b, f' x = f b - f a :=
  intervalIntegral.integral_eq_sub_of_hasDeriv_right_of_le hab h.cont h.deriv hi

/-- Cauchy-Schwarz against a constant. -/
theorem sq_integral_le {f : ℝ → ℝ} {a b : ℝ} (hab : a ≤ b) (hf : IntervalIntegrable f volume a b)
    (hf2 : IntervalIntegrable (fun x => f x ^ 2) volume a b) :
    (∫ x in a..b, f x) ^ 2 ≤ (b - a) * ∫ x in a..b, f x ^ 2 := by
  rcases eq_or_lt_of_le hab with rfl | hlt
  · simp
  have hd : 0 < b - a := sub_pos.2 hlt
  obtain ⟨I, hI⟩ : ∃ I, I = ∫ x in a..b, f x := ⟨_, rfl⟩
  obtain ⟨J, hJ⟩ : ∃ J, J = ∫ x in a..b, f x ^ 2 := ⟨_, rfl⟩
  have h0 : 0 ≤ ∫ x in a..b, (f x - I / (b - a)) ^ 2 :=
    intervalIntegral.integral_nonneg hab fun x _ => sq_nonneg _
  have h1 : ∫ x in a..b, (f x - I / (b - a)) ^ 2
      = J - 2 * (I / (b - a)) * I + (I / (b - a)) ^ 2 * (b - a) := by
    have e : (fun x => (f x - I / (b - a)) ^ 2)
        = fun x => (f x ^ 2 - 2 * (I / (b - a)) * f x) + (I / (b - a)) ^ 2 := by
      funext x; ring
    rw [e, intervalIntegral.integral_add (hf2.sub (hf.const_mul _)) intervalIntegrable_const,
      intervalIntegral.integral_sub hf2 (hf.const_mul _), intervalIntegral.integral_const_mul,
      intervalIntegral.integral_const, ← hI, ← hJ, smul_eq_mul]
    ring
  rw [h1] at h0
  rw [← hI, ← hJ]
  have h2 : J - 2 * (I / (b - a)) * I + (I / (b - a)) ^ 2 * (b - a) = J - I ^ 2 / (b - a) := by
    field_simp
    ring
  rw [h2] at h0
  have h3 : I ^ 2 / (b - a) ≤ J := by linarith
  rw [div_le_iff₀ hd] at h3
  linarith

/-- Curvature of the cubic. -/
noncomputable def cubK (h : ℝ) (d : Vec4 ℝ) (x : ℝ) : ℝ := 2 * cubC h d + 6 * cubE h d * x

theorem cubV_deriv (h : ℝ) (d : Vec4 ℝ) (a x : ℝ) :
    HasDerivAt (fun x => cubV h d (x - a)) (cubT h d (x - a)) x := by
  have hx : HasDerivAt (fun x : ℝ => x - a) 1 x := (hasDerivAt_id x).sub_const a
  have := (((hx.const_mul (d 1)).const_add (d 0)).add ((hx.pow 2).const_mul (cubC h d))).add
    ((hx.pow 3).const_mul (cubE h d))
  refine (this.congr_deriv ?_)
  simp only [cubT]
  norm_num
  ring

theorem cubT_deriv (h : ℝ) (d : Vec4 ℝ) (a x : ℝ) :
    HasDerivAt (fun x => cubT h d (x - a)) (cubK h d (x - a)) x := by
  have hx : HasDerivAt (fun x : ℝ => x - a) 1 x := (hasDerivAt_id x).sub_const a
  have := ((hx.const_mul (2 * cubC h d)).const_add (d 1)).add ((hx.pow 2).const_mul (3 * cubE h d))
  refine (this.congr_deriv ?_)
  simp only [cubK]
  norm_num
  ring

theorem cubK_cont (h : ℝ) (d : Vec4 ℝ) (a : ℝ) : Continuous fun x => cubK h d (x - a) := by
  unfold cubK; fun_prop

theorem cub_whole {h : ℝ} (hh : h ≠ 0) (d : Vec4 ℝ) :
    ![cubV h d 0, cubT h d 0, cubV h d (0 + h), cubT h d (0 + h)] = d := by
  obtain ⟨a1, a2⟩ := cub_start h d
  obtain ⟨c1, c2⟩ := cub_end hh d
  rw [zero_add, a1, a2, c1, c2]
  ext i
  fin_cases i <;> rfl

/-- Strain energy of the cubic as an integral. -/
theorem cub_strain_integral {h : ℝ} (hh : h ≠ 0) (d : Vec4 ℝ) (a : ℝ) :
    ∫ x in a..(a + h), cubK h d (x - a) ^ 2 = energy (kEbeam 1 h) d := by
  have hs := cub_strain 1 h d 0 hh
  rw [cub_whole hh] at hs
  have hd : ∀ x, HasDerivAt (fun x => 4 * cubC h d ^ 2 * (x - a)
      + 12 * cubC h d * cubE h d * (x - a) ^ 2 + 12 * cubE h d ^ 2 * (x - a) ^ 3)
      (cubK h d (x - a) ^ 2) x := by
    intro x
    have hx : HasDerivAt (fun x : ℝ => x - a) 1 x := (hasDerivAt_id x).sub_const a
    have := ((hx.const_mul (4 * cubC h d ^ 2)).add
      ((hx.pow 2).const_mul (12 * cubC h d * cubE h d))).add
      ((hx.pow 3).const_mul (12 * cubE h d ^ 2))
    refine (this.congr_deriv ?_)
    simp only [cubK]
    norm_num
    ring
  rw [intervalIntegral.integral_eq_sub_of_hasDerivAt (fun x _ => hd x)
    (((cubK_cont h d a).pow 2).intervalIntegrable _ _), hs]
  ring

/-- Kinetic energy of the cubic as an integral. -/
theorem cub_kinetic_integral {h : ℝ} (hh : h ≠ 0) (d : Vec4 ℝ) (a : ℝ) :
    ∫ x in a..(a + h), cubV h d (x - a) ^ 2 = energy (mConsistent 1 h) d := by
  obtain ⟨c1, c2⟩ := cub_end hh d
  have h1 := C69_kinetic_energy 1 h d (d 0) (d 1) (cubC h d) (cubE h d) rfl rfl c1 c2
  rw [energy, h1]
  have e : (fun x => cubV h d (x - a) ^ 2) = fun x => (fun y => cubV h d y ^ 2) (x - a) := rfl
  rw [e, intervalIntegral.integral_comp_sub_right (fun y => cubV h d y ^ 2) a]
  simp only [sub_self, add_sub_cancel_left, one_mul, cubV]

/-- The end values of a shape over the element `[a, a + h]`. -/
def endVals (w t : ℝ → ℝ) (a h : ℝ) : Vec4 ℝ := ![w a, t a, w (a + h), t (a + h)]

section element

variable {w t c : ℝ → ℝ} {a h : ℝ}

/-- The curvature of the shape against that of its cubic. -/
theorem curv_orth (hh : 0 < h) (hw : SlopeOn w t a (a + h)) (ht : SlopeOn t c a (a + h))
    (hc : IntervalIntegrable c volume a (a + h))
    (hc2 : IntervalIntegrable (fun x => c x ^ 2) volume a (a + h)) :
    IntervalIntegrable (fun x => (c x - cubK h (endVals w t a h) (x - a)) ^ 2) volume a (a + h) ∧
    ∫ x in a..(a + h), (c x - cubK h (endVals w t a h) (x - a)) ^ 2
      = (∫ x in a..(a + h), c x ^ 2) - energy (kEbeam 1 h) (endVals w t a h) := by
  set d := endVals w t a h with hd
  have hah : a ≤ a + h := by linarith
  have hK := cubK_cont h d a
  have hcs : IntervalIntegrable (fun x => c x * cubK h d (x - a)) volume a (a + h) :=
    hc.mul_continuousOn hK.continuousOn
  have hs2 : IntervalIntegrable (fun x => cubK h d (x - a) ^ 2) volume a (a + h) :=
    (hK.pow 2).intervalIntegrable _ _
  have hG : SlopeOn (fun x => t x * cubK h d (x - a) - 6 * cubE h d * w x)
      (fun x => c x * cubK h d (x - a)) a (a + h) := by
    constructor
    · exact (ht.cont.mul hK.continuousOn).sub (hw.cont.const_smul (6 * cubE h d))
    · intro x hx
      have hk : HasDerivAt (fun x => cubK h d (x - a)) (6 * cubE h d) x := by
        have hx : HasDerivAt (fun x : ℝ => x - a) 1 x := (hasDerivAt_id x).sub_const a
        refine ((hx.const_mul (6 * cubE h d)).const_add (2 * cubC h d)).congr_deriv (by ring)
      refine (((ht.deriv x hx).mul hk.hasDerivWithinAt).sub
        ((hw.deriv x hx).const_mul (6 * cubE h d))).congr_deriv ?_
      ring
  have hI : ∫ x in a..(a + h), c x * cubK h d (x - a) = energy (kEbeam 1 h) d := by
    rw [hG.integral hah hcs]
    have d0 : w a = d 0 := rfl
    have d1 : t a = d 1 := rfl
    have d2 : w (a + h) = d 2 := rfl
    have d3 : t (a + h) = d 3 := rfl
    rw [d0, d1, d2, d3]
    clear_value d
    simp only [add_sub_cancel_left, sub_self, cubK, cubC, cubE]
    simp [energy, kEbeam, dotProduct, mulVec, Fin.sum_univ_four]
    field_simp
    ring
  have e : (fun x => (c x - cubK h d (x - a)) ^ 2)
      = fun x => (c x ^ 2 - 2 * (c x * cubK h d (x - a))) + cubK h d (x - a) ^ 2 := by
    funext x; ring
  rw [e]
  refine ⟨(hc2.sub (hcs.const_mul 2)).add hs2, ?_⟩
  rw [intervalIntegral.integral_add (hc2.sub (hcs.const_mul 2)) hs2,
    intervalIntegral.integral_sub hc2 (hcs.const_mul 2), intervalIntegral.integral_const_mul, hI,
    cub_strain_integral hh.ne']
  ring

/-- The strain energy of the cubic is at most that of the shape. -/
theorem interp_strain (hh : 0 < h) (hw : SlopeOn w t a (a + h)) (ht : SlopeOn t c a (a + h))
    (hc : IntervalIntegrable c volume a (a + h))
    (hc2 : IntervalIntegrable (fun x => c x ^ 2) volume a (a + h)) :
    energy (kEbeam 1 h) (endVals w t a h) ≤ ∫ x in a..(a + h), c x ^ 2 := by
  obtain ⟨-, h2⟩ := curv_orth hh hw ht hc hc2
  have h0 : 0 ≤ ∫ x in a..(a + h), (c x - cubK h (endVals w t a h) (x - a)) ^ 2 :=
    intervalIntegral.integral_nonneg (by linarith) fun x _ => sq_nonneg _
  linarith

/-- How far the shape is from its cubic. -/
theorem interp_error (hh : 0 < h) (hw : SlopeOn w t a (a + h)) (ht : SlopeOn t c a (a + h))
    (hc : IntervalIntegrable c volume a (a + h))
    (hc2 : IntervalIntegrable (fun x => c x ^ 2) volume a (a + h)) {x : ℝ}
    (hx : x ∈ Set.Icc a (a + h)) :
    (w x - cubV h (endVals w t a h) (x - a)) ^ 2 ≤ h ^ 3 * ∫ x in a..(a + h), c x ^ 2 := by
  obtain ⟨i2, h2⟩ := curv_orth hh hw ht hc hc2
  set d := endVals w t a h with hd
  have hah : a ≤ a + h := by linarith
  have hen : 0 ≤ energy (kEbeam 1 h) d := kEbeam_one_nonneg hh d
  set J := ∫ x in a..(a + h), c x ^ 2 with hJ
  have i1 : IntervalIntegrable (fun x => c x - cubK h d (x - a)) volume a (a + h) :=
    hc.sub ((cubK_cont h d a).intervalIntegrable _ _)
  have sT : SlopeOn (fun x => t x - cubT h d (x - a)) (fun x => c x - cubK h d (x - a)) a (a + h) :=
    ht.sub (.of_hasDerivAt _ _ (cubT_deriv h d a))
  have sV : SlopeOn (fun x => w x - cubV h d (x - a)) (fun x => t x - cubT h d (x - a)) a (a + h) :=
    hw.sub (.of_hasDerivAt _ _ (cubV_deriv h d a))
  have z1 : t a - cubT h d (a - a) = 0 := by
    rw [sub_self, (cub_start h d).2, hd]; simp [endVals]
  have z0 : w a - cubV h d (a - a) = 0 := by
    rw [sub_self, (cub_start h d).1, hd]; simp [endVals]
  have sub : ∀ y ∈ Set.Icc a (a + h), Set.uIcc a y ⊆ Set.uIcc a (a + h) := by
    intro y hy
    rw [Set.uIcc_of_le hy.1, Set.uIcc_of_le hah]
    exact Set.Icc_subset_Icc le_rfl hy.2
  have bT : ∀ y ∈ Set.Icc a (a + h), (t y - cubT h d (y - a)) ^ 2 ≤ h * J := by
    intro y hy
    have j1 := i1.mono_set (sub y hy)
    have j2 := i2.mono_set (sub y hy)
    have e1 := (sT.mono le_rfl hy.2).integral hy.1 j1
    have e2 := sq_integral_le hy.1 j1 j2
    rw [z1, sub_zero] at e1
    rw [e1] at e2
    have e3 : ∫ x in a..y, (c x - cubK h d (x - a)) ^ 2
        ≤ ∫ x in a..(a + h), (c x - cubK h d (x - a)) ^ 2 := by
      apply intervalIntegral.integral_mono_interval le_rfl hy.1 hy.2 _ i2
      exact Filter.Eventually.of_forall fun x => sq_nonneg _
    have e4 : 0 ≤ ∫ x in a..y, (c x - cubK h d (x - a)) ^ 2 :=
      intervalIntegral.integral_nonneg hy.1 fun x _ => sq_nonneg _
    have e5 : y - a ≤ h := by linarith [hy.2]
    calc (t y - cubT h d (y - a)) ^ 2 ≤ (y - a) * ∫ x in a..y, (c x - cubK h d (x - a)) ^ 2 := e2
      _ ≤ h * J := by
        apply mul_le_mul e5 _ e4 hh.le
        linarith
  have k1 : IntervalIntegrable (fun x => t x - cubT h d (x - a)) volume a x := by
    apply ContinuousOn.intervalIntegrable
    rw [Set.uIcc_of_le hx.1]
    exact sT.cont.mono (Set.Icc_subset_Icc le_rfl hx.2)
  have k2 : IntervalIntegrable (fun x => (t x - cubT h d (x - a)) ^ 2) volume a x := by
    apply ContinuousOn.intervalIntegrable
    rw [Set.uIcc_of_le hx.1]
    exact (sT.cont.mono (Set.Icc_subset_Icc le_rfl hx.2)).pow 2
  have e1 := (sV.mono le_rfl hx.2).integral hx.1 k1
  have e2 := sq_integral_le hx.1 k1 k2
  rw [z0, sub_zero] at e1
  rw [e1] at e2
  have hJ0 : 0 ≤ J := intervalIntegral.integral_nonneg hah fun x _ => sq_nonneg _
  have e3 : ∫ x in a..x, (t x - cubT h d (x - a)) ^ 2 ≤ ∫ _ in a..x, h * J :=
    intervalIntegral.integral_mono_on hx.1 k2 intervalIntegrable_const fun y hy =>
      bT y ⟨hy.1, hy.2.trans hx.2⟩
  rw [intervalIntegral.integral_const, smul_eq_mul] at e3
  have e5 : x - a ≤ h := by linarith [hx.2]
  have e6 : 0 ≤ x - a := by linarith [hx.1]
  calc (w x - cubV h d (x - a)) ^ 2 ≤ (x - a) * ∫ x in a..x, (t x - cubT h d (x - a)) ^ 2 := e2
    _ ≤ (x - a) * ((x - a) * (h * J)) := mul_le_mul_of_nonneg_left e3 e6
    _ ≤ h * (h * (h * J)) := by
      have : 0 ≤ h * J := mul_nonneg hh.le hJ0
      apply mul_le_mul e5 (mul_le_mul_of_nonneg_right e5 this) (mul_nonneg e6 this) hh.le
    _ = h ^ 3 * J := by ring

/-- The kinetic energy of the shape is at most a little more than that of the cubic. -/
theorem interp_kinetic (hh : 0 < h) (hw : SlopeOn w t a (a + h)) (ht : SlopeOn t c a (a + h))
    (hc : IntervalIntegrable c volume a (a + h))
    (hc2 : IntervalIntegrable (fun x => c x ^ 2) volume a (a + h)) {δ : ℝ} (hδ : 0 < δ) :
    ∫ x in a..(a + h), w x ^ 2 ≤ (1 + δ) * energy (mConsistent 1 h) (endVals w t a h)
      + (1 + 1 / δ) * (h ^ 4 * ∫ x in a..(a + h), c x ^ 2) := by
  have hah : a ≤ a + h := by linarith
  set J := ∫ x in a..(a + h), c x ^ 2 with hJ
  set d := endVals w t a h with hd
  have hp : Continuous fun x => cubV h d (x - a) := by unfold cubV; fun_prop
  have i1 : IntervalIntegrable (fun x => w x ^ 2) volume a (a + h) := by
    apply ContinuousOn.intervalIntegrable
    rw [Set.uIcc_of_le hah]
    exact hw.cont.pow 2
  have i2 : IntervalIntegrable (fun x => (1 + δ) * cubV h d (x - a) ^ 2) volume a (a + h) :=
    (continuous_const.mul (hp.pow 2)).intervalIntegrable _ _
  have hle : ∫ x in a..(a + h), w x ^ 2
      ≤ ∫ x in a..(a + h), ((1 + δ) * cubV h d (x - a) ^ 2 + (1 + 1 / δ) * (h ^ 3 * J)) := by
    apply intervalIntegral.integral_mono_on hah i1 (i2.add intervalIntegrable_const)
    intro x hx
    have h1 := interp_error hh hw ht hc hc2 hx
    rw [← hd, ← hJ] at h1
    have h2 : 0 ≤ (1 + 1 / δ) := by positivity
    have h3 := mul_le_mul_of_nonneg_left h1 h2
    have h4 : w x ^ 2 ≤ (1 + δ) * cubV h d (x - a) ^ 2
        + (1 + 1 / δ) * (w x - cubV h d (x - a)) ^ 2 := by
      generalize cubV h d (x - a) = p
      have : (1 + δ) * p ^ 2 + (1 + 1 / δ) * (w x - p) ^ 2 - w x ^ 2
          = (δ * p - (w x - p)) ^ 2 / δ := by field_simp; ring
      have h5 : 0 ≤ (δ * p - (w x - p)) ^ 2 / δ := by positivity
      linarith
    linarith
  rw [intervalIntegral.integral_add i2 intervalIntegrable_const,
    intervalIntegral.integral_const_mul, cub_kinetic_integral hh.ne',
    intervalIntegral.integral_const, smul_eq_mul, add_sub_cancel_left] at hle
  calc _ ≤ _ := hle
    _ = _ := by ring

end element

end PyCBA
