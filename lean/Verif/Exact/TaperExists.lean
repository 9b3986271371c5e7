import Verif.Exact.Taper
import Verif.Exact.Report
import Verif.Analysis.State

set_option linter.unusedSectionVars false
set_option linter.unusedSimpArgs false

/-!
The continuous beam with tapered members has exactly one state.
-/

namespace PyCBA

open MeasureTheory Set Matrix

/-! ### The exact flexibility is positive -/

/-- The matrix of the exact flexibility coefficients. -/
noncomputable def flexX (EI : ℝ → ℝ) (L : ℝ) : Matrix (Fin 2) (Fin 2) ℝ :=
  !![exactFlex EI L 0 0, exactFlex EI L 0 1; exactFlex EI L 0 1, exactFlex EI L 1 1]

theorem flexX_PD2 {r : Rigidity ℝ} {L : ℝ} (hL : 0 < L) (hr : r.Sensible L) :
    PD2 (flexX r.eval L) := by
  refine ⟨by simp [flexX], fun a b hab => ?_⟩
  have hi := sensible_tame hr
  set f : ℝ → ℝ := fun x => (a * unitM L 0 x + b * unitM L 1 x) with hf
  have tf : Tame L f := by
    refine Tame.of_continuous ?_
    simp only [hf, unitM, if_true, if_neg (show (1 : Fin 2) ≠ 0 by decide)]
    fun_prop
  have i00 := (((unitM_tame L 0).mul (unitM_tame L 0)).mul hi).integrable hL.le
  have i01 := (((unitM_tame L 0).mul (unitM_tame L 1)).mul hi).integrable hL.le
  have i11 := (((unitM_tame L 1).mul (unitM_tame L 1)).mul hi).integrable hL.le
  have hint : IntervalIntegrable (fun x => f x * f x * (r.eval x)⁻¹) volume 0 L :=
    ((tf.mul tf).mul hi).integrable hL.le
  have e : quad2 (flexX r.eval L) a b = ∫ x in (0 : ℝ)..L, f x * f x * (r.eval x)⁻¹ := by
    simp only [quad2, flexX, Matrix.of_apply, Matrix.cons_val', Matrix.cons_val_zero,
      Matrix.cons_val_one, Matrix.cons_val_fin_one, exactFlex, div_eq_mul_inv]
    have : ∫ x in (0 : ℝ)..L, f x * f x * (r.eval x)⁻¹
        = ∫ x in (0 : ℝ)..L, (a ^ 2 * (unitM L 0 x * unitM L 0 x * (r.eval x)⁻¹)
          + 2 * a * b * (unitM L 0 x * unitM L 1 x * (r.eval x)⁻¹))
          + b ^ 2 * (unitM L 1 x * unitM L 1 x * (r.eval x)⁻¹) := by
      refine intervalIntegral.integral_congr fun x _ => ?_
      simp only [hf]
      ring
    rw [this, intervalIntegral.integral_add ((i00.const_mul _).add (i01.const_mul _))
      (i11.const_mul _), intervalIntegral.integral_add (i00.const_mul _) (i01.const_mul _),
      intervalIntegral.integral_const_mul, intervalIntegral.integral_const_mul,
      intervalIntegral.integral_const_mul]
    ring
  rw [e]
  obtain ⟨_, ⟨e0, he0, hb⟩, _⟩ := hr
  have hinv : ∀ x ∈ Ioc (0 : ℝ) L, 0 < (r.eval x)⁻¹ := fun x hx =>
    inv_pos.2 (he0.trans_le (hb x ⟨hx.1.le, hx.2⟩))
  rw [intervalIntegral.integral_pos_iff_support_of_nonneg_ae' (by
    rw [uIoc_of_le hL.le, Filter.EventuallyLE, ae_restrict_iff' measurableSet_Ioc]
    filter_upwards with x hx
    exact mul_nonneg (mul_self_nonneg _) (hinv x hx).le) hint]
  refine ⟨hL, ?_⟩
  have hsub : Ioc 0 L \ {a * L / (a + b)}
      ⊆ Function.support (fun x => f x * f x * (r.eval x)⁻¹) ∩ Ioc 0 L := by
    rintro x ⟨hx, hne⟩
    refine ⟨?_, hx⟩
    simp only [Function.mem_support]
    refine mul_ne_zero (mul_self_ne_zero.2 fun h0 => ?_) (hinv x hx).ne'
    simp only [hf, unitM, if_true, if_neg (show (1 : Fin 2) ≠ 0 by decide)] at h0
    have h1 : a * L = (a + b) * x := by
      field_simp at h0
      linear_combination h0
    by_cases hs : a + b = 0
    · rw [hs, zero_mul] at h1
      have ha : a = 0 := (mul_eq_zero.1 h1).resolve_right hL.ne'
      exact hab ⟨ha, by rw [ha, zero_add] at hs; exact hs⟩
    · exact hne (by rw [mem_singleton_iff, eq_div_iff hs, h1]; ring)
  refine lt_of_lt_of_le ?_ (measure_mono hsub)
  rw [measure_sdiff_null (measure_singleton _), Real.volume_Ioc, sub_zero]
  exact ENNReal.ofReal_pos.2 hL

/-! ### Lines of a span -/

theorem momentLeft_continuousAt (ld : Load ℝ) (L x : ℝ) (hx : ∀ p ∈ ld.couplesAt, p.2 ≠ x) :
    ContinuousAt (ld.momentLeft L) x := by
  have h0 := (intensity_primitive ld L).2.1
  cases ld with
  | pl P a =>
    have e : (Load.pl P a).momentLeft L = fun x => P * max (x - a) 0 := by
      rw [momentLeft_pl]
      funext y
      by_cases h : a < y
      · rw [if_pos h, max_eq_left (by linarith)]
      · rw [if_neg h, max_eq_right (by linarith), mul_zero]
    rw [e]
    exact (by fun_prop : Continuous fun x => P * max (x - a) 0).continuousAt
  | ml m a =>
    rw [momentLeft_ml]
    have hxa : a ≠ x := by
      have := hx (m, a) (by simp [Load.couplesAt])
      simpa using this
    rcases lt_or_gt_of_ne hxa with h | h
    · refine (continuousAt_const (y := m)).congr ?_
      filter_upwards [Ioi_mem_nhds h] with y hy
      rw [if_pos (mem_Ioi.1 hy)]
    · refine (continuousAt_const (y := (0 : ℝ))).congr ?_
      filter_upwards [Iio_mem_nhds h] with y hy
      rw [if_neg (not_lt.2 (le_of_lt hy))]
  | _ => rw [momentLeft_dist _ _ rfl rfl]; exact h0.continuousAt

theorem cutM_continuousAt (L : ℝ) (own : List (Load ℝ)) (F : Vec4 ℝ) (x : ℝ)
    (hx : ∀ ld ∈ own, ∀ p ∈ ld.couplesAt, p.2 ≠ x) : ContinuousAt (cutM L own F) x := by
  unfold cutM
  refine ContinuousAt.sub (by fun_prop) ?_
  induction own with
  | nil => simp [continuousAt_const]
  | cons a l ih =>
    simp only [List.map_cons, List.sum_cons]
    exact (momentLeft_continuousAt a L x (hx a (by simp))).add
      (ih fun ld h => hx ld (List.mem_cons_of_mem _ h))

theorem taper_line {r : Rigidity ℝ} {L : ℝ} (hL : 0 < L) (hr : r.Sensible L)
    (own : List (Load ℝ)) (F : Vec4 ℝ)
    (hf : F 0 + F 2 = (own.map fun ld => ld.total L).sum)
    (hm : F 1 + F 3 + F 2 * L = (own.map fun ld => ld.momentAboutLeft L).sum) (v0 t0 : ℝ) :
    ∃ v θ, TaperSpan r.eval L own F v θ ∧ v 0 = v0 ∧ θ 0 = t0 := by
  set κ : ℝ → ℝ := fun x => cutM L own F x / r.eval x with hκ
  have t : Tame L κ := by
    simpa only [hκ, div_eq_mul_inv] using (cutM_tame L own F).mul (sensible_tame hr)
  have hi : IntervalIntegrable κ volume 0 L := t.integrable hL.le
  have hsub : ∀ x ∈ Icc 0 L, IntervalIntegrable κ volume 0 x := fun x hx =>
    hi.mono_set (by rw [uIcc_of_le hx.1, uIcc_of_le hL.le]; exact Icc_subset_Icc_right hx.2)
  set θ : ℝ → ℝ := fun x => t0 + ∫ y in (0 : ℝ)..x, κ y with hθ
  have cθ : ContinuousOn θ (Icc 0 L) := by
    refine continuousOn_const.add ?_
    have := intervalIntegral.continuousOn_primitive_interval' hi (a := 0) (by simp)
    rwa [uIcc_of_le hL.le] at this
  have iθ : IntervalIntegrable θ volume 0 L := cθ.intervalIntegrable_of_Icc hL.le
  set v : ℝ → ℝ := fun x => v0 + ∫ y in (0 : ℝ)..x, θ y with hv
  have cv : ContinuousOn v (Icc 0 L) := by
    refine continuousOn_const.add ?_
    have := intervalIntegral.continuousOn_primitive_interval' iθ (a := 0) (by simp)
    rwa [uIcc_of_le hL.le] at this
  refine ⟨v, θ, ⟨fun x hx => ?_, fun x hx hb hc => ?_, cv, cθ, hf, hm⟩, by simp [hv], by simp [hθ]⟩
  · have hI : Icc (0 : ℝ) L ∈ nhds x := Icc_mem_nhds hx.1 hx.2
    have := intervalIntegral.integral_hasDerivAt_right (a := 0) (b := x) (f := θ)
      (iθ.mono_set (by rw [uIcc_of_le hx.1.le, uIcc_of_le hL.le]; exact Icc_subset_Icc_right hx.2.le))
      (ContinuousOn.stronglyMeasurableAtFilter_nhdsWithin (cθ.mono Ioo_subset_Icc_self)
        measurableSet_Ioo x |>.filter_mono (by rw [isOpen_Ioo.nhdsWithin_eq hx]))
      (cθ.continuousAt hI)
    exact this.const_add v0
  · have hk : ContinuousAt κ x := by
      obtain ⟨_, ⟨e, he, hb'⟩, _⟩ := hr
      exact (cutM_continuousAt L own F x hc).div hb
        (he.trans_le (hb' x ⟨hx.1.le, hx.2.le⟩)).ne'
    have := intervalIntegral.integral_hasDerivAt_right (a := 0) (b := x) (f := κ)
      (hsub x ⟨hx.1.le, hx.2.le⟩) (t.1.stronglyMeasurable.stronglyMeasurableAtFilter) hk
    exact this.const_add t0

/-! ### Exact members -/

theorem energy_released {kff kr : Mat4 ℝ} {rel : List (Fin 4)} (h : IsReleaseOf kff kr rel)
    (d : Vec4 ℝ) : ∃ d' : Vec4 ℝ, (∀ p, p ∉ rel → d' p = d p) ∧ (∀ r ∈ rel, (kff *ᵥ d') r = 0) ∧
      energy kr d = energy kff d' := by
  obtain ⟨d', h1, h2⟩ := h.1 d
  have h3 := h.2 d d' h1 h2
  refine ⟨d', h1, h2, ?_⟩
  simp only [energy, h3, dot4]
  have : ∀ p, d p * (kff *ᵥ d') p = d' p * (kff *ᵥ d') p := by
    intro p
    by_cases hp : p ∈ rel
    · rw [h2 p hp]; ring
    · rw [h1 p hp]
  rw [this 0, this 1, this 2, this 3]

theorem PD2.chord_zero {Kth : Matrix (Fin 2) (Fin 2) ℝ} (h : PD2 Kth) {L : ℝ} {d : Vec4 ℝ}
    (h0 : energy (TtKT Kth L) d = 0) : (d 0 - d 2) / L + d 1 = 0 ∧ (d 0 - d 2) / L + d 3 = 0 := by
  rw [energy_TtKT] at h0
  by_contra hc
  have := h.2 (chordRot d L).1 (chordRot d L).2 (by
    simp only [chordRot]
    intro hz
    exact hc ⟨by linarith [hz.1], by linarith [hz.2]⟩)
  linarith

/-- Members released in the same way have the same motions without strain energy. -/
theorem same_mechanism {Kth Kth' : Matrix (Fin 2) (Fin 2) ℝ} (h : PD2 Kth) {L : ℝ} {k k' : Mat4 ℝ}
    {et : EType} (hk : condenseFor (TtKT Kth L) et = .ok k)
    (hk' : condenseFor (TtKT Kth' L) et = .ok k') (d : Vec4 ℝ) (h0 : energy k d = 0) :
    energy k' d = 0 := by
  obtain ⟨d', a1, a2, a3⟩ := energy_released (condenseFor_release _ _ _ hk) d
  rw [a3] at h0
  obtain ⟨c1, c2⟩ := h.chord_zero h0
  have hz : TtKT Kth' L *ᵥ d' = 0 := by
    rw [taper_TtKT, c1, c2]
    ext p
    fin_cases p <;> simp
  have := (condenseFor_release _ _ _ hk').2 d d' a1 fun r _ => by rw [hz]; rfl
  simp only [energy, this, hz, dot4]
  simp

theorem condense_exists {Kth : Matrix (Fin 2) (Fin 2) ℝ} (hK : PD2 Kth) (L : ℝ) (et : EType)
    (het : et ≠ .PP) : ∃ kr, condenseFor (TtKT Kth L) et = .ok kr := by
  obtain ⟨p0, p1, _⟩ := hK.det_pos
  cases et with
  | PP => exact absurd rfl het
  | FF => exact ⟨_, rfl⟩
  | FP =>
    simp only [condenseFor, condense1]
    rw [if_neg (by rw [TtKT_apply]; simpa using p1.ne')]
    exact ⟨_, rfl⟩
  | PF =>
    simp only [condenseFor, condense1]
    rw [if_neg (by rw [TtKT_apply]; simpa using p0.ne')]
    exact ⟨_, rfl⟩

/-- The exact clamped end forces of the loads of a member. -/
noncomputable def exactClamped (Kx : Matrix (Fin 2) (Fin 2) ℝ) (L : ℝ) (own : List (Load ℝ))
    (E0 E1 : ℝ) : CNL ℝ :=
  refFF (clampedSum L own) (Kx 0 0 * E0 + Kx 0 1 * E1) (Kx 1 0 * E0 + Kx 1 1 * E1) L

/-- The stiffness equations of the exact clamped member are equilibrium and the flexibility
equations. -/
theorem exact_iff {X Kx : Matrix (Fin 2) (Fin 2) ℝ} (hX : inv2 X = .ok Kx)
    {L : ℝ} (hL : 0 < L) {own : List (Load ℝ)} (hown : ∀ ld ∈ own, ld.Plain L) (E0 E1 : ℝ)
    (F d : Vec4 ℝ) :
    F = TtKT Kx L *ᵥ d + (exactClamped Kx L own E0 E1).vec ↔
    (F 0 + F 2 = (own.map fun ld => ld.total L).sum ∧
      F 1 + F 3 + F 2 * L = (own.map fun ld => ld.momentAboutLeft L).sum) ∧
    (d 0 - d 2) / L + d 1 = F 1 * X 0 0 + F 3 * X 0 1 - E0 ∧
    (d 0 - d 2) / L + d 3 = F 1 * X 1 0 + F 3 * X 1 1 - E1 := by
  have hL0 := hL.ne'
  obtain ⟨b1, b2⟩ := clampedSum_balance hL hown
  rw [b1, b2]
  obtain ⟨⟨k1, k2, k3, k4⟩, ⟨l1, l2, l3, l4⟩⟩ := inv2_eqs hX
  set c := clampedSum L own with hc
  have hvec : TtKT Kx L *ᵥ d + (exactClamped Kx L own E0 E1).vec = ![
      (c.Va - (c.Ma + c.Mb) / L) + (Kx 0 0 * ((d 0 - d 2) / L + d 1 + E0)
        + Kx 0 1 * ((d 0 - d 2) / L + d 3 + E1) + (Kx 1 0 * ((d 0 - d 2) / L + d 1 + E0)
        + Kx 1 1 * ((d 0 - d 2) / L + d 3 + E1))) / L,
      Kx 0 0 * ((d 0 - d 2) / L + d 1 + E0) + Kx 0 1 * ((d 0 - d 2) / L + d 3 + E1),
      (c.Vb + (c.Ma + c.Mb) / L) - (Kx 0 0 * ((d 0 - d 2) / L + d 1 + E0)
        + Kx 0 1 * ((d 0 - d 2) / L + d 3 + E1) + (Kx 1 0 * ((d 0 - d 2) / L + d 1 + E0)
        + Kx 1 1 * ((d 0 - d 2) / L + d 3 + E1))) / L,
      Kx 1 0 * ((d 0 - d 2) / L + d 1 + E0) + Kx 1 1 * ((d 0 - d 2) / L + d 3 + E1)] := by
    rw [taper_TtKT]
    ext p
    fin_cases p <;> simp [exactClamped, refFF, CNL.vec, ← hc] <;> ring
  rw [hvec]
  generalize (d 0 - d 2) / L + d 1 = φ0
  generalize (d 0 - d 2) / L + d 3 = φ1
  constructor
  · intro h
    have g0 := congrFun h 0
    have g1 := congrFun h 1
    have g2 := congrFun h 2
    have g3 := congrFun h 3
    simp only [Matrix.cons_val] at g0 g1 g2 g3
    refine ⟨⟨?_, ?_⟩, ?_, ?_⟩
    · rw [g0, g2]; ring
    · rw [g1, g2, g3]; field_simp; ring
    · rw [g1, g3]
      linear_combination (-(φ0 + E0)) * l1 - (φ1 + E1) * l2
    · rw [g1, g3]
      linear_combination (-(φ0 + E0)) * l3 - (φ1 + E1) * l4
  · rintro ⟨⟨f1, f2⟩, rfl, rfl⟩
    have m1 : Kx 0 0 * (F 1 * X 0 0 + F 3 * X 0 1 - E0 + E0)
        + Kx 0 1 * (F 1 * X 1 0 + F 3 * X 1 1 - E1 + E1) = F 1 := by
      linear_combination F 1 * k1 + F 3 * k2
    have m3 : Kx 1 0 * (F 1 * X 0 0 + F 3 * X 0 1 - E0 + E0)
        + Kx 1 1 * (F 1 * X 1 0 + F 3 * X 1 1 - E1 + E1) = F 3 := by
      linear_combination F 1 * k3 + F 3 * k4
    rw [m1, m3]
    ext p
    fin_cases p
    · simp only [Matrix.cons_val, Fin.zero_eta]
      field_simp
      linear_combination L * f1 - f2
    · rfl
    · simp only [Matrix.cons_val, Fin.reduceFinMk]
      field_simp
      linear_combination f2
    · rfl

/-- Members that differ in the integration points only. -/
def Member.SameTaper (m m' : Member ℝ) : Prop :=
  m'.L = m.L ∧ m'.et = m.et ∧ m'.EI.eval = m.EI.eval

theorem taper_errs (s : SecData ℝ) (L : ℝ) (own : List (Load ℝ)) (F : Vec4 ℝ) :
    let B := flexErr s L * (|F 1| + |F 3|) + (own.map fun ld => rotErr s L ld).sum
    |F 1 * (exactFlex s.eval L 0 0 - flexibility s.nodes L 0 0)
      + F 3 * (exactFlex s.eval L 0 1 - flexibility s.nodes L 0 1)
      + ((own.map fun ld => (theta0 ld (.section s) none L).1).sum
        - (own.map fun ld => exactRot s.eval L ld 0).sum)| ≤ B ∧
    |F 1 * (exactFlex s.eval L 0 1 - flexibility s.nodes L 0 1)
      + F 3 * (exactFlex s.eval L 1 1 - flexibility s.nodes L 1 1)
      + ((own.map fun ld => (theta0 ld (.section s) none L).2).sum
        - (own.map fun ld => exactRot s.eval L ld 1).sum)| ≤ B := by
  intro B
  have hrot : |(own.map fun ld => (theta0 ld (.section s) none L).1).sum
        - (own.map fun ld => exactRot s.eval L ld 0).sum|
      + |(own.map fun ld => (theta0 ld (.section s) none L).2).sum
        - (own.map fun ld => exactRot s.eval L ld 1).sum|
      ≤ (own.map fun ld => rotErr s L ld).sum := by
    have d0 : (own.map fun ld => (theta0 ld (.section s) none L).1).sum
        - (own.map fun ld => exactRot s.eval L ld 0).sum
        = (own.map fun ld => (theta0 ld (.section s) none L).1
          - exactRot s.eval L ld 0).sum := by rw [list_sum_sub]
    have d1 : (own.map fun ld => (theta0 ld (.section s) none L).2).sum
        - (own.map fun ld => exactRot s.eval L ld 1).sum
        = (own.map fun ld => (theta0 ld (.section s) none L).2
          - exactRot s.eval L ld 1).sum := by rw [list_sum_sub]
    have e : (own.map fun ld => rotErr s L ld).sum
        = (own.map fun ld => |(theta0 ld (.section s) none L).1 - exactRot s.eval L ld 0|).sum
          + (own.map fun ld => |(theta0 ld (.section s) none L).2 - exactRot s.eval L ld 1|).sum := by
      have := list_sum_lin own
        (fun ld => |(theta0 ld (.section s) none L).1 - exactRot s.eval L ld 0|)
        (fun ld => |(theta0 ld (.section s) none L).2 - exactRot s.eval L ld 1|) 1 1
      simpa [rotErr] using this
    rw [d0, d1, e]
    exact add_le_add (list_abs_sum_le _ _) (list_abs_sum_le _ _)
  have q0 := abs_nonneg (exactFlex s.eval L 0 0 - flexibility s.nodes L 0 0)
  have q1 := abs_nonneg (exactFlex s.eval L 0 1 - flexibility s.nodes L 0 1)
  have q2 := abs_nonneg (exactFlex s.eval L 1 1 - flexibility s.nodes L 1 1)
  have n0 := abs_nonneg ((own.map fun ld => (theta0 ld (.section s) none L).1).sum
        - (own.map fun ld => exactRot s.eval L ld 0).sum)
  have n1 := abs_nonneg ((own.map fun ld => (theta0 ld (.section s) none L).2).sum
        - (own.map fun ld => exactRot s.eval L ld 1).sum)
  exact ⟨taper_abs1 (by unfold flexErr; linarith) (by unfold flexErr; linarith) (by linarith),
    taper_abs1 (by unfold flexErr; linarith) (by unfold flexErr; linarith) (by linarith)⟩

/-- The continuous member as a stiffness and fixed-end forces. -/
theorem Member.Tapered.exact {m : Member ℝ} (hm : m.Tapered) :
    ∃ (kx : Mat4 ℝ) (D : ℝ), 0 ≤ D ∧ (∀ d, 0 ≤ energy kx d) ∧
      (∀ k, m.spanK = .ok k → ∀ d, energy kx d = 0 → energy k d = 0) ∧
      ∀ own : List (Load ℝ), (∀ ld ∈ own, ld.Plain m.L) → ∃ rx : Vec4 ℝ,
      (∀ (d F : Vec4 ℝ) (v θ : ℝ → ℝ), TaperSpan m.EI.eval m.L own F v θ →
        v 0 = d 0 → v m.L = d 2 → (if m.et.freeLeft then F 1 = 0 else θ 0 = d 1) →
        (if m.et.freeRight then F 3 = 0 else θ m.L = d 3) → F = kx *ᵥ d + rx) ∧
      (∀ d : Vec4 ℝ, ∃ v θ : ℝ → ℝ,
        TaperSpan m.EI.eval m.L own (kx *ᵥ d + rx) v θ ∧
        v 0 = d 0 ∧ v m.L = d 2 ∧
        (if m.et.freeLeft then (kx *ᵥ d + rx) 1 = 0 else θ 0 = d 1) ∧
        (if m.et.freeRight then (kx *ᵥ d + rx) 3 = 0 else θ m.L = d 3)) ∧
      (∀ m' : Member ℝ, m.SameTaper m' → m'.Tapered → ∀ k, m'.spanK = .ok k →
        ∀ (i : ℕ) (ls : List (SpanLoad ℝ)), ownLoads i ls = own → ∀ c, m'.refSum i ls = .ok c →
        ∀ (d : Vec4 ℝ) q, |(k *ᵥ d + c.vec) q - (kx *ᵥ d + rx) q|
          ≤ D * m'.taperErr own (k *ᵥ d + c.vec)) := by
  have hL : 0 < m.L := hm.good.1
  have hPX := flexX_PD2 hL hm.sensible
  obtain ⟨Kx, hX, hPK⟩ := hPX.inv
  obtain ⟨kx, hkx⟩ := condense_exists hPK m.L m.et hm.pins
  obtain ⟨p0, p1, _⟩ := hPK.det_pos
  have e1 : TtKT Kx m.L 1 1 ≠ 0 := by rw [TtKT_apply]; simpa using p0.ne'
  have e3 : TtKT Kx m.L 3 3 ≠ 0 := by rw [TtKT_apply]; simpa using p1.ne'
  have hR := condenseFor_release _ _ _ hkx
  obtain ⟨D, hD, hrel⟩ := release_defect (TtKT Kx m.L) m.et hm.pins e1 e3
  refine ⟨kx, D * ((1 + 2 / m.L) * (|Kx 0 0| + |Kx 0 1| + |Kx 1 0| + |Kx 1 1|)), by positivity,
    ?_, ?_, ?_⟩
  · intro d
    obtain ⟨d', _, _, h3⟩ := energy_released hR d
    rw [h3, energy_TtKT]
    by_cases hz : (chordRot d' m.L).1 = 0 ∧ (chordRot d' m.L).2 = 0
    · rw [hz.1, hz.2]; simp [quad2]
    · exact (hPK.2 _ _ hz).le
  · intro k hk d h0
    obtain ⟨Kth, k', _, _, h3, h4⟩ := m.spanK_form hm.good
    rw [hk] at h4
    cases h4
    exact same_mechanism hPK hkx h3 d h0
  intro own hown
  set E0 := (own.map fun ld => exactRot m.EI.eval m.L ld 0).sum with hE0
  set E1 := (own.map fun ld => exactRot m.EI.eval m.L ld 1).sum with hE1
  obtain ⟨c', _, hc'⟩ := releaseRef_release (exactClamped Kx m.L own E0 E1) (TtKT Kx m.L) m.L
    m.et hm.pins e1 e3
  have hconv : ∀ (d F : Vec4 ℝ) (v θ : ℝ → ℝ), TaperSpan m.EI.eval m.L own F v θ →
        v 0 = d 0 → v m.L = d 2 → (if m.et.freeLeft then F 1 = 0 else θ 0 = d 1) →
        (if m.et.freeRight then F 3 = 0 else θ m.L = d 3) → F = kx *ᵥ d + c'.vec := by
    intro d F v θ h hv0 hvL hl hr
    obtain ⟨c0, c1⟩ := TaperSpan.flexibility hL hm.sensible hown h
    refine (released_iff hR hc' F d).2 ⟨![v 0, θ 0, v m.L, θ m.L], ?_, ?_, ?_⟩
    · intro p hp
      cases het' : m.et <;> rw [het'] at hp hl hr <;>
        simp only [EType.freeLeft, EType.freeRight, if_true, if_false, Bool.false_eq_true] at hl hr <;>
        fin_cases p <;> simp [EType.released] at hp ⊢ <;> assumption
    · intro p hp
      cases het' : m.et <;> rw [het'] at hp hl hr <;>
        simp only [EType.freeLeft, EType.freeRight, if_true, if_false, Bool.false_eq_true] at hl hr <;>
        fin_cases p <;> simp [EType.released] at hp ⊢ <;> assumption
    · rw [exact_iff hX hL hown]
      refine ⟨⟨h.force, h.moment⟩, ?_, ?_⟩
      · simpa [flexX] using c0
      · simpa [flexX] using c1
  have hlines : ∀ d : Vec4 ℝ, ∃ v θ : ℝ → ℝ,
        TaperSpan m.EI.eval m.L own (kx *ᵥ d + c'.vec) v θ ∧
        v 0 = d 0 ∧ v m.L = d 2 ∧
        (if m.et.freeLeft then (kx *ᵥ d + c'.vec) 1 = 0 else θ 0 = d 1) ∧
        (if m.et.freeRight then (kx *ᵥ d + c'.vec) 3 = 0 else θ m.L = d 3) := by
    intro d
    obtain ⟨d', g1, g2, g3⟩ := (released_iff hR hc' _ d).1 rfl
    have g4 := (exact_iff hX hL hown E0 E1 _ d').1 g3
    obtain ⟨⟨f1, f2⟩, q0, q1⟩ := g4
    obtain ⟨v, θ, hT, hv, hθ⟩ := taper_line hL hm.sensible own _ f1 f2 (d' 0) (d' 1)
    obtain ⟨c0, c1⟩ := TaperSpan.flexibility hL hm.sensible hown hT
    have hvL : v m.L = d' 2 := by
      have e : (v 0 - v m.L) / m.L + θ 0 = (d' 0 - d' 2) / m.L + d' 1 := by
        rw [q0, c0]
        simp [flexX]
        rfl
      rw [hv, hθ] at e
      have e' : (d' 0 - v m.L) / m.L = (d' 0 - d' 2) / m.L := by linarith
      rw [div_left_inj' hL.ne'] at e'
      linarith
    have hθL : θ m.L = d' 3 := by
      have e : (v 0 - v m.L) / m.L + θ m.L = (d' 0 - d' 2) / m.L + d' 3 := by
        rw [q1, c1]
        simp [flexX]
        rfl
      rw [hv, hvL] at e
      linarith
    refine ⟨v, θ, hT, ?_, ?_, ?_, ?_⟩
    · rw [hv]
      exact g1 0 (by cases m.et <;> simp [EType.released])
    · rw [hvL]
      exact g1 2 (by cases m.et <;> simp [EType.released])
    · split_ifs with hfl
      · exact g2 1 (by cases h : m.et <;> simp [h, EType.freeLeft, EType.released] at hfl ⊢)
      · rw [hθ]
        exact g1 1 (by cases h : m.et <;> simp [h, EType.freeLeft, EType.released] at hfl ⊢)
    · split_ifs with hfr
      · exact g2 3 (by cases h : m.et <;> simp [h, EType.freeRight, EType.released] at hfr ⊢)
      · rw [hθL]
        exact g1 3 (by cases h : m.et <;> simp [h, EType.freeRight, EType.released] at hfr ⊢)
  refine ⟨c'.vec, hconv, hlines, ?_⟩
  intro m' hsame hm' k hk i ls hls c hc d q
  obtain ⟨sL, sE, sI⟩ := hsame
  rcases hEI : m'.EI with e | s
  · -- prismatic
    obtain ⟨v, θ, l1, l2, l3, l4, l5⟩ := hlines d
    obtain ⟨D', _, h⟩ := hm'.defect
    have := h k hk i ls (by rw [hls, sL]; exact hown) c hc d (kx *ᵥ d + c'.vec) v θ
      (by rw [hls, sI, sL]; exact l1) l2 (by rw [sL]; exact l3) (by rw [sE]; exact l4)
      (by rw [sL, sE]; exact l5) q
    have z : ∀ F, m'.taperErr own F = 0 := fun F => by simp only [Member.taperErr, hEI]
    rw [hls, z, mul_zero] at this
    rw [z, mul_zero]
    exact this
  · -- variable section
    obtain ⟨Kth, hK, hPD⟩ := (flexibility_PD2 s.nodes (by
      have := hm'.good.2.1
      rw [hEI] at this
      exact this) m.L hL).inv
    obtain ⟨p0', p1', _⟩ := hPD.det_pos
    have f1 : TtKT Kth m.L 1 1 ≠ 0 := by rw [TtKT_apply]; simpa using p0'.ne'
    have f3 : TtKT Kth m.L 3 3 ≠ 0 := by rw [TtKT_apply]; simpa using p1'.ne'
    have hkr : condenseFor (TtKT Kth m.L) m'.et = .ok k := by
      simpa only [Member.spanK, hm'.slender, hEI, kNonprismatic, sL, hK] using hk
    have hR' := condenseFor_release _ _ _ hkr
    have hkFF : kNonprismatic s m.L .FF = .ok (TtKT Kth m.L) := by
      simp only [kNonprismatic, hK, condenseFor]
    have hsum := refSum_released hR' i (taperRef Kth s m.L) ls (by
      intro l hl' hli c' hc'
      have hp : l.load.Plain m.L := hown _ (by
        rw [← hls]
        simp only [ownLoads, List.mem_map, List.mem_filter, decide_eq_true_eq]
        exact ⟨l, ⟨hl', hli⟩, rfl⟩)
      obtain ⟨c'', h1, h2⟩ := releaseRef_release (taperRef Kth s m.L l.load) (TtKT Kth m.L) m.L
        m'.et hm'.pins f1 f3
      have : m'.ref l.load = .ok c'' := by
        have hp' : l.load.Plain m'.L := by rw [sL]; exact hp
        simp only [Member.ref, hp'.cnl (by rw [sL]; exact hL), hm'.slender, hEI, sL, hK, hkFF]
        exact h1
      rw [this] at hc'
      cases hc'
      exact h2) c hc
    rw [hls] at hsum
    obtain ⟨t1, t2, t3, t4⟩ := taperRef_sum Kth s m.L own _ _ rfl rfl
    set T0 := (own.map fun ld => (theta0 ld (.section s) none m.L).1).sum with hT0
    set T1 := (own.map fun ld => (theta0 ld (.section s) none m.L).2).sum with hT1
    rw [t1, t2, t3, t4] at hsum
    have hsum' : IsReleasedForce (TtKT Kth m.L) (exactClamped Kth m.L own T0 T1) c
        m'.et.released := hsum
    set F := k *ᵥ d + c.vec with hF
    obtain ⟨d', g1, g2, g3⟩ := (released_iff hR' hsum' F d).1 rfl
    obtain ⟨hfm, q0, q1⟩ := (exact_iff hK hL hown T0 T1 F d').1 g3
    have hev : m.EI.eval = s.eval := by rw [← sI, hEI]; rfl
    set a0 := F 1 * (exactFlex s.eval m.L 0 0 - flexibility s.nodes m.L 0 0)
      + F 3 * (exactFlex s.eval m.L 0 1 - flexibility s.nodes m.L 0 1) + (T0 - E0) with ha0
    set a1 := F 1 * (exactFlex s.eval m.L 0 1 - flexibility s.nodes m.L 0 1)
      + F 3 * (exactFlex s.eval m.L 1 1 - flexibility s.nodes m.L 1 1) + (T1 - E1) with ha1
    have hsym : flexibility s.nodes m.L 1 0 = flexibility s.nodes m.L 0 1 := by
      simp [flexibility]
    have g4 : F = TtKT Kx m.L *ᵥ d' + (exactClamped Kx m.L own (E0 + a0) (E1 + a1)).vec := by
      rw [exact_iff hX hL hown]
      refine ⟨hfm, ?_, ?_⟩
      · rw [q0, ha0]
        simp only [flexX, hev, Matrix.of_apply, Matrix.cons_val', Matrix.cons_val_zero,
          Matrix.cons_val_one, Matrix.cons_val_fin_one]
        ring
      · rw [q1, ha1, hsym]
        simp only [flexX, hev, Matrix.of_apply, Matrix.cons_val', Matrix.cons_val_zero,
          Matrix.cons_val_one, Matrix.cons_val_fin_one]
        ring
    set r1 := Kx 0 0 * a0 + Kx 0 1 * a1 with hr1
    set r3 := Kx 1 0 * a0 + Kx 1 1 * a1 with hr3
    have hadd : exactClamped Kx m.L own (E0 + a0) (E1 + a1)
        = ⟨(exactClamped Kx m.L own E0 E1).Va + (r1 + r3) / m.L,
          (exactClamped Kx m.L own E0 E1).Ma + r1,
          (exactClamped Kx m.L own E0 E1).Vb + -((r1 + r3) / m.L),
          (exactClamped Kx m.L own E0 E1).Mb + r3⟩ := by
      simp only [exactClamped, refFF, hr1, hr3, CNL.mk.injEq]
      refine ⟨by ring, by ring, by ring, by ring⟩
    have hB := taper_errs s m.L own F
    simp only at hB
    obtain ⟨b0, b1⟩ := hB
    rw [← hT0] at b0
    rw [← hT1] at b1
    have hE0' : E0 = (own.map fun ld => exactRot s.eval m.L ld 0).sum := by rw [hE0, hev]
    have hE1' : E1 = (own.map fun ld => exactRot s.eval m.L ld 1).sum := by rw [hE1, hev]
    rw [← hE0', ← ha0] at b0
    rw [← hE1', ← ha1] at b1
    set B := flexErr s m.L * (|F 1| + |F 3|) + (own.map fun ld => rotErr s m.L ld).sum with hBd
    obtain ⟨w1, w3, w0⟩ := taper_abs2 (Kx 0 0) (Kx 0 1) (Kx 1 0) (Kx 1 1) hL b0 b1
    rw [← hr1, abs_neg] at w1
    rw [← hr3, abs_neg] at w3
    rw [← hr1, ← hr3, ← neg_add, neg_div, abs_neg] at w0
    obtain ⟨r', hr', hb'⟩ := hrel ⟨(r1 + r3) / m.L, r1, -((r1 + r3) / m.L), r3⟩ _ (by
      intro q
      fin_cases q
      · exact w0
      · exact w1
      · exact (abs_neg _).trans_le w0
      · exact w3)
    rw [hadd] at g4
    have hfin := (released_iff hR (hc'.add hr') F d).2 ⟨d', by rw [← sE]; exact g1,
      by rw [← sE]; exact g2, g4⟩
    have hq : F q - (kx *ᵥ d + c'.vec) q = r'.vec q := by
      rw [hfin]
      have hv : CNL.vec ⟨c'.Va + r'.Va, c'.Ma + r'.Ma, c'.Vb + r'.Vb, c'.Mb + r'.Mb⟩
          = c'.vec + r'.vec := by
        ext p
        fin_cases p <;> rfl
      rw [hv]
      simp only [Pi.add_apply]
      ring
    rw [hq, Member.taperErr, hEI, sL, mul_assoc]
    exact hb' q

theorem TaperSpan.unique {r : Rigidity ℝ} {L : ℝ} (hL : 0 < L) (hr : r.Sensible L)
    {own : List (Load ℝ)} {F : Vec4 ℝ} {v θ v' θ' : ℝ → ℝ} (h : TaperSpan r.eval L own F v θ)
    (h' : TaperSpan r.eval L own F v' θ') (h0 : v' 0 = v 0) (h1 : v' L = v L) (x : ℝ)
    (hx : x ∈ Icc 0 L) : v' x = v x ∧ θ' x = θ x := by
  have s := h.shape hL hr
  have s' := h'.shape hL hr
  have a := s.int_xkappa 0 ⟨le_rfl, hL.le⟩
  have a' := s'.int_xkappa 0 ⟨le_rfl, hL.le⟩
  have hθ : θ' L = θ L := by
    rw [a] at a'
    rw [h0, h1] at a'
    have : L * θ' L = L * θ L := by linarith
    exact mul_left_cancel₀ hL.ne' this
  have c := s.int_kappa x hx
  have c' := s'.int_kappa x hx
  have d := s.int_xkappa x hx
  have d' := s'.int_xkappa x hx
  rw [hθ, h1] at d'
  rw [hθ] at c'
  exact ⟨by linarith, by linarith⟩

/-! ### Beams -/

theorem exact_nonsingular {b : BeamDef ℝ} {s : System ℝ} (hs : b.system = .ok s)
    (hns : s.Nonsingular) (hg : ∀ m ∈ b.members, m.Good) (KX : ℕ → Mat4 ℝ)
    (h1 : ∀ i < b.members.length, ∀ d, 0 ≤ energy (KX i) d)
    (h2 : ∀ i < b.members.length, ∀ d, energy (KX i) d = 0 → energy (s.kb i) d = 0) :
    ({ s with kb := KX } : System ℝ).Nonsingular := by
  obtain ⟨hn, _⟩ := BeamDef.system_ok hs
  set sX : System ℝ := { s with kb := KX } with hsX
  have hXn : sX.n = b.members.length := hn
  intro x hx hfree
  have hE : sX.totalEnergy x = 0 := by
    rw [sX.totalEnergy_eq]
    refine Finset.sum_eq_zero fun p hp => ?_
    rcases hc : sX.constr p with _ | v
    · rw [hfree p (Finset.mem_range.1 hp) hc, mul_zero]
    · rw [hx p (Finset.mem_range.1 hp) (by rw [hc]; rfl), zero_mul]
  have hA : ∀ i ∈ Finset.range sX.n, 0 ≤ energy (sX.kb i) (elemVec x i) :=
    fun i hi => h1 i (by rw [← hXn]; exact Finset.mem_range.1 hi) _
  have hB : ∀ p ∈ Finset.range sX.N, 0 ≤ sX.spring p * x p ^ 2 := fun p _ =>
    mul_nonneg (by
      simp only [System.spring]
      split
      · exact le_of_lt ‹_›
      · exact le_rfl) (sq_nonneg _)
  have hA0 := Finset.sum_nonneg hA
  have hB0 := Finset.sum_nonneg hB
  rw [System.totalEnergy] at hE
  have hA1 := (Finset.sum_eq_zero_iff_of_nonneg hA).1 (by linarith)
  have hB1 : ∑ p ∈ Finset.range sX.N, sX.spring p * x p ^ 2 = 0 := by linarith
  have hE' : s.totalEnergy x = 0 := by
    rw [System.totalEnergy]
    have e1 : ∑ i ∈ Finset.range s.n, energy (s.kb i) (elemVec x i) = 0 :=
      Finset.sum_eq_zero fun i hi => h2 i (by rw [← hn]; exact Finset.mem_range.1 hi) _ (hA1 i hi)
    rw [e1, zero_add]
    exact hB1
  exact hns x hx fun p hpN _ => s.zero_energy (BeamDef.system_symm hs)
    (BeamDef.system_pos hs hg) x hE' p hpN

theorem exact_node {b : BeamDef ℝ} {s : System ℝ} (hs : b.system = .ok s) (KX : ℕ → Mat4 ℝ)
    (RX : ℕ → Vec4 ℝ) (P : ℕ → Option ℝ) (d : ℕ → ℝ) (F : ℕ → Vec4 ℝ)
    (hF : ∀ i < b.members.length, F i = KX i *ᵥ elemVec d i + RX i) (j : ℕ)
    (hjn : j ≤ b.members.length) (c : Fin 2) :
    nodeSum b d F j c = (({ s with kb := KX } : System ℝ).under RX P).residual d (2 * j + c) := by
  obtain ⟨hn, _, _, hr, _⟩ := BeamDef.system_ok hs
  set sX : System ℝ := ({ s with kb := KX } : System ℝ).under RX P with hsX
  have hXn : sX.n = b.members.length := hn
  rw [sX.residual_node d j (by omega) c, nodeSum, hXn]
  have hFE : ∀ i < b.members.length, F i = sX.endForces d i := fun i hi => hF i hi
  have hsp : max (b.restraints.getD (2 * j + c) 0) 0 = sX.spring (2 * j + c) := by
    simp only [System.spring, hsX, System.under, hr]
    rcases lt_or_ge 0 (b.restraints.getD (2 * j + c) 0) with h | h
    · rw [if_pos h, max_eq_left h.le]
    · rw [if_neg (not_lt.mpr h), max_eq_right h]
  rw [hsp]
  by_cases h0 : 0 < j <;> by_cases h1 : j < b.members.length
  · rw [if_pos h0, if_pos h1, if_pos h0, if_pos h1, hFE _ h1, hFE (j - 1) (by omega)]
  · rw [if_pos h0, if_neg h1, if_pos h0, if_neg h1, hFE (j - 1) (by omega)]
  · rw [if_neg h0, if_pos h1, if_neg h0, if_pos h1, hFE _ h1]
  · rw [if_neg h0, if_neg h1, if_neg h0, if_neg h1]

theorem TaperBeam.exact_solution {b : BeamDef ℝ} {ls : List (SpanLoad ℝ)} {s : System ℝ}
    (hs : b.system = .ok s) {u : ℕ → ℝ} {F : ℕ → Vec4 ℝ} {v θ : ℕ → ℝ → ℝ}
    (hT : TaperBeam b ls u F v θ) (KX : ℕ → Mat4 ℝ) (RX : ℕ → Vec4 ℝ)
    (hF : ∀ i < b.members.length, F i = KX i *ᵥ elemVec u i + RX i) :
    (({ s with kb := KX } : System ℝ).under RX s.presc).IsSolution u := by
  obtain ⟨hn, _, _, hr, hp, _, _⟩ := BeamDef.system_ok hs
  set sX : System ℝ := ({ s with kb := KX } : System ℝ).under RX s.presc with hsX
  have hN : sX.N = 2 * b.members.length + 2 := by
    simp only [hsX, System.N, System.under, hn]
  refine ⟨fun p hpN w hw => ?_, fun p hpN hc => ?_⟩
  · simp only [System.constr, hsX, System.under, hp, hr] at hw
    rcases hq : b.presc.getD p none with _ | w'
    · rw [hq] at hw
      simp only at hw
      split_ifs at hw with hneg
      cases hw
      exact hT.rigid p (by omega) hq hneg
    · rw [hq] at hw
      cases hw
      exact hT.prescribed p (by omega) w hq
  · simp only [System.constr, hsX, System.under, hp, hr] at hc
    rcases hq : b.presc.getD p none with _ | w'
    · rw [hq] at hc
      simp only at hc
      split_ifs at hc with hneg
      have e : 2 * (p / 2) + ((⟨p % 2, Nat.mod_lt _ (by norm_num)⟩ : Fin 2) : ℕ) = p := by
        simp only; omega
      have e1 := hT.free (p / 2) (by omega) ⟨p % 2, Nat.mod_lt _ (by norm_num)⟩
        (by rw [e]; exact hq) (by rw [e]; exact not_lt.mp hneg)
      have e2 := exact_node hs KX RX s.presc u F hF (p / 2) (by omega)
        ⟨p % 2, Nat.mod_lt _ (by norm_num)⟩
      rw [e] at e2
      rw [← e2]; exact e1
    · rw [hq] at hc
      cases hc

/-- **C151**: for every beam of slender members with rigidities bounded away from zero that have
finitely many jumps, tapered or prismatic, none pinned at both ends, that is not a mechanism, and
all loads of the eight mechanical kinds, the continuous beam has exactly one state: displacements,
end forces and elastic lines are determined. -/
theorem C151_exists_unique (b : BeamDef ℝ) (ls : List (SpanLoad ℝ))
    (s : System ℝ) (hs : b.system = .ok s) (hns : s.Nonsingular)
    (hm : ∀ m ∈ b.members, m.Tapered)
    (hown : ∀ i (hi : i < b.members.length), ∀ ld ∈ ownLoads i ls, ld.Plain b.members[i].L) :
    ∃ (u : ℕ → ℝ) (F : ℕ → Vec4 ℝ) (v θ : ℕ → ℝ → ℝ), TaperBeam b ls u F v θ ∧
      ∀ (u' : ℕ → ℝ) (F' : ℕ → Vec4 ℝ) (v' θ' : ℕ → ℝ → ℝ), TaperBeam b ls u' F' v' θ' →
        (∀ p < 2 * b.members.length + 2, u' p = u p) ∧
        ∀ i (hi : i < b.members.length), F' i = F i ∧
          ∀ x ∈ Icc 0 b.members[i].L, v' i x = v i x ∧ θ' i x = θ i x := by
  obtain ⟨hn, hk, _, hr, hp, _, _⟩ := BeamDef.system_ok hs
  have key : ∀ i, ∃ (kx : Mat4 ℝ) (rx : Vec4 ℝ), ∀ hi : i < b.members.length,
      (∀ d, 0 ≤ energy kx d) ∧ (∀ d, energy kx d = 0 → energy (s.kb i) d = 0) ∧
      (∀ (d F : Vec4 ℝ) (v θ : ℝ → ℝ),
        TaperSpan b.members[i].EI.eval b.members[i].L (ownLoads i ls) F v θ →
        v 0 = d 0 → v b.members[i].L = d 2 →
        (if b.members[i].et.freeLeft then F 1 = 0 else θ 0 = d 1) →
        (if b.members[i].et.freeRight then F 3 = 0 else θ b.members[i].L = d 3) →
        F = kx *ᵥ d + rx) ∧
      (∀ d : Vec4 ℝ, ∃ v θ : ℝ → ℝ,
        TaperSpan b.members[i].EI.eval b.members[i].L (ownLoads i ls)
          (kx *ᵥ d + rx) v θ ∧ v 0 = d 0 ∧ v b.members[i].L = d 2 ∧
        (if b.members[i].et.freeLeft then (kx *ᵥ d + rx) 1 = 0 else θ 0 = d 1) ∧
        (if b.members[i].et.freeRight then (kx *ᵥ d + rx) 3 = 0
          else θ b.members[i].L = d 3)) := by
    intro i
    by_cases hi : i < b.members.length
    · obtain ⟨kx, _, _, h1, h2, h⟩ := (hm _ (List.getElem_mem hi)).exact
      obtain ⟨rx, h3, h4, _⟩ := h (ownLoads i ls) (hown i hi)
      exact ⟨kx, rx, fun _ => ⟨h1, h2 _ (hk i hi), h3, h4⟩⟩
    · exact ⟨0, 0, fun h => absurd h hi⟩
  choose KX RX hX using key
  have hXns := (exact_nonsingular hs hns (fun m h => (hm m h).good) KX (fun i hi => (hX i hi).1)
    (fun i hi => (hX i hi).2.1)).under RX s.presc fun _ _ => rfl
  set sX : System ℝ := ({ s with kb := KX } : System ℝ).under RX s.presc with hsX
  have hN : sX.N = 2 * b.members.length + 2 := by simp only [hsX, System.N, System.under, hn]
  obtain ⟨u, hu⟩ := System.exists_solution hXns
  have lines : ∀ i, ∃ v θ : ℝ → ℝ, ∀ hi : i < b.members.length,
      TaperSpan b.members[i].EI.eval b.members[i].L (ownLoads i ls)
        (KX i *ᵥ elemVec u i + RX i) v θ ∧ v 0 = elemVec u i 0 ∧
      v b.members[i].L = elemVec u i 2 ∧
      (if b.members[i].et.freeLeft then (KX i *ᵥ elemVec u i + RX i) 1 = 0
        else θ 0 = elemVec u i 1) ∧
      (if b.members[i].et.freeRight then (KX i *ᵥ elemVec u i + RX i) 3 = 0
          else θ b.members[i].L = elemVec u i 3) := by
    intro i
    by_cases hi : i < b.members.length
    · obtain ⟨v, θ, h⟩ := (hX i hi).2.2.2 (elemVec u i)
      exact ⟨v, θ, fun _ => h⟩
    · exact ⟨0, 0, fun h => absurd h hi⟩
  choose v θ hvθ using lines
  refine ⟨u, fun i => KX i *ᵥ elemVec u i + RX i, v, θ, ?_, ?_⟩
  · refine ⟨fun i hi => (hvθ i hi).1, fun i hi => ?_, fun i hi => ?_, fun i hi => ?_, fun i hi => ?_,
      fun p hpN w hw => ?_, fun p hpN hq hneg => ?_, fun j hjn c hq hneg => ?_⟩
    · simpa [elemVec] using (hvθ i hi).2.1
    · simpa [elemVec] using (hvθ i hi).2.2.1
    · simpa [elemVec] using (hvθ i hi).2.2.2.1
    · simpa [elemVec] using (hvθ i hi).2.2.2.2
    · exact hu.1 p (by omega) w (by simp only [System.constr, hsX, System.under, hp, hw])
    · exact hu.1 p (by omega) 0 (by simp only [System.constr, hsX, System.under, hp, hr, hq]; rw [if_pos hneg])
    · rw [exact_node hs KX RX s.presc u _ (fun _ _ => rfl) j hjn c]
      refine hu.2 _ (by have := c.2; omega) ?_
      simp only [System.constr, hsX, System.under, hp, hr, hq]
      rw [if_neg (not_lt.2 hneg)]
  · intro u' F' v' θ' hT
    have hF' : ∀ i < b.members.length, F' i = KX i *ᵥ elemVec u' i + RX i := fun i hi =>
      (hX i hi).2.2.1 (elemVec u' i) _ _ _ (hT.span i hi)
        (by simpa [elemVec] using hT.left i hi) (by simpa [elemVec] using hT.right i hi)
        (by simpa [elemVec] using hT.rotLeft i hi) (by simpa [elemVec] using hT.rotRight i hi)
    have hu' : sX.IsSolution u' := hT.exact_solution hs KX RX hF'
    have huu : ∀ p < 2 * b.members.length + 2, u' p = u p := fun p hpN =>
      hu'.unique hXns hu p (by omega)
    have hel : ∀ i < b.members.length, elemVec u' i = elemVec u i := by
      intro i hi
      ext q
      have := q.2
      exact huu _ (by omega)
    have hFF : ∀ i < b.members.length, F' i = KX i *ᵥ elemVec u i + RX i := fun i hi => by
      rw [hF' i hi, hel i hi]
    refine ⟨huu, fun i hi => ⟨hFF i hi, fun x hx => ?_⟩⟩
    have hS := hT.span i hi
    rw [hFF i hi] at hS
    have hmi := hm _ (List.getElem_mem hi)
    refine TaperSpan.unique hmi.good.1 hmi.sensible (hvθ i hi).1 hS ?_ ?_ x hx
    · rw [hT.left i hi, (hvθ i hi).2.1, huu _ (by omega)]; simp [elemVec]
    · rw [hT.right i hi, (hvθ i hi).2.2.1, huu _ (by omega)]; simp [elemVec]

/-- The integration error of the flexibility of a member. -/
noncomputable def Member.flexErr (m : Member ℝ) : ℝ :=
  match m.EI with
  | .const _ => 0
  | .section s => PyCBA.flexErr s m.L

theorem Member.taperErr_move (m : Member ℝ) (own : List (Load ℝ)) (F F' : Vec4 ℝ) {S : ℝ}
    (hS : |F' 1 - F 1| + |F' 3 - F 3| ≤ S) :
    m.taperErr own F' ≤ m.taperErr own F + m.flexErr * S := by
  unfold Member.taperErr Member.flexErr
  rcases m.EI with e | s
  · simp
  · have h0 : 0 ≤ PyCBA.flexErr s m.L := by unfold PyCBA.flexErr; positivity
    have h1 := abs_sub_abs_le_abs_sub (F' 1) (F 1)
    have h3 := abs_sub_abs_le_abs_sub (F' 3) (F 3)
    have := mul_le_mul_of_nonneg_left (show |F' 1| + |F' 3| ≤ |F 1| + |F 3| + S by linarith) h0
    simp only
    linarith [mul_add (PyCBA.flexErr s m.L) (|F 1| + |F 3|) S]

/-- **C151, partial**: the constant does not depend on the integration.  For every beam of slender
members, none pinned at both ends, that is not a mechanism, there is one constant `C` such that,
for every beam with the same rigidities, lengths, end releases and supports, whatever its
integration points, loads and prescribed values, if the flexibility errors are at most `1 / C` then
the displacements and member end forces of a completed analysis are within `C ε` of those of
every state of the continuous beam, `ε` being a bound of the integration errors.  So the results
converge to the continuous state as the integration is refined. -/
theorem C151_converges_partial (b₀ : BeamDef ℝ) (s₀ : System ℝ) (h₀ : b₀.system = .ok s₀)
    (hns : s₀.Nonsingular) (hm : ∀ m ∈ b₀.members, m.Tapered) :
    ∃ C : ℝ, 0 < C ∧ ∀ b : BeamDef ℝ, ∀ hlen : b.members.length = b₀.members.length,
      (∀ i (hi : i < b.members.length), (b₀.members[i]'(hlen ▸ hi)).SameTaper b.members[i]) →
      (∀ m ∈ b.members, m.Tapered) → b.restraints = b₀.restraints →
      b.presc.map Option.isSome = b₀.presc.map Option.isSome →
      ∀ (ls : List (SpanLoad ℝ)), b.setLoads = .ok ls →
      (∀ i (hi : i < b.members.length), ∀ ld ∈ ownLoads i ls, ld.Plain b.members[i].L) →
      ∀ (stable : System ℝ → Bool) (solve : Solver ℝ), solve.Sound → ∀ res : Result ℝ,
      b.analyze stable solve = .ok res →
      ∀ (u : ℕ → ℝ) (F : ℕ → Vec4 ℝ) (v θ : ℕ → ℝ → ℝ), TaperBeam b ls u F v θ →
      (∀ m ∈ b.members, m.flexErr ≤ 1 / C) →
      ∀ ε : ℝ, (∀ i (hi : i < b.members.length),
        b.members[i].taperErr (ownLoads i ls) (F i) ≤ ε) → 0 ≤ ε →
      (∀ p < 2 * b.members.length + 2, |res.d p - u p| ≤ C * ε) ∧
      ∀ i < b.members.length, ∀ q, |res.fmbr i q - F i q| ≤ C * ε := by
  obtain ⟨hn₀, hk₀, _, hr₀, hp₀, _, _⟩ := BeamDef.system_ok h₀
  have key : ∀ i, ∃ (kx : Mat4 ℝ) (D : ℝ), ∀ hi : i < b₀.members.length,
      0 ≤ D ∧ (∀ d, 0 ≤ energy kx d) ∧ (∀ d, energy kx d = 0 → energy (s₀.kb i) d = 0) ∧
      ∀ own : List (Load ℝ), (∀ ld ∈ own, ld.Plain b₀.members[i].L) → ∃ rx : Vec4 ℝ,
      (∀ (d F : Vec4 ℝ) (v θ : ℝ → ℝ),
        TaperSpan b₀.members[i].EI.eval b₀.members[i].L own F v θ →
        v 0 = d 0 → v b₀.members[i].L = d 2 →
        (if b₀.members[i].et.freeLeft then F 1 = 0 else θ 0 = d 1) →
        (if b₀.members[i].et.freeRight then F 3 = 0 else θ b₀.members[i].L = d 3) →
        F = kx *ᵥ d + rx) ∧
      (∀ m' : Member ℝ, b₀.members[i].SameTaper m' → m'.Tapered → ∀ k, m'.spanK = .ok k →
        ∀ (j : ℕ) (ls : List (SpanLoad ℝ)), ownLoads j ls = own → ∀ c, m'.refSum j ls = .ok c →
        ∀ (d : Vec4 ℝ) q, |(k *ᵥ d + c.vec) q - (kx *ᵥ d + rx) q|
          ≤ D * m'.taperErr own (k *ᵥ d + c.vec)) := by
    intro i
    by_cases hi : i < b₀.members.length
    · obtain ⟨kx, D, h0, h1, h2, h⟩ := (hm _ (List.getElem_mem hi)).exact
      exact ⟨kx, D, fun _ => ⟨h0, h1, h2 _ (hk₀ i hi), fun own ho => by
        obtain ⟨rx, h3, _, h5⟩ := h own ho
        exact ⟨rx, h3, h5⟩⟩⟩
    · exact ⟨0, 0, fun h => absurd h hi⟩
  choose KX DX hX using key
  have hXns := exact_nonsingular h₀ hns (fun m h => (hm m h).good) KX
    (fun i hi => (hX i hi).2.1) (fun i hi => (hX i hi).2.2.1)
  obtain ⟨C, hC, hw⟩ := System.wellPosed _ hXns
  set n := b₀.members.length with hnn
  set D := ∑ i ∈ Finset.range n, DX i with hDd
  have hDi : ∀ i < n, DX i ≤ D := fun i hi =>
    Finset.single_le_sum (f := DX) (fun j hj => (hX j (Finset.mem_range.1 hj)).1)
      (Finset.mem_range.2 hi)
  have hD0 : 0 ≤ D := Finset.sum_nonneg fun j hj => (hX j (Finset.mem_range.1 hj)).1
  set G := C * (D + 1) with hGd
  have hG : 0 < G := by positivity
  refine ⟨8 * (n + 1) * G, by positivity, ?_⟩
  intro b hlen hsame htap hres hP ls hls hown stable solve hso res ha u F v θ hT hfl ε hε hε0
  obtain ⟨s, h1, h2⟩ := BeamDef.analyze_ok ha
  obtain ⟨hn, hk, ⟨l1, hl1, href⟩, hr, hp, _, _⟩ := BeamDef.system_ok h1
  rw [hls] at hl1; cases hl1
  obtain ⟨a1, _, _, a4, _⟩ := System.analyze_ok hso h2
  have hsome : ∀ p, (s.presc p).isSome = (s₀.presc p).isSome := by
    intro p
    rw [hp₀, hp]
    have := congrArg (fun l => l.getD p false) hP
    have e : ∀ l : List (Option ℝ), (l.map Option.isSome).getD p false = (l.getD p none).isSome := by
      intro l
      rw [List.getD_eq_getElem?_getD, List.getD_eq_getElem?_getD, List.getElem?_map]
      cases l[p]? <;> rfl
    simp only [e] at this
    exact this
  -- the exact fixed-end forces
  have hrx : ∀ i, ∃ rx : Vec4 ℝ, ∀ hi : i < b.members.length,
      F i = KX i *ᵥ elemVec u i + rx ∧
      ∀ q, |(s.kb i *ᵥ elemVec res.d i + s.ref i) q - (KX i *ᵥ elemVec res.d i + rx) q|
        ≤ DX i * b.members[i].taperErr (ownLoads i ls) (res.fmbr i) := by
    intro i
    by_cases hi : i < b.members.length
    · obtain ⟨sL, sE, sI⟩ := hsame i hi
      obtain ⟨rx, h3, h5⟩ := (hX i (hlen ▸ hi)).2.2.2 (ownLoads i ls) (by
        rw [← sL]; exact hown i hi)
      refine ⟨rx, fun _ => ⟨?_, fun q => ?_⟩⟩
      · refine h3 (elemVec u i) (F i) (v i) (θ i) ?_ ?_ ?_ ?_ ?_
        · rw [← sI, ← sL]; exact hT.span i hi
        · simpa [elemVec] using hT.left i hi
        · rw [← sL]; simpa [elemVec] using hT.right i hi
        · rw [← sE]; simpa [elemVec] using hT.rotLeft i hi
        · rw [← sE, ← sL]; simpa [elemVec] using hT.rotRight i hi
      · obtain ⟨c, g1, g2⟩ := href i hi
        have := h5 b.members[i] (hsame i hi) (htap _ (List.getElem_mem hi)) (s.kb i) (hk i hi) i ls
          rfl c g1 (elemVec res.d i) q
        rw [a4, g2]
        simp only [System.endForces, g2]
        exact this
    · exact ⟨0, fun h => absurd h hi⟩
  choose RX hRX using hrx
  set R' : ℕ → Vec4 ℝ := fun i => res.fmbr i - KX i *ᵥ elemVec res.d i with hR'
  have hu := hT.exact_solution h1 KX RX fun i hi => (hRX i hi).1
  have hs₀r : s.r = s₀.r := by funext p; rw [hr, hr₀, hres]
  have hsn : s.n = s₀.n := by rw [hn, hn₀, hlen]
  have eqs : ∀ R P, ({ s with kb := KX } : System ℝ).under R P
      = ({ s₀ with kb := KX } : System ℝ).under R P := by
    intro R P
    simp only [System.under, hs₀r, hsn]
  rw [eqs] at hu
  have hd : (({ s₀ with kb := KX } : System ℝ).under R' s.presc).IsSolution res.d := by
    rw [← eqs]
    refine ⟨fun p hpN w hw => a1.1 p hpN w hw, fun p hpN hc => ?_⟩
    have e : 2 * (p / 2) + ((⟨p % 2, Nat.mod_lt _ (by norm_num)⟩ : Fin 2) : ℕ) = p := by
      simp only; omega
    have hpn : p / 2 ≤ b.members.length := by
      simp only [System.N, System.under, hn] at hpN
      omega
    have e1 := exact_node h1 KX R' s.presc res.d res.fmbr (fun i _ => by
      simp only [hR']; abel) (p / 2) hpn ⟨p % 2, Nat.mod_lt _ (by norm_num)⟩
    have e2 := exact_node h1 s.kb s.ref s.presc res.d res.fmbr (fun i _ => by
      rw [a4]; rfl) (p / 2) hpn ⟨p % 2, Nat.mod_lt _ (by norm_num)⟩
    rw [e] at e1 e2
    rw [← e1, e2]
    exact a1.2 p hpN hc
  -- the a posteriori bound
  have post : ∀ ε' : ℝ, 0 ≤ ε' → (∀ i (hi : i < b.members.length),
      b.members[i].taperErr (ownLoads i ls) (res.fmbr i) ≤ ε') →
      (∀ p < 2 * b.members.length + 2, |res.d p - u p| ≤ G * ε') ∧
      ∀ i < b.members.length, ∀ q, |res.fmbr i q - F i q| ≤ G * ε' := by
    intro ε' hε'0 hε'
    obtain ⟨w1, w2⟩ := hw R' RX s.presc s.presc (fun p _ => hsome p) (fun p _ => hsome p) res.d u hd
      hu ((D + 1) * ε') (by positivity)
      (fun i hi q => by
        have hi' : i < b.members.length := by
          rw [hlen]; simpa only [hn₀] using hi
        have k1 := (hRX i hi').2 q
        have e : R' i q - RX i q
            = (s.kb i *ᵥ elemVec res.d i + s.ref i) q - (KX i *ᵥ elemVec res.d i + RX i) q := by
          simp only [hR', a4, System.endForces, Pi.add_apply, Pi.sub_apply]
          ring
        rw [e]
        refine k1.trans ?_
        have t0 := Member.taperErr_nonneg b.members[i] (ownLoads i ls) (res.fmbr i)
        have t1 := mul_le_mul (hDi i (lt_of_lt_of_eq hi' hlen)) (hε' i hi') t0 hD0
        linarith)
      (fun p _ v v' hv hv' => by
        rw [hv] at hv'
        cases hv'
        simp only [sub_self, abs_zero]
        positivity)
    have hN : ({ s₀ with kb := KX } : System ℝ).N = 2 * b.members.length + 2 := by
      simp only [System.N, hn₀, hlen, hnn]
    rw [hN] at w1
    rw [hGd, mul_assoc]
    refine ⟨w1, fun i hi q => ?_⟩
    have := w2 i (by simp only [hn₀]; exact lt_of_lt_of_eq hi hlen) q
    rw [(hRX i hi).1]
    simp only [System.endForces, System.under, hR'] at this
    rw [add_sub_cancel] at this
    exact this
  -- from the errors at the exact end forces
  set S := ∑ i ∈ Finset.range n, ∑ q : Fin 4, |res.fmbr i q - F i q| with hSd
  have hS0 : 0 ≤ S := Finset.sum_nonneg fun _ _ => Finset.sum_nonneg fun _ _ => abs_nonneg _
  have hSi : ∀ i < n, |res.fmbr i 1 - F i 1| + |res.fmbr i 3 - F i 3| ≤ S := by
    intro i hi
    have t1 := Finset.single_le_sum (f := fun i => ∑ q : Fin 4, |res.fmbr i q - F i q|)
      (fun _ _ => Finset.sum_nonneg fun _ _ => abs_nonneg _) (Finset.mem_range.2 hi)
    simp only [Fin.sum_univ_four] at t1
    rw [hSd]
    simp only [Fin.sum_univ_four]
    linarith [abs_nonneg (res.fmbr i 0 - F i 0), abs_nonneg (res.fmbr i 2 - F i 2)]
  set Ψ := 1 / (8 * ((n : ℝ) + 1) * G) with hΨ
  have hΨ0 : 0 < Ψ := by positivity
  have hnew : ∀ i (hi : i < b.members.length),
      b.members[i].taperErr (ownLoads i ls) (res.fmbr i) ≤ ε + Ψ * S := by
    intro i hi
    have := b.members[i].taperErr_move (ownLoads i ls) (F i) (res.fmbr i) (hSi i (lt_of_lt_of_eq hi hlen))
    have t := mul_le_mul_of_nonneg_right (hfl _ (List.getElem_mem hi)) hS0
    linarith [hε i hi]
  obtain ⟨-, p2⟩ := post (ε + Ψ * S) (by positivity) hnew
  have hSle : S ≤ n * (4 * (G * (ε + Ψ * S))) := by
    have : S ≤ ∑ i ∈ Finset.range n, 4 * (G * (ε + Ψ * S)) := by
      refine Finset.sum_le_sum fun i hi => ?_
      have hi' : i < b.members.length := by rw [hlen]; exact Finset.mem_range.1 hi
      rw [Fin.sum_univ_four]
      linarith [p2 i hi' 0, p2 i hi' 1, p2 i hi' 2, p2 i hi' 3]
    simpa using this
  have hnG : (n : ℝ) * 4 * G * Ψ ≤ 1 / 2 := by
    rw [hΨ, mul_one_div, div_le_iff₀ (by positivity)]
    nlinarith [hG]
  have hS2 : S ≤ 8 * n * G * ε := by
    have e : n * (4 * (G * (ε + Ψ * S))) = 4 * n * G * ε + n * 4 * G * Ψ * S := by ring
    rw [e] at hSle
    have := mul_le_mul_of_nonneg_right hnG hS0
    linarith
  have hΨS : Ψ * S ≤ ε := by
    have h3 := mul_le_mul_of_nonneg_left hS2 hΨ0.le
    have e : Ψ * (8 * n * G * ε) = 2 * (n * 4 * G * Ψ) * ε := by ring
    rw [e] at h3
    have h4 := mul_le_mul_of_nonneg_right hnG hε0
    linarith
  obtain ⟨p3, p4⟩ := post (2 * ε) (by positivity) fun i hi => (hnew i hi).trans (by linarith)
  have hfin : G * (2 * ε) ≤ 8 * (n + 1) * G * ε := by
    have : 0 ≤ (n : ℝ) * (G * ε) := by positivity
    have : 0 ≤ G * ε := by positivity
    nlinarith
  exact ⟨fun p hp => (p3 p hp).trans hfin, fun i hi q => (p4 i hi q).trans hfin⟩

/-! ### A tapered beam -/

/-- Tapered members carry every plain load. -/
theorem Member.Tapered.refSum_ok {m : Member ℝ} (hm : m.Tapered) (i : ℕ) (ls : List (SpanLoad ℝ))
    (hown : ∀ ld ∈ ownLoads i ls, ld.Plain m.L) : ∃ c, m.refSum i ls = .ok c := by
  have hL : 0 < m.L := hm.good.1
  induction ls with
  | nil => exact ⟨_, rfl⟩
  | cons l ls ih =>
    have hsub : ∀ ld ∈ ownLoads i ls, ld.Plain m.L := fun ld h => hown ld (by
      simp only [ownLoads, List.mem_map, List.mem_filter] at h ⊢
      obtain ⟨a, ⟨h1, h2⟩, h3⟩ := h
      exact ⟨a, ⟨List.mem_cons_of_mem _ h1, h2⟩, h3⟩)
    obtain ⟨t, ht⟩ := ih hsub
    unfold Member.refSum
    by_cases hi : l.iSpan = i
    · have hp : l.load.Plain m.L := hown _ (by
        simp only [ownLoads, List.mem_map, List.mem_filter, decide_eq_true_eq]
        exact ⟨l, ⟨by simp, hi⟩, rfl⟩)
      obtain ⟨c, hc⟩ : ∃ c, m.ref l.load = .ok c := by
        rcases hEI : m.EI with e | s
        · exact ⟨releaseCnl (l.load.clamped m.L) m.L m.et, by
            simp only [Member.ref, hp.cnl hL, hm.slender, hEI]⟩
        · obtain ⟨Kth, hK, hPD⟩ := (flexibility_PD2 s.nodes (by
            have := hm.good.2.1
            rw [hEI] at this
            exact this) m.L hL).inv
          obtain ⟨p0, p1, _⟩ := hPD.det_pos
          obtain ⟨c, h1, _⟩ := releaseRef_release (taperRef Kth s m.L l.load) (TtKT Kth m.L) m.L
            m.et hm.pins (by rw [TtKT_apply]; simpa using p0.ne')
            (by rw [TtKT_apply]; simpa using p1.ne')
          have hkFF : kNonprismatic s m.L .FF = .ok (TtKT Kth m.L) := by
            simp only [kNonprismatic, hK, condenseFor]
          refine ⟨c, ?_⟩
          simp only [Member.ref, hp.cnl hL, hm.slender, hEI, hK, hkFF]
          exact h1
      rw [if_pos hi, hc, ht]
      exact ⟨_, rfl⟩
    · rw [if_neg hi]
      exact ⟨t, ht⟩

theorem BeamDef.system_tapered (b : BeamDef ℝ) (ls : List (SpanLoad ℝ)) (hls : b.setLoads = .ok ls)
    (hm : ∀ m ∈ b.members, m.Tapered)
    (hown : ∀ i (hi : i < b.members.length), ∀ ld ∈ ownLoads i ls, ld.Plain b.members[i].L)
    (h1 : 2 * b.members.length + 2 ≤ b.restraints.length)
    (h2 : 2 * b.members.length + 2 ≤ b.presc.length) : ∃ s, b.system = .ok s := by
  unfold BeamDef.system
  rw [hls]
  obtain ⟨r, hr⟩ := mapE_of_ok (f := fun mi : Member ℝ × ℕ => mi.1.refSum mi.2 ls)
    b.members.zipIdx (fun mi hmi => by
      obtain ⟨q1, q2, q3⟩ := List.mem_zipIdx (x := mi.1) (i := mi.2) (k := 0) hmi
      have hi : mi.2 < b.members.length := by omega
      have e : mi.1 = b.members[mi.2] := by simpa using q3
      rw [e]
      exact (hm _ (List.getElem_mem hi)).refSum_ok _ _ (hown _ hi))
  obtain ⟨k, hk⟩ := mapE_of_ok (f := Member.spanK) b.members (fun m hmm => by
    obtain ⟨_, k, _, _, _, h4⟩ := m.spanK_form (hm m hmm).good
    exact ⟨k, h4⟩)
  simp only [hr, hk]
  rw [if_neg (by omega)]
  exact ⟨_, rfl⟩

/-- A span of rigidity `6 / (1 + x)` next to a prismatic one, with the integration points `ns`, a
uniform load and a couple. -/
noncomputable def exTaper (ns : List (GNode ℝ)) : BeamDef ℝ :=
  ⟨[⟨.section ⟨ns, fun x => 6 / (1 + x), [0, 2]⟩, 2, .FF, none⟩, ⟨.const 6, 3, .FF, none⟩],
    [-1, 0, -1, 0, -1, 0], [none, none, none, none, none, none], [⟨1, 1, [3]⟩, ⟨2, 4, [5, 1]⟩]⟩

/-- Two midpoints. -/
noncomputable def exTaperMid : List (GNode ℝ) := [⟨1 / 2, 1, 4⟩, ⟨3 / 2, 1, 12 / 5⟩]

/-- Simpson's rule. -/
noncomputable def exTaperSimpson : List (GNode ℝ) := [⟨0, 1 / 3, 6⟩, ⟨1, 4 / 3, 3⟩, ⟨2, 1 / 3, 2⟩]

theorem exTaper_loads (ns : List (GNode ℝ)) :
    (exTaper ns).setLoads = .ok [⟨0, .udl 3⟩, ⟨1, .ml 5 1⟩] := by
  simp [BeamDef.setLoads, exTaper, parseLM, parseRow]

theorem exTaper_sensible (ns : List (GNode ℝ)) :
    (Rigidity.section ⟨ns, fun x : ℝ => 6 / (1 + x), [0, 2]⟩).Sensible 2 := by
  refine ⟨?_, ⟨2, by norm_num, fun x hx => ?_⟩, ?_⟩
  · show Measurable fun x : ℝ => 6 / (1 + x)
    fun_prop
  · show 2 ≤ 6 / (1 + x)
    rw [le_div_iff₀ (by linarith [hx.1])]
    linarith [hx.2]
  · refine Set.Finite.subset Set.finite_empty ?_
    rintro x ⟨hx, hn⟩
    exact hn (show ContinuousAt (fun x : ℝ => 6 / (1 + x)) x from
      ContinuousAt.div continuousAt_const (by fun_prop) (by linarith [hx.1]))

theorem exTaper_tapered {ns : List (GNode ℝ)} (h : GoodNodes ns) :
    ∀ m ∈ (exTaper ns).members, m.Tapered := by
  intro m hm
  simp only [exTaper, List.mem_cons, List.not_mem_nil, or_false] at hm
  rcases hm with rfl | rfl
  · exact ⟨⟨by norm_num, h, by simp⟩, rfl, by simp, exTaper_sensible ns⟩
  · refine ⟨by simp [Member.Good, Rigidity.Good], rfl, by simp, ?_,
      ⟨6, by norm_num, fun x _ => le_rfl⟩, ?_⟩
    · exact measurable_const
    · refine Set.Finite.subset Set.finite_empty ?_
      rintro x ⟨_, hn⟩
      exact hn continuousAt_const

theorem exTaper_own (ns : List (GNode ℝ)) (i : ℕ) (hi : i < (exTaper ns).members.length) :
    ∀ ld ∈ ownLoads i [⟨0, .udl 3⟩, ⟨1, .ml 5 1⟩], ld.Plain (exTaper ns).members[i].L := by
  have hi' : i < 2 := hi
  interval_cases i
  · intro ld h
    simp [ownLoads] at h
    subst h
    exact ⟨by simp [Load.OnSpan], by simp [Load.IsMechanical], by simp⟩
  · intro ld h
    simp [ownLoads] at h
    subst h
    refine ⟨?_, by simp [Load.IsMechanical], by simp⟩
    simp [Load.OnSpan, exTaper]
    try norm_num

theorem exTaperMid_good : GoodNodes exTaperMid := by
  simp [exTaperMid, GoodNodes]
  norm_num

theorem exTaperSimpson_good : GoodNodes exTaperSimpson := by
  simp [exTaperSimpson, GoodNodes]

theorem exTaper_system {ns : List (GNode ℝ)} (h : GoodNodes ns) :
    ∃ s, (exTaper ns).system = .ok s ∧ s.Nonsingular ∧ s.validate s.forces = true := by
  obtain ⟨s, hs⟩ := BeamDef.system_tapered (exTaper ns) _ (exTaper_loads ns) (exTaper_tapered h)
    (exTaper_own ns) (by simp [exTaper]) (by simp [exTaper])
  refine ⟨s, hs, ?_, ?_⟩
  · exact C77_adequate_supports (exTaper ns) (fun m hm => ⟨(exTaper_tapered h m hm).good, by
      simp only [exTaper, List.mem_cons, List.not_mem_nil, or_false] at hm
      rcases hm with rfl | rfl <;> rfl⟩) s hs 0 1 (by simp)
      (by simp [exTaper]) (by simp [exTaper]) (Or.inl (by simp [exTaper]))
  · obtain ⟨_, _, _, _, hp, _, _⟩ := BeamDef.system_ok hs
    simp only [System.validate, hp]
    have : ∀ i : ℕ, (exTaper ns).presc.getD i none = none := by
      intro i
      rcases i with _ | _ | _ | _ | _ | _ | i <;> simp [exTaper]
    simp only [this]
    simp

/-- The continuous tapered beam has a state, and the analysis is close to it. -/
example : ∃ (C : ℝ) (solve : Solver ℝ) (res : Result ℝ) (u : ℕ → ℝ) (F : ℕ → Vec4 ℝ)
    (v θ : ℕ → ℝ → ℝ), 0 < C ∧ solve.Sound ∧
    (exTaper exTaperMid).analyze (fun _ => true) solve = .ok res ∧
    TaperBeam (exTaper exTaperMid) [⟨0, .udl 3⟩, ⟨1, .ml 5 1⟩] u F v θ ∧
    ∀ ε, 0 ≤ ε → (∀ i (hi : i < (exTaper exTaperMid).members.length),
      (exTaper exTaperMid).members[i].taperErr (ownLoads i [⟨0, .udl 3⟩, ⟨1, .ml 5 1⟩]) (F i) ≤ ε) →
      |res.d 3 - u 3| ≤ C * ε ∧ |res.fmbr 0 3 - F 0 3| ≤ C * ε := by
  obtain ⟨s, hs, hns, hv⟩ := exTaper_system exTaperMid_good
  obtain ⟨solve, hsd, res, hres⟩ := BeamDef.completes hs hns hv
  obtain ⟨u, F, v, θ, hT, _⟩ := C151_exists_unique _ [⟨0, .udl 3⟩, ⟨1, .ml 5 1⟩] s hs hns
    (exTaper_tapered exTaperMid_good) (exTaper_own _)
  obtain ⟨C, hC, h⟩ := C151_tapered_partial _ s hs hns (exTaper_tapered exTaperMid_good)
  refine ⟨C, solve, res, u, F, v, θ, hC, hsd, hres, hT, fun ε h0 hε => ?_⟩
  obtain ⟨h1, h2⟩ := h _ _ rfl _ rfl _ (exTaper_loads _) (exTaper_own _) _ solve hsd res hres u F v θ
    hT ε hε h0
  exact ⟨h1 3 (by simp [exTaper]), h2 0 (by simp [exTaper]) 3⟩

theorem exTaper_flex : ∀ m ∈ (exTaper exTaperSimpson).members, m.flexErr = 0 := by
  intro m hm
  simp only [exTaper, List.mem_cons, List.not_mem_nil, or_false] at hm
  rcases hm with rfl | rfl
  · have e : ∀ j k : Fin 2, exactFlex (fun x : ℝ => 6 / (1 + x)) 2 j k
        = ∫ x in (0 : ℝ)..2, unitM 2 j x * unitM 2 k x * (1 + x) / 6 := by
      intro j k
      unfold exactFlex
      refine intervalIntegral.integral_congr fun x hx => ?_
      rw [uIcc_of_le (by norm_num)] at hx
      have : (1 : ℝ) + x ≠ 0 := by linarith [hx.1]
      simp only
      field_simp
    have poly : ∀ a b c d : ℝ, ∫ x in (0 : ℝ)..2, (a + b * x + c * x ^ 2 + d * x ^ 3)
        = 2 * a + 2 * b + 8 / 3 * c + 4 * d := by
      intro a b c d
      have hb : ∫ x in (0 : ℝ)..2, b * x = 2 * b := by
        rw [intervalIntegral.integral_const_mul, integral_id]
        ring
      rw [intervalIntegral.integral_add, intervalIntegral.integral_add,
        intervalIntegral.integral_add] <;>
        first
        | (rw [hb]
           simp only [intervalIntegral.integral_const_mul, integral_pow,
            intervalIntegral.integral_const, smul_eq_mul]; norm_num; ring)
        | exact (by fun_prop : Continuous _).intervalIntegrable _ _
    have e00 : exactFlex (fun x : ℝ => 6 / (1 + x)) 2 0 0 = 1 / 6 := by
      rw [e, show (fun x : ℝ => unitM 2 0 x * unitM 2 0 x * (1 + x) / 6)
        = fun x => 1 / 6 + 0 * x + (-1 / 8) * x ^ 2 + 1 / 24 * x ^ 3 by
          funext x; simp only [unitM, if_true]; ring, poly]
      norm_num
    have e01 : exactFlex (fun x : ℝ => 6 / (1 + x)) 2 0 1 = -1 / 9 := by
      rw [e, show (fun x : ℝ => unitM 2 0 x * unitM 2 1 x * (1 + x) / 6)
        = fun x => 0 + (-1 / 12) * x + (-1 / 24) * x ^ 2 + 1 / 24 * x ^ 3 by
          funext x
          simp only [unitM, if_true, if_neg (show (1 : Fin 2) ≠ 0 by decide)]; ring, poly]
      norm_num
    have e11 : exactFlex (fun x : ℝ => 6 / (1 + x)) 2 1 1 = 5 / 18 := by
      rw [e, show (fun x : ℝ => unitM 2 1 x * unitM 2 1 x * (1 + x) / 6)
        = fun x => 0 + 0 * x + 1 / 24 * x ^ 2 + 1 / 24 * x ^ 3 by
          funext x
          simp only [unitM, if_neg (show (1 : Fin 2) ≠ 0 by decide)]; ring, poly]
      norm_num
    simp only [Member.flexErr, PyCBA.flexErr, e00, e01, e11, exTaperSimpson, flexibility]
    norm_num
  · rfl

/-- The same constant serves the same beam with other integration points. -/
example : ∃ (C : ℝ) (solve : Solver ℝ) (res : Result ℝ) (u : ℕ → ℝ) (F : ℕ → Vec4 ℝ)
    (v θ : ℕ → ℝ → ℝ), 0 < C ∧ solve.Sound ∧
    (exTaper exTaperSimpson).analyze (fun _ => true) solve = .ok res ∧
    TaperBeam (exTaper exTaperSimpson) [⟨0, .udl 3⟩, ⟨1, .ml 5 1⟩] u F v θ ∧
    ∀ ε, 0 ≤ ε → (∀ i (hi : i < (exTaper exTaperSimpson).members.length),
      (exTaper exTaperSimpson).members[i].taperErr (ownLoads i [⟨0, .udl 3⟩, ⟨1, .ml 5 1⟩]) (F i)
        ≤ ε) → |res.d 3 - u 3| ≤ C * ε ∧ |res.fmbr 0 3 - F 0 3| ≤ C * ε := by
  obtain ⟨s₀, hs₀, hns₀, _⟩ := exTaper_system exTaperMid_good
  obtain ⟨s, hs, hns, hv⟩ := exTaper_system exTaperSimpson_good
  obtain ⟨solve, hsd, res, hres⟩ := BeamDef.completes hs hns hv
  obtain ⟨u, F, v, θ, hT, _⟩ := C151_exists_unique _ [⟨0, .udl 3⟩, ⟨1, .ml 5 1⟩] s hs hns
    (exTaper_tapered exTaperSimpson_good) (exTaper_own _)
  obtain ⟨C, hC, h⟩ := C151_converges_partial _ s₀ hs₀ hns₀ (exTaper_tapered exTaperMid_good)
  refine ⟨C, solve, res, u, F, v, θ, hC, hsd, hres, hT, fun ε h0 hε => ?_⟩
  obtain ⟨h1, h2⟩ := h (exTaper exTaperSimpson) rfl (fun i hi => by
      have hi' : i < 2 := hi
      interval_cases i
      · exact ⟨rfl, rfl, rfl⟩
      · exact ⟨rfl, rfl, rfl⟩) (exTaper_tapered exTaperSimpson_good) rfl rfl _
    (exTaper_loads _) (exTaper_own _) _ solve hsd res hres u F v θ hT
    (fun m hm => by rw [exTaper_flex m hm]; positivity) ε hε h0
  exact ⟨h1 3 (by simp [exTaper]), h2 0 (by simp [exTaper]) 3⟩

end PyCBA
