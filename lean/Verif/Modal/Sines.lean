import Verif.Modal.Converge
import Mathlib.Analysis.SpecialFunctions.Trigonometric.ArctanDeriv

/-!
C148 for the simply supported span: the frequencies of the continuous beam are
`((k + 1) π / L)² √(EI / m)`, so those of the modal analysis tend to these.
-/

set_option linter.unusedSectionVars false
set_option linter.unusedSimpArgs false

namespace PyCBA

open Matrix Finset MeasureTheory

/-- Wirtinger's inequality with a constant below the best one. -/
theorem wirtinger_lt {w t : ℝ → ℝ} {p q β : ℝ} (hpq : p < q) (hw : SlopeOn w t p q)
    (ht : ContinuousOn t (Set.Icc p q)) (hp : w p = 0) (hq : w q = 0) (hβ : 0 < β)
    (hβ' : β * (q - p) < Real.pi) :
    β ^ 2 * ∫ x in p..q, w x ^ 2 ≤ ∫ x in p..q, t x ^ 2 := by
  set c0 := (p + q) / 2 with hc0
  have hcos : ∀ x ∈ Set.Icc p q, Real.cos (β * (x - c0)) ≠ 0 := by
    intro x hx
    apply ne_of_gt
    apply Real.cos_pos_of_mem_Ioo
    constructor
    · have : -((q - p) / 2) ≤ x - c0 := by rw [hc0]; linarith [hx.1]
      nlinarith
    · have : x - c0 ≤ (q - p) / 2 := by rw [hc0]; linarith [hx.2]
      nlinarith
  have hlin : ∀ x, HasDerivAt (fun x => β * (x - c0)) β x := by
    intro x
    simpa using ((hasDerivAt_id x).sub_const c0).const_mul β
  have hg : ∀ x ∈ Set.Icc p q, HasDerivAt (fun x => β * Real.tan (β * (x - c0)))
      (β ^ 2 + (β * Real.tan (β * (x - c0))) ^ 2) x := by
    intro x hx
    have h1 := ((Real.hasDerivAt_tan (hcos x hx)).comp x (hlin x)).const_mul β
    refine h1.congr_deriv ?_
    have h2 := Real.sin_sq_add_cos_sq (β * (x - c0))
    have h3 := hcos x hx
    rw [Real.tan_eq_sin_div_cos]
    field_simp
    linear_combination -h2
  have hgc : ContinuousOn (fun x => β * Real.tan (β * (x - c0))) (Set.Icc p q) := fun x hx =>
    (hg x hx).continuousAt.continuousWithinAt
  have hG : SlopeOn (fun x => β * Real.tan (β * (x - c0)) * w x ^ 2)
      (fun x => (β ^ 2 + (β * Real.tan (β * (x - c0))) ^ 2) * w x ^ 2
        + β * Real.tan (β * (x - c0)) * (2 * w x * t x)) p q := by
    constructor
    · exact hgc.mul (hw.cont.pow 2)
    · intro x hx
      have h1 := (hg x ⟨hx.1.le, hx.2.le⟩).hasDerivWithinAt (s := Set.Ioi x)
      have h2 := (hw.deriv x hx).pow 2
      refine (h1.mul h2).congr_deriv ?_
      norm_num
  have hGc : ContinuousOn (fun x => (β ^ 2 + (β * Real.tan (β * (x - c0))) ^ 2) * w x ^ 2
        + β * Real.tan (β * (x - c0)) * (2 * w x * t x)) (Set.Icc p q) :=
    ((continuousOn_const.add (hgc.pow 2)).mul (hw.cont.pow 2)).add
      (hgc.mul ((continuousOn_const.mul hw.cont).mul ht))
  have toI : ∀ {f : ℝ → ℝ}, ContinuousOn f (Set.Icc p q) → IntervalIntegrable f volume p q := by
    intro f hf
    apply ContinuousOn.intervalIntegrable
    rwa [Set.uIcc_of_le hpq.le]
  have e0 := hG.integral hpq.le (toI hGc)
  rw [hp, hq] at e0
  have h0 : 0 ≤ ∫ x in p..q, (t x + β * Real.tan (β * (x - c0)) * w x) ^ 2 :=
    intervalIntegral.integral_nonneg hpq.le fun x _ => sq_nonneg _
  have e1 : (fun x => (t x + β * Real.tan (β * (x - c0)) * w x) ^ 2)
      = fun x => (t x ^ 2 + ((β ^ 2 + (β * Real.tan (β * (x - c0))) ^ 2) * w x ^ 2
        + β * Real.tan (β * (x - c0)) * (2 * w x * t x))) - β ^ 2 * w x ^ 2 := by
    funext x; ring
  have i1 : IntervalIntegrable (fun x => t x ^ 2) volume p q := toI (ht.pow 2)
  have i2 := toI hGc
  have i3 : IntervalIntegrable (fun x => w x ^ 2) volume p q := toI (hw.cont.pow 2)
  rw [e1, intervalIntegral.integral_sub (i1.add i2) (i3.const_mul _),
    intervalIntegral.integral_add i1 i2, e0, intervalIntegral.integral_const_mul] at h0
  simp only [ne_eq, OfNat.ofNat_ne_zero, not_false_eq_true, zero_pow, mul_zero, sub_self, add_zero] at h0
  linarith

/-- Wirtinger's inequality: a function that vanishes at both ends. -/
theorem wirtinger {w t : ℝ → ℝ} {p q : ℝ} (hpq : p < q) (hw : SlopeOn w t p q)
    (ht : ContinuousOn t (Set.Icc p q)) (hp : w p = 0) (hq : w q = 0) :
    (Real.pi / (q - p)) ^ 2 * ∫ x in p..q, w x ^ 2 ≤ ∫ x in p..q, t x ^ 2 := by
  have hd : 0 < q - p := sub_pos.2 hpq
  have hlim : Filter.Tendsto (fun θ : ℝ => (θ * (Real.pi / (q - p))) ^ 2 * ∫ x in p..q, w x ^ 2)
      (nhdsWithin 1 (Set.Iio 1)) (nhds ((1 * (Real.pi / (q - p))) ^ 2 * ∫ x in p..q, w x ^ 2)) := by
    apply Filter.Tendsto.mono_left _ nhdsWithin_le_nhds
    apply Continuous.tendsto
    fun_prop
  rw [one_mul] at hlim
  refine le_of_tendsto hlim ?_
  filter_upwards [Ioo_mem_nhdsLT (zero_lt_one : (0 : ℝ) < 1)] with θ hθ
  refine wirtinger_lt hpq hw ht hp hq (mul_pos hθ.1 (div_pos Real.pi_pos hd)) ?_
  have : θ * (Real.pi / (q - p)) * (q - p) = θ * Real.pi := by field_simp
  rw [this]
  nlinarith [Real.pi_pos, hθ.2]

/-- A shape that vanishes at the ends of `K` equal parts of a span has at least the strain
energy of the `K`-th sine. -/
theorem parts_strain {w t c : ℝ → ℝ} {l : ℝ} (hl : 0 < l) (hw : SlopeOn w t 0 l)
    (ht : SlopeOn t c 0 l) (hc : IntervalIntegrable c volume 0 l)
    (hc2 : IntervalIntegrable (fun x => c x ^ 2) volume 0 l) {K : ℕ} (hK : 0 < K)
    (hz : ∀ s : ℕ, s ≤ K → w (s * (l / K)) = 0) :
    (K * Real.pi / l) ^ 4 * ∫ x in (0 : ℝ)..l, w x ^ 2 ≤ ∫ x in (0 : ℝ)..l, c x ^ 2 := by
  have hK' : (0 : ℝ) < K := by exact_mod_cast hK
  have toI : ∀ {f : ℝ → ℝ}, ContinuousOn f (Set.Icc 0 l) → IntervalIntegrable f volume 0 l := by
    intro f hf
    apply ContinuousOn.intervalIntegrable
    rwa [Set.uIcc_of_le hl.le]
  have iw : IntervalIntegrable (fun x => w x ^ 2) volume 0 l := toI (hw.cont.pow 2)
  have it : IntervalIntegrable (fun x => t x ^ 2) volume 0 l := toI (ht.cont.pow 2)
  set β := K * Real.pi / l with hβ
  have h1 : β ^ 2 * ∫ x in (0 : ℝ)..l, w x ^ 2 ≤ ∫ x in (0 : ℝ)..l, t x ^ 2 := by
    rw [elem_sum hK hl iw, elem_sum hK hl it, Finset.mul_sum]
    apply Finset.sum_le_sum
    intro s hs
    have hs := Finset.mem_range.1 hs
    obtain ⟨b1, b2⟩ := elem_in hs hl
    have hh : 0 < l / K := by positivity
    have step : (s : ℝ) * (l / K) + l / K = (s + 1 : ℕ) * (l / K) := by push_cast; ring
    have := wirtinger (p := s * (l / K)) (q := s * (l / K) + l / K) (by linarith) (hw.mono b1 b2)
      (ht.cont.mono (Set.Icc_subset_Icc b1 b2)) (hz s (by omega)) (by rw [step]; exact hz _ (by omega))
    have e : Real.pi / ((s : ℝ) * (l / K) + l / K - s * (l / K)) = β := by
      rw [add_sub_cancel_left, hβ]; field_simp
    rwa [e] at this
  have iwc : IntervalIntegrable (fun x => c x * w x) volume 0 l := by
    apply hc.mul_continuousOn
    rw [Set.uIcc_of_le hl.le]
    exact hw.cont
  have hG : SlopeOn (fun x => t x * w x) (fun x => c x * w x + t x ^ 2) 0 l := by
    constructor
    · exact ht.cont.mul hw.cont
    · intro x hx
      refine ((ht.deriv x hx).mul (hw.deriv x hx)).congr_deriv ?_
      ring
  have e0 := hG.integral hl.le (iwc.add it)
  have z0 : w 0 = 0 := by simpa using hz 0 (by omega)
  have zl : w l = 0 := by
    have := hz K le_rfl
    rwa [show (K : ℝ) * (l / K) = l by field_simp] at this
  rw [z0, zl, intervalIntegral.integral_add iwc it] at e0
  have h0 : 0 ≤ ∫ x in (0 : ℝ)..l, (c x + β ^ 2 * w x) ^ 2 :=
    intervalIntegral.integral_nonneg hl.le fun x _ => sq_nonneg _
  have e1 : (fun x => (c x + β ^ 2 * w x) ^ 2)
      = fun x => (c x ^ 2 + 2 * β ^ 2 * (c x * w x)) + β ^ 4 * w x ^ 2 := by
    funext x; ring
  rw [e1, intervalIntegral.integral_add (hc2.add (iwc.const_mul _)) (iw.const_mul _),
    intervalIntegral.integral_add hc2 (iwc.const_mul _), intervalIntegral.integral_const_mul,
    intervalIntegral.integral_const_mul] at h0
  have h2 := mul_le_mul_of_nonneg_left h1 (sq_nonneg β)
  have h3 : ∫ x in (0 : ℝ)..l, c x * w x = -∫ x in (0 : ℝ)..l, t x ^ 2 := by linarith
  rw [h3] at h0
  nlinarith

/-! ## Sines -/

theorem sin_orth {l : ℝ} (hl : 0 < l) (i j : ℕ) (hi : 0 < i) (hj : 0 < j) :
    ∫ x in (0 : ℝ)..l, Real.sin (i * Real.pi / l * x) * Real.sin (j * Real.pi / l * x)
      = if i = j then l / 2 else 0 := by
  have hpi := Real.pi_pos
  have hi' : (0 : ℝ) < i := by exact_mod_cast hi
  have hj' : (0 : ℝ) < j := by exact_mod_cast hj
  have hsin : ∀ n : ℕ, Real.sin (n * Real.pi / l * l) = 0 := by
    intro n
    rw [div_mul_cancel₀ _ hl.ne']
    exact Real.sin_nat_mul_pi n
  have hS : ∀ (a x : ℝ), HasDerivAt (fun x => Real.sin (a * x)) (a * Real.cos (a * x)) x := by
    intro a x
    have h1 : HasDerivAt (fun x => a * x) a x := by simpa using (hasDerivAt_id x).const_mul a
    refine (h1.sin).congr_deriv ?_
    ring
  have hC : ∀ (a x : ℝ), HasDerivAt (fun x => Real.cos (a * x)) (-(a * Real.sin (a * x))) x := by
    intro a x
    have h1 : HasDerivAt (fun x => a * x) a x := by simpa using (hasDerivAt_id x).const_mul a
    refine (h1.cos).congr_deriv ?_
    ring
  split
  · rename_i hij
    subst hij
    set a := (i : ℝ) * Real.pi / l with ha
    have hapos : 0 < a := by positivity
    have hd : ∀ x, HasDerivAt (fun x => x / 2 - Real.sin (a * x) * Real.cos (a * x) / (2 * a))
        (Real.sin (a * x) * Real.sin (a * x)) x := by
      intro x
      refine (((hasDerivAt_id x).div_const 2).sub
        (((hS a x).mul (hC a x)).div_const (2 * a))).congr_deriv ?_
      have := Real.sin_sq_add_cos_sq (a * x)
      field_simp
      linear_combination -this
    rw [intervalIntegral.integral_eq_sub_of_hasDerivAt (fun x _ => hd x)
      (Continuous.intervalIntegrable (by fun_prop) _ _), hsin i]
    simp
  · rename_i hij
    set a := (i : ℝ) * Real.pi / l with ha
    set c := (j : ℝ) * Real.pi / l with hc
    have hne : c ^ 2 - a ^ 2 ≠ 0 := by
      have hap : 0 < a := by positivity
      have hcp : 0 < c := by positivity
      have h1 : c - a ≠ 0 := by
        rw [ha, hc, sub_ne_zero]
        intro h
        rw [div_left_inj' hl.ne'] at h
        have := mul_right_cancel₀ hpi.ne' h
        exact hij (by exact_mod_cast this.symm)
      rw [show c ^ 2 - a ^ 2 = (c - a) * (c + a) by ring]
      exact mul_ne_zero h1 (by positivity)
    have hd : ∀ x, HasDerivAt (fun x => (a * Real.cos (a * x) * Real.sin (c * x)
        - Real.sin (a * x) * (c * Real.cos (c * x))) / (c ^ 2 - a ^ 2))
        (Real.sin (a * x) * Real.sin (c * x)) x := by
      intro x
      refine (((((hC a x).const_mul a).mul (hS c x)).sub
        ((hS a x).mul ((hC c x).const_mul c))).div_const (c ^ 2 - a ^ 2)).congr_deriv ?_
      field_simp
      ring
    rw [intervalIntegral.integral_eq_sub_of_hasDerivAt (fun x _ => hd x)
      (Continuous.intervalIntegrable (by fun_prop) _ _), hsin i, hsin j]
    simp

theorem sines_sq {l : ℝ} (hl : 0 < l) {K : ℕ} (u : Fin K → ℝ) :
    ∫ x in (0 : ℝ)..l, (∑ j : Fin K, u j * Real.sin (((j : ℕ) + 1 : ℕ) * Real.pi / l * x)) ^ 2
      = ∑ j : Fin K, u j ^ 2 * (l / 2) := by
  have e : (fun x => (∑ j : Fin K, u j * Real.sin (((j : ℕ) + 1 : ℕ) * Real.pi / l * x)) ^ 2)
      = fun x => ∑ i : Fin K, ∑ j : Fin K, u i * u j * (Real.sin (((i : ℕ) + 1 : ℕ) * Real.pi / l * x)
        * Real.sin (((j : ℕ) + 1 : ℕ) * Real.pi / l * x)) := by
    funext x
    rw [sq, Finset.sum_mul_sum]
    apply Finset.sum_congr rfl
    intro i _
    apply Finset.sum_congr rfl
    intro j _
    ring
  rw [e, intervalIntegral.integral_finsetSum fun i _ => Continuous.intervalIntegrable (by fun_prop) _ _]
  apply Finset.sum_congr rfl
  intro i _
  rw [intervalIntegral.integral_finsetSum fun i _ => Continuous.intervalIntegrable (by fun_prop) _ _]
  simp only [intervalIntegral.integral_const_mul]
  rw [Finset.sum_eq_single i]
  · rw [sin_orth hl _ _ (by omega) (by omega), if_pos rfl]; ring
  · intro j _ hj
    rw [sin_orth hl _ _ (by omega) (by omega), if_neg, mul_zero]
    intro h
    exact hj (Fin.ext (by omega))
  · intro h; exact absurd (Finset.mem_univ i) h

/-- The sine shape with `j + 1` half waves. -/
noncomputable def sineShape (l : ℝ) (j : ℕ) : BeamShape where
  w _ x := Real.sin ((j + 1 : ℕ) * Real.pi / l * x)
  t _ x := (j + 1 : ℕ) * Real.pi / l * Real.cos ((j + 1 : ℕ) * Real.pi / l * x)
  c _ x := -(((j + 1 : ℕ) * Real.pi / l) ^ 2 * Real.sin ((j + 1 : ℕ) * Real.pi / l * x))

/-- The frequencies of a simply supported continuous span. -/
theorem exact_simple {L r EI m : ℕ → ℝ} (hL : 0 < L 0) (hE : 0 < EI 0) (hm : 0 < m 0)
    (r0 : r 0 = -1) (r1 : r 1 = 0) (r2 : r 2 = -1) (r3 : r 3 = 0) (k : ℕ) :
    exactOmegaSq 1 L r EI m k = ((k + 1 : ℕ) * Real.pi / L 0) ^ 4 * EI 0 / m 0 := by
  have hpi := Real.pi_pos
  set l := L 0 with hl
  have hLi : ∀ i < 1, 0 < L i := by
    intro i hi
    obtain rfl : i = 0 := by omega
    exact hL
  have hEi : ∀ i < 1, 0 < EI i := by
    intro i hi
    obtain rfl : i = 0 := by omega
    exact hE
  set β := ((k + 1 : ℕ) : ℝ) * Real.pi / l with hβ
  have hβ0 : 0 < β := by positivity
  have hbdd : BddBelow (ratioBounds 1 L r EI m k) := ⟨0, fun μ hμ => ratio_nonneg hLi hEi hμ⟩
  -- the sines
  have hmem : β ^ 4 * EI 0 / m 0 ∈ ratioBounds 1 L r EI m k := by
    have hS : ∀ (a x : ℝ), HasDerivAt (fun x => Real.sin (a * x)) (a * Real.cos (a * x)) x := by
      intro a x
      have h1 : HasDerivAt (fun x => a * x) a x := by simpa using (hasDerivAt_id x).const_mul a
      refine (h1.sin).congr_deriv ?_
      ring
    have hC : ∀ (a x : ℝ), HasDerivAt (fun x => a * Real.cos (a * x)) (-(a ^ 2 * Real.sin (a * x))) x := by
      intro a x
      have h1 : HasDerivAt (fun x => a * x) a x := by simpa using (hasDerivAt_id x).const_mul a
      refine ((h1.cos).const_mul a).congr_deriv ?_
      ring
    have hcc : ∀ a : Fin (k + 1) → ℝ, Continuous ((combShape (fun j => sineShape l j) a).c 0) := by
      intro a
      simp only [combShape, sineShape]
      fun_prop
    have w0 : ∀ a : Fin (k + 1) → ℝ, (combShape (fun j => sineShape l j) a).w 0 0 = 0 := by
      intro a
      simp [combShape, sineShape]
    have wl : ∀ a : Fin (k + 1) → ℝ, (combShape (fun j => sineShape l j) a).w 0 l = 0 := by
      intro a
      simp only [combShape, sineShape]
      apply Finset.sum_eq_zero
      intro j _
      rw [div_mul_cancel₀ _ hL.ne', Real.sin_nat_mul_pi, mul_zero]
    refine ⟨fun j => sineShape l j, fun a => ⟨?_, ?_, ?_, ?_, ?_, ?_⟩, fun a ha => ?_⟩
    · intro i hi
      apply SlopeOn.of_hasDerivAt
      intro x
      simp only [combShape, sineShape]
      exact HasDerivAt.fun_sum fun j _ => (hS _ x).const_mul (a j)
    · intro i hi
      apply SlopeOn.of_hasDerivAt
      intro x
      simp only [combShape, sineShape]
      exact HasDerivAt.fun_sum fun j _ => (hC _ x).const_mul (a j)
    · intro i hi
      exact (hcc a).intervalIntegrable _ _
    · intro i hi
      exact ((hcc a).pow 2).intervalIntegrable _ _
    · intro i hi; omega
    · intro P hP hr
      have hP' : P = 0 ∨ P = 1 ∨ P = 2 ∨ P = 3 := by omega
      rcases hP' with rfl | rfl | rfl | rfl
      · simpa [BeamShape.dof, jointAt] using w0 a
      · rw [r1] at hr; norm_num at hr
      · simpa [BeamShape.dof, jointAt] using wl a
      · rw [r3] at hr; norm_num at hr
    · have hk : (combShape (fun j : Fin (k + 1) => sineShape l j) a).kinetic 1 L m
          = m 0 * ∑ j, a j ^ 2 * (l / 2) := by
        simp only [BeamShape.kinetic, Finset.sum_range_one, combShape, sineShape]
        rw [← hl, sines_sq hL]
      have hs : (combShape (fun j : Fin (k + 1) => sineShape l j) a).strain 1 L r EI
          = EI 0 * ∑ j : Fin (k + 1), (a j * (((j : ℕ) + 1 : ℕ) * Real.pi / l) ^ 2) ^ 2 * (l / 2) := by
        simp only [BeamShape.strain, Finset.sum_range_one]
        have z : ∑ P ∈ range (2 * 1 + 2), max (r P) 0
            * (combShape (fun j : Fin (k + 1) => sineShape l j) a).dof 1 L P ^ 2 = 0 := by
          simp only [Finset.sum_range_succ, Finset.sum_range_zero, r0, r1, r2, r3]
          norm_num
        rw [z, add_zero, ← hl, ← sines_sq hL]
        congr 1
        apply intervalIntegral.integral_congr
        intro x _
        simp only [combShape, sineShape]
        rw [← neg_sq, ← Finset.sum_neg_distrib]
        congr 1
        apply Finset.sum_congr rfl
        intro j _
        ring
      rw [hk, hs]
      constructor
      · apply mul_pos hm
        apply Finset.sum_pos'
        · intro j _; positivity
        · obtain ⟨j, hj⟩ := Function.ne_iff.1 ha
          have : a j ≠ 0 := hj
          exact ⟨j, Finset.mem_univ j, by positivity⟩
      · rw [show β ^ 4 * EI 0 / m 0 * (m 0 * ∑ j, a j ^ 2 * (l / 2))
          = EI 0 * (β ^ 4 * ∑ j, a j ^ 2 * (l / 2)) by
            generalize ∑ j, a j ^ 2 * (l / 2) = q
            field_simp]
        apply mul_le_mul_of_nonneg_left _ hE.le
        rw [Finset.mul_sum]
        apply Finset.sum_le_sum
        intro j _
        have hb : (((j : ℕ) + 1 : ℕ) : ℝ) * Real.pi / l ≤ β := by
          rw [hβ]
          apply div_le_div_of_nonneg_right _ hL.le
          apply mul_le_mul_of_nonneg_right _ hpi.le
          exact_mod_cast (by omega : (j : ℕ) + 1 ≤ k + 1)
        have hb4 := pow_le_pow_left₀ (by positivity) hb 4
        have : (a j * (((j : ℕ) + 1 : ℕ) * Real.pi / l) ^ 2) ^ 2 * (l / 2)
            = (((j : ℕ) + 1 : ℕ) * Real.pi / l) ^ 4 * (a j ^ 2 * (l / 2)) := by ring
        rw [this]
        exact mul_le_mul_of_nonneg_right hb4 (by positivity)
  apply le_antisymm (csInf_le hbdd hmem)
  apply le_csInf ⟨_, hmem⟩
  rintro μ ⟨S, hadm, hS⟩
  -- a shape of the space that vanishes at the ends of k + 1 equal parts
  let T : (Fin (k + 1) → ℝ) →ₗ[ℝ] (Fin k → ℝ) :=
    { toFun := fun a j => (combShape S a).w 0 (((j : ℕ) + 1 : ℕ) * (l / (k + 1 : ℕ)))
      map_add' := by
        intro c d; ext j
        simp [combShape, add_mul, Finset.sum_add_distrib]
      map_smul' := by
        intro q c; ext j
        simp [combShape, Finset.mul_sum, mul_assoc] }
  have hker : LinearMap.ker T ≠ ⊥ := LinearMap.ker_ne_bot_of_finrank_lt (by simp)
  obtain ⟨a, ha, ha0⟩ := Submodule.exists_mem_ne_zero_of_ne_bot hker
  have hT : ∀ j : Fin k, (combShape S a).w 0 (((j : ℕ) + 1 : ℕ) * (l / (k + 1 : ℕ))) = 0 := fun j =>
    congrFun (LinearMap.mem_ker.1 ha) j
  obtain ⟨h1, h2⟩ := hS a ha0
  have hA := hadm a
  have z0 : (combShape S a).w 0 0 = 0 := by
    simpa [BeamShape.dof, jointAt] using hA.held 0 (by omega) r0
  have zl : (combShape S a).w 0 l = 0 := by
    simpa [BeamShape.dof, jointAt] using hA.held 2 (by omega) r2
  have hz : ∀ s : ℕ, s ≤ k + 1 → (combShape S a).w 0 (s * (l / (k + 1 : ℕ))) = 0 := by
    intro s hs
    rcases Nat.eq_zero_or_pos s with rfl | hs0
    · simpa using z0
    · by_cases hsk : s = k + 1
      · subst hsk
        have hk0 : ((k + 1 : ℕ) : ℝ) ≠ 0 := by exact_mod_cast Nat.succ_ne_zero k
        rw [show ((k + 1 : ℕ) : ℝ) * (l / (k + 1 : ℕ)) = l by field_simp]
        exact zl
      · have := hT ⟨s - 1, by omega⟩
        simp only [Nat.sub_add_cancel hs0] at this
        exact this
  have key := parts_strain hL (hA.slope 0 (by omega)) (hA.curv 0 (by omega)) (hA.int 0 (by omega))
    (hA.int2 0 (by omega)) (Nat.succ_pos k) hz
  rw [← hβ] at key
  have hk : (combShape S a).kinetic 1 L m = m 0 * ∫ x in (0 : ℝ)..l, (combShape S a).w 0 x ^ 2 := by
    simp only [BeamShape.kinetic, Finset.sum_range_one, ← hl]
  have hs : EI 0 * (∫ x in (0 : ℝ)..l, (combShape S a).c 0 x ^ 2) ≤ (combShape S a).strain 1 L r EI := by
    simp only [BeamShape.strain, Finset.sum_range_one, ← hl]
    apply le_add_of_nonneg_right
    exact Finset.sum_nonneg fun P _ => mul_nonneg (le_max_right _ _) (sq_nonneg _)
  rw [hk] at h1 h2
  set W := ∫ x in (0 : ℝ)..l, (combShape S a).w 0 x ^ 2 with hW
  have hWpos : 0 < W := (mul_pos_iff_of_pos_left hm).1 h1
  have h3 : EI 0 * (β ^ 4 * W) ≤ μ * (m 0 * W) :=
    (mul_le_mul_of_nonneg_left key hE.le).trans (hs.trans h2)
  rw [div_le_iff₀ hm]
  have h4 : β ^ 4 * EI 0 * W ≤ μ * m 0 * W := by linarith
  exact le_of_mul_le_mul_right h4 hWpos

/-- **C148**, simply supported span: the frequencies of the modal analysis are at least
`((k + 1) π / L)² √(EI / m)` and tend to these. -/
theorem C148_simple_span (b : BeamDef ℝ) (mem : Member ℝ) (e m : ℝ) (nModes : ℕ) (eigh : ℕ → Eigh ℝ)
    (hS : ∀ n, (eigh n).Sound) (res : ℕ → ModalResult ℝ)
    (h : ∀ n, 0 < n → solveModal b (.scalar m) nModes n (eigh n) = .ok (res n))
    (hb : b.members = [mem]) (hr : b.restraints = [-1, 0, -1, 0]) (hL : 0 < mem.L)
    (hE : mem.EI = .const e) (he : 0 < e) (hm : 0 < m) (k : ℕ) (hk : k < nModes) :
    (∀ n, 0 < n → ∀ h' : k < (res n).modes.length,
      ((k + 1) * Real.pi / mem.L) ^ 2 * Real.sqrt (e / m) ≤ (res n).modes[k].omega) ∧
    Filter.Tendsto (fun n => ((res n).modes.map Mode.omega).getD k 0) Filter.atTop
      (nhds (((k + 1) * Real.pi / mem.L) ^ 2 * Real.sqrt (e / m))) := by
  have hne : b.members ≠ [] := by rw [hb]; simp
  have hL' : ∀ m ∈ b.members, 0 < m.L := by rw [hb]; simpa using hL
  have hE' : ∀ m ∈ b.members, ∀ e', m.EI = .const e' → 0 < e' := by
    rw [hb]
    intro m hm e' he'
    obtain rfl : m = mem := by simpa using hm
    rw [hE] at he'
    cases he'
    exact he
  have hbm : broadcastMass (.scalar m) b.members.length = .ok [m] := by rw [hb]; rfl
  have hm' : ∀ ms, broadcastMass (.scalar m) b.members.length = .ok ms → ∀ x ∈ ms, 0 < x := by
    intro ms hms x hx
    rw [hbm] at hms
    cases hms
    simp only [List.mem_singleton] at hx
    rw [hx]; exact hm
  obtain ⟨EIs, ms, free, lam, v, q1, q2, S⟩ := solveModal_solved (hS 1) (h 1 one_pos) hne hL' hE' hm'
  have hEIs : EIs = [e] := by
    obtain ⟨a1, a2⟩ := mapE_ok q1
    have hl : EIs.length = 1 := by rw [a1, hb]; rfl
    obtain ⟨x, rfl⟩ := List.length_eq_one_iff.1 hl
    have h1 := (modalEI_ok (a2 0 (by rw [hb]; simp) (by simp))).1
    simp only [hb, List.getElem_cons_zero] at h1
    rw [hE] at h1
    cases h1
    rfl
  subst hEIs
  have hval : beamOmegaSq b [e] [m] k = ((k + 1 : ℕ) * Real.pi / mem.L) ^ 4 * e / m := by
    unfold beamOmegaSq
    rw [hb, hr]
    exact exact_simple (L := fun i => ([mem].map Member.L).getD i 0) (EI := fun i => [e].getD i 0)
      (m := fun i => [m].getD i 0) hL he hm rfl rfl rfl rfl k
  have hval' : Real.sqrt (beamOmegaSq b [e] [m] k)
      = ((k + 1) * Real.pi / mem.L) ^ 2 * Real.sqrt (e / m) := by
    rw [hval, mul_div_assoc, Real.sqrt_mul (by positivity)]
    congr 1
    push_cast
    rw [show ((k + 1 : ℝ) * Real.pi / mem.L) ^ 4 = (((k + 1 : ℝ) * Real.pi / mem.L) ^ 2) ^ 2 by ring]
    exact Real.sqrt_sq (by positivity)
  rw [← hval']
  refine ⟨?_, (C148_converges b _ nModes eigh hS res h hne hL' hE' hm' [e] [m] q1 hbm k hk).2⟩
  intro n hn h'
  have h1 := (C148_bounds b _ nModes n (eigh n) (hS n) (res n) (h n hn) hne hL' hE' hm' [e] [m] q1 hbm
    k h').2.1
  have h2 := Real.sqrt_le_sqrt h1
  rwa [Real.sqrt_sq] at h2
  obtain ⟨EIs', ms', free', lam', v', -, -, S'⟩ := solveModal_solved (hS n) (h n hn) hne hL' hE' hm'
  have hkf : k < free'.length := by have := S'.len; omega
  rw [S'.mode k h' hkf]
  exact Real.sqrt_nonneg _

/-- A span of length 1 with `EI = 1` and `m = 420`: the first frequency tends to `π² / √420`. -/
example : ∃ res : ℕ → ModalResult ℝ,
    (∀ n, 0 < n → solveModal modalSpan (.scalar 420) 2 n anyEigh = .ok (res n)) ∧
    Filter.Tendsto (fun n => ((res n).modes.map Mode.omega).getD 0 0) Filter.atTop
      (nhds (Real.pi ^ 2 * Real.sqrt (1 / 420))) := by
  have hex : ∀ n, ∃ res, 0 < n → solveModal modalSpan (.scalar 420) 2 n anyEigh = .ok res := by
    intro n
    by_cases hn : 0 < n
    · obtain ⟨res, hres⟩ := solveModal_completes modalSpan (.scalar 420) 2 n [1] [420] rfl rfl hn
        (by simp [modalSpan]) (by simp [modalSpan]) (by simp [modalSpan, prism]) (by simp)
      exact ⟨res, fun _ => hres⟩
    · exact ⟨⟨[], []⟩, fun h => absurd h hn⟩
  choose res hres using hex
  refine ⟨res, hres, ?_⟩
  have := (C148_simple_span modalSpan _ 1 420 2 (fun _ => anyEigh) (fun _ => anyEigh_sound) res hres rfl
    rfl (by norm_num [prism]) rfl one_pos (by norm_num) 0 (by norm_num)).2
  simpa [modalSpan, prism] using this

end PyCBA
