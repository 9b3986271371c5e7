import Verif.Load.Spec
import Mathlib.Tactic.FieldSimp
import Mathlib.Tactic.Ring
import Mathlib.Tactic.Linarith
import Mathlib.MeasureTheory.Integral.IntervalIntegral.FundThmCalculus
import Mathlib.MeasureTheory.Integral.DivergenceTheorem
import Mathlib.Analysis.Calculus.Deriv.Pow
import Mathlib.Analysis.Calculus.Deriv.Mul
import Mathlib.Analysis.Calculus.Deriv.Add

/-! Helper lemmas for the load properties. -/

set_option linter.unusedSectionVars false

namespace PyCBA

open MeasureTheory Set

section alg

variable {K : Type*} [Field K] [LinearOrder K] [IsStrictOrderedRing K]

theorem mb_of_nonneg {v : K} (h : 0 ≤ v) : mb v = v := max_eq_left h
theorem mb_of_nonpos {v : K} (h : v ≤ 0) : mb v = 0 := max_eq_right h

theorem resolve_zero {w1 w2 a L : K} {c : Option K} (h : L ≤ a ∨ c.getD (L - a) ≤ 0) :
    resolveTrapez w1 w2 a c L = (w1, w2, 0, a, 0) := by
  cases c <;> simp_all [resolveTrapez]

theorem resolve_clip {w1 w2 a L : K} {c : Option K} (h1 : a < L)
    (h2 : 0 < c.getD (L - a)) (h3 : L < a + c.getD (L - a)) :
    resolveTrapez w1 w2 a c L =
      (w1, w1 + (w2 - w1) * (L - a) / c.getD (L - a),
        w1 + (w2 - w1) * (L - a) / c.getD (L - a) - w1, a, L - a) := by
  cases c with
  | none => simp at h3
  | some c =>
    simp only [Option.getD_some] at h2 h3
    simp [resolveTrapez, not_le.mpr h1, not_le.mpr h2, h3]

theorem resolve_fit {w1 w2 a L : K} {c : Option K} (h1 : a < L)
    (h2 : 0 < c.getD (L - a)) (h3 : a + c.getD (L - a) ≤ L) :
    resolveTrapez w1 w2 a c L = (w1, w2, w2 - w1, a, c.getD (L - a)) := by
  cases c with
  | none => simp [resolveTrapez, not_le.mpr h1]
  | some c =>
    simp only [Option.getD_some] at h2 h3
    simp [resolveTrapez, not_le.mpr h1, not_le.mpr h2, not_lt.mpr h3]

/-- The resolved extent of a trapezoidal load that is not void. -/
theorem resolve_pos {w1 w2 a L : K} {c : Option K}
    (h : 0 < (resolveTrapez w1 w2 a c L).2.2.2.2) :
    a < L ∧ 0 < c.getD (L - a) := by
  by_contra hn
  rw [resolve_zero] at h
  · exact lt_irrefl _ h
  · by_contra h'
    push Not at h'
    exact hn h'

end alg

section integ

/-- Integral over the span of a function supported on a patch. -/
theorem integral_patch (f : ℝ → ℝ) {a b L : ℝ} (ha : 0 ≤ a) (haL : a ≤ L) (hab : a ≤ b) :
    (∫ x in (0 : ℝ)..L, if a ≤ x ∧ x ≤ b then f x else 0) = ∫ x in a..(min b L), f x := by
  have hL : 0 ≤ L := ha.trans haL
  rw [intervalIntegral.integral_of_le hL,
    intervalIntegral.integral_of_le (le_min hab haL)]
  have h1 : (fun x => if a ≤ x ∧ x ≤ b then f x else 0) = (Icc a b).indicator f := by
    ext x
    simp [indicator, mem_Icc]
  rw [h1, setIntegral_indicator measurableSet_Icc]
  apply setIntegral_congr_set
  have h2 : ({a}ᶜ : Set ℝ) ∈ ae (volume : Measure ℝ) := by
    simp [mem_ae_iff]
  filter_upwards [h2] with x hx
  have hx' : x ≠ a := hx
  apply propext
  change (x ∈ Ioc 0 L ∩ Icc a b) ↔ (x ∈ Ioc a (min b L))
  simp only [mem_inter_iff, mem_Ioc, mem_Icc, le_min_iff]
  constructor
  · rintro ⟨⟨_, h⟩, h3, h4⟩
    exact ⟨lt_of_le_of_ne h3 (Ne.symm hx'), h4, h⟩
  · rintro ⟨h, h3, h4⟩
    exact ⟨⟨lt_of_le_of_lt ha h, h4⟩, h.le, h3⟩

theorem integral_lin (p q a b : ℝ) :
    (∫ x in a..b, p + q * (x - a)) = p * (b - a) + q * (b - a) ^ 2 / 2 := by
  have h : ∀ x ∈ uIcc a b,
      HasDerivAt (fun x => p * (x - a) + q * (x - a) ^ 2 / 2) (p + q * (x - a)) x := by
    intro x _
    have h0 : HasDerivAt (fun x : ℝ => x - a) 1 x := (hasDerivAt_id x).sub_const a
    have h1 := (h0.const_mul p).add (((h0.pow 2).const_mul q).div_const 2)
    refine h1.congr_deriv ?_
    simp
    ring
  rw [intervalIntegral.integral_eq_sub_of_hasDerivAt h]
  · ring
  · exact (by fun_prop : Continuous fun x : ℝ => p + q * (x - a)).intervalIntegrable a b

theorem integral_x_lin (p q a b : ℝ) :
    (∫ x in a..b, x * (p + q * (x - a))) =
      p * (b ^ 2 - a ^ 2) / 2 + q * ((b - a) ^ 3 / 3 + a * (b - a) ^ 2 / 2) := by
  have h : ∀ x ∈ uIcc a b,
      HasDerivAt (fun x => p * x ^ 2 / 2 + q * ((x - a) ^ 3 / 3 + a * (x - a) ^ 2 / 2))
        (x * (p + q * (x - a))) x := by
    intro x _
    have hx : HasDerivAt (fun x : ℝ => x) 1 x := hasDerivAt_id x
    have h0 : HasDerivAt (fun x : ℝ => x - a) 1 x := (hasDerivAt_id x).sub_const a
    have h1 := (((hx.pow 2).const_mul p).div_const 2).add
      ((((h0.pow 3).div_const 3).add (((h0.pow 2).const_mul a).div_const 2)).const_mul q)
    refine h1.congr_deriv ?_
    simp
    ring
  rw [intervalIntegral.integral_eq_sub_of_hasDerivAt h]
  · ring
  · exact (by fun_prop : Continuous fun x : ℝ => x * (p + q * (x - a))).intervalIntegrable a b

end integ

end PyCBA
