import Verif.Load.Lemmas

set_option linter.unusedSectionVars false

/-! Derivatives of Macaulay brackets and of the span diagrams (helper lemmas). -/

namespace PyCBA

open MeasureTheory Set Filter Topology

theorem mb_eventually_left {a x : ℝ} (h : x < a) :
    (fun y => mb (y - a)) =ᶠ[𝓝 x] fun _ => (0 : ℝ) := by
  filter_upwards [Iio_mem_nhds h] with y hy
  exact mb_of_nonpos (by simp only [mem_Iio] at hy; linarith)

theorem mb_eventually_right {a x : ℝ} (h : a < x) :
    (fun y => mb (y - a)) =ᶠ[𝓝 x] fun y => y - a := by
  filter_upwards [Ioi_mem_nhds h] with y hy
  exact mb_of_nonneg (by simp only [mem_Ioi] at hy; linarith)

/-- First-order bracket: derivative is the step, away from the kink. -/
theorem hasDerivAt_mb {a x : ℝ} (h : x ≠ a) (v : ℝ) :
    HasDerivAt (fun y => mb (y - a)) (hv (x - a) v) x := by
  rcases lt_or_gt_of_ne h with h | h
  · have : hv (x - a) v = 0 := by simp [hv, h]
    rw [this]
    exact (hasDerivAt_const x (0 : ℝ)).congr_of_eventuallyEq (mb_eventually_left h)
  · have : hv (x - a) v = 1 := by
      simp only [hv]
      rw [if_neg (by linarith), if_neg (by intro h'; linarith)]
    rw [this]
    exact ((hasDerivAt_id x).sub_const a).congr_of_eventuallyEq (mb_eventually_right h)

/-- Higher brackets are differentiable everywhere. -/
theorem hasDerivAt_mb_pow (a x : ℝ) (n : ℕ) :
    HasDerivAt (fun y => mb (y - a) ^ (n + 2)) ((n + 2) * mb (x - a) ^ (n + 1)) x := by
  have hp : ∀ x : ℝ, HasDerivAt (fun y : ℝ => (y - a) ^ (n + 2)) ((n + 2) * (x - a) ^ (n + 1)) x := by
    intro x
    have := ((hasDerivAt_id x).sub_const a).pow (n + 2)
    refine this.congr_deriv ?_
    simp
  rcases lt_trichotomy x a with h | h | h
  · have e : mb (x - a) = 0 := mb_of_nonpos (by linarith)
    rw [e]
    simp only [ne_eq, Nat.add_eq_zero_iff, one_ne_zero, and_false, not_false_eq_true, zero_pow,
      mul_zero]
    refine (hasDerivAt_const x (0 : ℝ)).congr_of_eventuallyEq ?_
    filter_upwards [mb_eventually_left h] with y hy
    simp [hy]
  · subst h
    have e : mb (x - x) = 0 := mb_of_nonpos (by simp)
    rw [e]
    simp only [ne_eq, Nat.add_eq_zero_iff, one_ne_zero, and_false, not_false_eq_true, zero_pow,
      mul_zero]
    have hl : HasDerivWithinAt (fun y => mb (y - x) ^ (n + 2)) 0 (Iic x) x := by
      refine (hasDerivWithinAt_const x (Iic x) (0 : ℝ)).congr ?_ ?_
      · intro y hy
        simp only [mem_Iic] at hy
        rw [mb_of_nonpos (by linarith)]
        simp
      · rw [e]
        simp
    have hr : HasDerivWithinAt (fun y => mb (y - x) ^ (n + 2)) 0 (Ici x) x := by
      have h1 := (hp x).hasDerivWithinAt (s := Ici x)
      simp only [sub_self, ne_eq, Nat.add_eq_zero_iff, one_ne_zero, and_false, not_false_eq_true,
        zero_pow, mul_zero] at h1
      refine h1.congr ?_ ?_
      · intro y hy
        simp only [mem_Ici] at hy
        rw [mb_of_nonneg (by linarith)]
      · rw [e]
        simp
    have := hl.union hr
    rw [Iic_union_Ici] at this
    exact hasDerivWithinAt_univ.mp this
  · rw [mb_of_nonneg (by linarith)]
    refine (hp x).congr_of_eventuallyEq ?_
    filter_upwards [mb_eventually_right h] with y hy
    simp [hy]

theorem hasDerivAt_mb2 (a x : ℝ) :
    HasDerivAt (fun y => mb (y - a) ^ 2) (2 * mb (x - a)) x := by
  simpa using hasDerivAt_mb_pow a x 0

theorem hasDerivAt_mb3 (a x : ℝ) :
    HasDerivAt (fun y => mb (y - a) ^ 3) (3 * mb (x - a) ^ 2) x := by
  refine (hasDerivAt_mb_pow a x 1).congr_deriv ?_
  norm_num

theorem hasDerivAt_mb4 (a x : ℝ) :
    HasDerivAt (fun y => mb (y - a) ^ 4) (4 * mb (x - a) ^ 3) x := by
  refine (hasDerivAt_mb_pow a x 2).congr_deriv ?_
  norm_num

theorem hasDerivAt_mb5 (a x : ℝ) :
    HasDerivAt (fun y => mb (y - a) ^ 5) (5 * mb (x - a) ^ 4) x := by
  refine (hasDerivAt_mb_pow a x 3).congr_deriv ?_
  norm_num

theorem hasDerivAt_p (x : ℝ) (n : ℕ) :
    HasDerivAt (fun y : ℝ => y ^ (n + 1)) ((n + 1) * x ^ n) x := by
  refine (hasDerivAt_pow (n + 1) x).congr_deriv ?_
  simp

theorem continuous_mb (a : ℝ) : Continuous fun x : ℝ => mb (x - a) := by
  unfold mb
  fun_prop

/-- A step is constant near every point other than its own. -/
theorem hasDerivAt_hv {a x : ℝ} (h : x ≠ a) (v : ℝ) :
    HasDerivAt (fun y => hv (y - a) v) 0 x := by
  rcases lt_or_gt_of_ne h with h | h
  · refine (hasDerivAt_const x (0 : ℝ)).congr_of_eventuallyEq ?_
    filter_upwards [Iio_mem_nhds h] with y hy
    simp only [mem_Iio] at hy
    simp [hv, hy]
  · refine (hasDerivAt_const x (1 : ℝ)).congr_of_eventuallyEq ?_
    filter_upwards [Ioi_mem_nhds h] with y hy
    simp only [mem_Ioi] at hy
    simp only [hv]
    rw [if_neg (by linarith), if_neg (by intro h'; linarith)]

end PyCBA
