import Verif.Stiffness.Timo
import Verif.Similar.MirrorLoads
import Verif.Section.Member
import Mathlib.Analysis.Calculus.MeanValue
import Mathlib.Analysis.SpecialFunctions.Integrals.Basic
import Mathlib.MeasureTheory.Integral.IntervalIntegral.FundThmCalculus

set_option linter.unusedSectionVars false
set_option linter.unusedSimpArgs false

/-!
C144: how accurate the numerical integrals are.  The code integrates with the composite Simpson
rule on 2001 points; the error is bounded for every integrand with a bounded fourth derivative,
and through it the error of the fixed-end moments of imposed curvatures of any degree.
-/

namespace PyCBA

open MeasureTheory Set

/-! ### Simpson's rule -/

/-- A function that vanishes at zero and whose derivative is at most `c tⁿ` is at most
`c tⁿ⁺¹ / (n + 1)`. -/
theorem growth {G g : ℝ → ℝ} {h c : ℝ} (n : ℕ) (hG : ContinuousOn G (Icc 0 h))
    (hd : ∀ t ∈ Ico 0 h, HasDerivAt G (g t) t) (h0 : G 0 = 0)
    (hb : ∀ t ∈ Ico 0 h, |g t| ≤ c * t ^ n) :
    ∀ t ∈ Icc 0 h, |G t| ≤ c * t ^ (n + 1) / (n + 1) := by
  intro t ht
  have := image_norm_le_of_norm_deriv_right_le_deriv_boundary (f := G) (f' := g) (a := 0) (b := h)
    (B := fun t => c * t ^ (n + 1) / (n + 1)) (B' := fun t => c * t ^ n) hG
    (fun x hx => (hd x hx).hasDerivWithinAt) (by simp [h0])
    (fun x => by
      refine (((hasDerivAt_pow (n + 1) x).const_mul c).div_const _).congr_deriv ?_
      have : (n : ℝ) + 1 ≠ 0 := by positivity
      push_cast
      field_simp)
    (fun x hx => by simpa using hb x hx) ht
  simpa using this

/-- The error of Simpson's rule on one pair of intervals. -/
theorem simpson_panel {f f1 f2 f3 f4 : ℝ → ℝ} {c h B : ℝ} (hh : 0 < h)
    (hf : ContinuousOn f (Icc (c - h) (c + h)))
    (h1 : ∀ x ∈ Ioo (c - h) (c + h), HasDerivAt f (f1 x) x)
    (h2 : ∀ x ∈ Ioo (c - h) (c + h), HasDerivAt f1 (f2 x) x)
    (h3 : ∀ x ∈ Ioo (c - h) (c + h), HasDerivAt f2 (f3 x) x)
    (h4 : ∀ x ∈ Ioo (c - h) (c + h), HasDerivAt f3 (f4 x) x)
    (hB : ∀ x ∈ Ioo (c - h) (c + h), |f4 x| ≤ B) :
    |h / 3 * (f (c - h) + 4 * f c + f (c + h)) - ∫ x in (c - h)..(c + h), f x| ≤ h ^ 5 / 90 * B := by
  have inP : ∀ t ∈ Ico 0 h, c + t ∈ Ioo (c - h) (c + h) := fun t ht =>
    ⟨by linarith [ht.1], by linarith [ht.2]⟩
  have inM : ∀ t ∈ Ico 0 h, c - t ∈ Ioo (c - h) (c + h) := fun t ht =>
    ⟨by linarith [ht.2], by linarith [ht.1]⟩
  have dP : ∀ {u u' : ℝ → ℝ}, (∀ x ∈ Ioo (c - h) (c + h), HasDerivAt u (u' x) x) →
      ∀ t ∈ Ico 0 h, HasDerivAt (fun t => u (c + t)) (u' (c + t)) t := fun hu t ht => by
    have := (hu _ (inP t ht)).comp t ((hasDerivAt_id t).const_add c)
    rw [mul_one] at this
    exact this
  have dM : ∀ {u u' : ℝ → ℝ}, (∀ x ∈ Ioo (c - h) (c + h), HasDerivAt u (u' x) x) →
      ∀ t ∈ Ico 0 h, HasDerivAt (fun t => u (c - t)) (-u' (c - t)) t := fun hu t ht => by
    have := (hu _ (inM t ht)).comp t ((hasDerivAt_id t).const_sub c)
    rw [mul_neg_one] at this
    exact this
  set F : ℝ → ℝ := fun x => ∫ s in (c - h)..x, f s with hF
  have hint : IntervalIntegrable f volume (c - h) (c + h) :=
    hf.intervalIntegrable_of_Icc (by linarith)
  have hFd : ∀ x ∈ Ioo (c - h) (c + h), HasDerivAt F (f x) x := fun x hx => by
    refine intervalIntegral.integral_hasDerivAt_right
      ((hf.mono (Icc_subset_Icc_right hx.2.le)).intervalIntegrable_of_Icc hx.1.le) ?_
      (hf.continuousAt (Icc_mem_nhds hx.1 hx.2))
    exact hf.mono Ioo_subset_Icc_self |>.stronglyMeasurableAtFilter isOpen_Ioo x hx
  have hFc : ContinuousOn F (Icc (c - h) (c + h)) := by
    have := intervalIntegral.continuousOn_primitive_interval (μ := volume) (f := f)
      (a := c - h) (b := c + h) (by
        rw [uIcc_of_le (by linarith)]; exact hf.integrableOn_Icc)
    rwa [uIcc_of_le (by linarith)] at this
  have hfP : ContinuousOn (fun t => f (c + t)) (Icc 0 h) :=
    hf.comp (by fun_prop) fun t ht => ⟨by linarith [ht.1], by linarith [ht.2]⟩
  have hfM : ContinuousOn (fun t => f (c - t)) (Icc 0 h) :=
    hf.comp (by fun_prop) fun t ht => ⟨by linarith [ht.2], by linarith [ht.1]⟩
  have hFP : ContinuousOn (fun t => F (c + t)) (Icc 0 h) :=
    hFc.comp (by fun_prop) fun t ht => ⟨by linarith [ht.1], by linarith [ht.2]⟩
  have hFM : ContinuousOn (fun t => F (c - t)) (Icc 0 h) :=
    hFc.comp (by fun_prop) fun t ht => ⟨by linarith [ht.2], by linarith [ht.1]⟩
  let E : ℝ → ℝ := fun t => t / 3 * (f (c - t) + 4 * f c + f (c + t)) - (F (c + t) - F (c - t))
  let E1 : ℝ → ℝ := fun t => 4 / 3 * f c - 2 / 3 * (f (c + t) + f (c - t))
    + t / 3 * (f1 (c + t) - f1 (c - t))
  let E2 : ℝ → ℝ := fun t => -(1 / 3) * (f1 (c + t) - f1 (c - t)) + t / 3 * (f2 (c + t) + f2 (c - t))
  let E3 : ℝ → ℝ := fun t => t / 3 * (f3 (c + t) - f3 (c - t))
  have dE : ∀ t ∈ Ico 0 h, HasDerivAt E (E1 t) t := fun t ht => by
    refine ((((hasDerivAt_id t).div_const 3).mul (((dM h1 t ht).add_const (4 * f c)).add
      (dP h1 t ht))).sub ((dP hFd t ht).sub (dM hFd t ht))).congr_deriv ?_
    simp only [E1, id, Pi.add_apply]
    ring
  have dE1 : ∀ t ∈ Ico 0 h, HasDerivAt E1 (E2 t) t := fun t ht => by
    refine (((((dP h1 t ht).add (dM h1 t ht)).const_mul (2 / 3)).const_sub (4 / 3 * f c)).add
      (((hasDerivAt_id t).div_const 3).mul ((dP h2 t ht).sub (dM h2 t ht)))).congr_deriv ?_
    simp only [E2, id, Pi.sub_apply]
    ring
  have dE2 : ∀ t ∈ Ico 0 h, HasDerivAt E2 (E3 t) t := fun t ht => by
    refine ((((dP h2 t ht).sub (dM h2 t ht)).const_mul (-(1 / 3))).add
      (((hasDerivAt_id t).div_const 3).mul ((dP h3 t ht).add (dM h3 t ht)))).congr_deriv ?_
    simp only [E3, id, Pi.add_apply]
    ring
  have b3 : ∀ t ∈ Ico 0 h, |E3 t| ≤ 2 / 3 * B * t ^ 2 := fun t ht => by
    have hs : Icc (c - t) (c + t) ⊆ Ioo (c - h) (c + h) := fun x hx =>
      ⟨by linarith [hx.1, ht.2], by linarith [hx.2, ht.2]⟩
    have := (convex_Icc (c - t) (c + t)).norm_image_sub_le_of_norm_hasDerivWithin_le (f := f3)
      (f' := f4) (C := B) (fun x hx => (h4 x (hs hx)).hasDerivWithinAt)
      (fun x hx => by simpa using hB x (hs hx)) (x := c - t) (y := c + t)
      ⟨le_rfl, by linarith [ht.1]⟩ ⟨by linarith [ht.1], le_rfl⟩
    have e : ‖c + t - (c - t)‖ = 2 * t := by
      rw [Real.norm_eq_abs, abs_of_nonneg (by linarith [ht.1])]; ring
    rw [e, Real.norm_eq_abs] at this
    simp only [E3, abs_mul]
    rw [abs_of_nonneg (by linarith [ht.1] : (0 : ℝ) ≤ t / 3)]
    nlinarith [ht.1]
  have hcont : ∀ {u u' : ℝ → ℝ}, (∀ t ∈ Ico 0 h, HasDerivAt u (u' t) t) → ∀ t ∈ Ico 0 h,
      ContinuousOn u (Icc 0 t) := fun hu t ht x hx =>
    (hu x ⟨hx.1, hx.2.trans_lt ht.2⟩).continuousAt.continuousWithinAt
  have b2 : ∀ t ∈ Ico 0 h, |E2 t| ≤ 2 / 9 * B * t ^ 3 := fun t ht => by
    have := growth 2 (hcont dE2 t ht) (fun x hx => dE2 x ⟨hx.1, hx.2.trans ht.2⟩) (by simp [E2])
      (fun x hx => b3 x ⟨hx.1, hx.2.trans ht.2⟩) t ⟨ht.1, le_rfl⟩
    refine this.trans (le_of_eq ?_)
    push_cast; ring
  have b1 : ∀ t ∈ Ico 0 h, |E1 t| ≤ 1 / 18 * B * t ^ 4 := fun t ht => by
    have := growth 3 (hcont dE1 t ht) (fun x hx => dE1 x ⟨hx.1, hx.2.trans ht.2⟩)
      (by simp only [E1, add_zero, sub_zero]; ring)
      (fun x hx => b2 x ⟨hx.1, hx.2.trans ht.2⟩) t ⟨ht.1, le_rfl⟩
    refine this.trans (le_of_eq ?_)
    push_cast; ring
  have b0 := growth 4 (G := E) (g := E1) (c := 1 / 18 * B) (h := h)
    (((continuousOn_id.div_const 3).mul ((hfM.add continuousOn_const).add hfP)).sub (hFP.sub hFM))
    dE (by simp [E]) b1 h ⟨hh.le, le_rfl⟩
  have e1 : F (c - h) = 0 := by simp [hF]
  have e2 : E h = h / 3 * (f (c - h) + 4 * f c + f (c + h)) - ∫ x in (c - h)..(c + h), f x := by
    simp only [E]
    rw [e1, sub_zero]
  rw [← e2]
  refine b0.trans (le_of_eq ?_)
  push_cast; ring

/-- **C144**: the composite Simpson rule on `2 m` intervals, as `scipy.integrate.simpson` uses it,
errs by at most `(b - a)⁵ B / (2880 m⁴)` for every integrand whose fourth derivative is at most
`B` in absolute value. -/
theorem C144_simpson (m : ℕ) (hm : 0 < m) (f f1 f2 f3 f4 : ℝ → ℝ) (a b B : ℝ) (hab : a < b)
    (hf : ContinuousOn f (Icc a b))
    (h1 : ∀ x ∈ Ioo a b, HasDerivAt f (f1 x) x) (h2 : ∀ x ∈ Ioo a b, HasDerivAt f1 (f2 x) x)
    (h3 : ∀ x ∈ Ioo a b, HasDerivAt f2 (f3 x) x) (h4 : ∀ x ∈ Ioo a b, HasDerivAt f3 (f4 x) x)
    (hB : ∀ x ∈ Ioo a b, |f4 x| ≤ B) :
    |simpson m f a b - ∫ x in a..b, f x| ≤ (b - a) ^ 5 / (2880 * (m : ℝ) ^ 4) * B := by
  have hm0 : (0 : ℝ) < m := by exact_mod_cast hm
  set h := (b - a) / (2 * m) with hh
  have hp : 0 < h := by rw [hh]; exact div_pos (by linarith) (by linarith)
  have hb : a + (2 * m : ℝ) * h = b := by rw [hh]; field_simp; ring
  have hsub : ∀ i < m, a ≤ a + (2 * i : ℝ) * h ∧ a + (2 * i + 2 : ℝ) * h ≤ b := fun i hi => by
    have hi' : (i : ℝ) + 1 ≤ m := by exact_mod_cast hi
    constructor
    · have : (0 : ℝ) ≤ 2 * i * h := by positivity
      linarith
    · rw [← hb]; nlinarith
  have hint : ∀ i < m, IntervalIntegrable f volume (a + (2 * i : ℝ) * h)
      (a + (2 * (i + 1 : ℕ) : ℝ) * h) := fun i hi => by
    obtain ⟨l, r⟩ := hsub i hi
    push_cast
    refine (hf.mono ?_).intervalIntegrable_of_Icc (by nlinarith)
    refine Icc_subset_Icc l ?_
    linarith [r, show (2 * ((i : ℝ) + 1)) * h = (2 * i + 2) * h by ring]
  have hsum := intervalIntegral.sum_integral_adjacent_intervals (f := f) (μ := volume)
    (a := fun i : ℕ => a + (2 * i : ℝ) * h) (n := m) hint
  simp only [Nat.cast_zero, mul_zero, zero_mul, add_zero, hb] at hsum
  have hS : simpson m f a b = ∑ i ∈ Finset.range m, h / 3 * (f (a + (2 * i : ℝ) * h)
      + 4 * f (a + (2 * i + 1 : ℝ) * h) + f (a + (2 * i + 2 : ℝ) * h)) := by
    have key : ∀ (n : ℕ) (u : ℕ → ℝ), ((List.range n).map u).sum = ∑ i ∈ Finset.range n, u i := by
      intro n u
      induction n with
      | zero => simp
      | succ n ih => rw [List.range_succ, List.map_append, List.sum_append, ih,
          Finset.sum_range_succ]; simp
    unfold simpson
    dsimp only
    rw [← hh, key]
    refine Finset.sum_congr rfl fun i _ => ?_
    push_cast
    rfl
  rw [hS, ← hsum, ← Finset.sum_sub_distrib]
  refine (Finset.abs_sum_le_sum_abs _ _).trans ?_
  have each : ∀ i ∈ Finset.range m, |h / 3 * (f (a + (2 * i : ℝ) * h)
      + 4 * f (a + (2 * i + 1 : ℝ) * h) + f (a + (2 * i + 2 : ℝ) * h))
      - ∫ x in (a + (2 * i : ℝ) * h)..(a + (2 * (i + 1 : ℕ) : ℝ) * h), f x| ≤ h ^ 5 / 90 * B := by
    intro i hi
    obtain ⟨l, r⟩ := hsub i (Finset.mem_range.1 hi)
    have ea : a + (2 * i : ℝ) * h = (a + (2 * i + 1 : ℝ) * h) - h := by ring
    have eb : a + (2 * i + 2 : ℝ) * h = (a + (2 * i + 1 : ℝ) * h) + h := by ring
    have eb' : a + (2 * (i + 1 : ℕ) : ℝ) * h = (a + (2 * i + 1 : ℝ) * h) + h := by push_cast; ring
    rw [ea] at l
    rw [eb] at r
    rw [ea, eb, eb']
    have hsubO : Ioo ((a + (2 * i + 1 : ℝ) * h) - h) ((a + (2 * i + 1 : ℝ) * h) + h) ⊆ Ioo a b :=
      Ioo_subset_Ioo l r
    exact simpson_panel hp (hf.mono (Icc_subset_Icc l r)) (fun x hx => h1 x (hsubO hx))
      (fun x hx => h2 x (hsubO hx)) (fun x hx => h3 x (hsubO hx)) (fun x hx => h4 x (hsubO hx))
      (fun x hx => hB x (hsubO hx))
  refine (Finset.sum_le_sum each).trans (le_of_eq ?_)
  rw [Finset.sum_const, Finset.card_range, nsmul_eq_mul, hh]
  field_simp
  ring

/-! ### Imposed curvatures of any degree -/

/-- The error of the code's rule on a span. -/
noncomputable def simpsonErr (L : ℝ) (f : ℝ → ℝ) : ℝ := simpson 1000 f 0 L - ∫ x in (0 : ℝ)..L, f x

theorem simpson_add_smul (m : ℕ) (f g : ℝ → ℝ) (c a b : ℝ) :
    simpson m (fun x => c * f x + g x) a b = c * simpson m f a b + simpson m g a b := by
  unfold simpson
  simp only [listRange_sum, Finset.mul_sum, ← Finset.sum_add_distrib]
  exact Finset.sum_congr rfl fun i _ => by ring

theorem simpsonErr_add_smul (L : ℝ) {f g : ℝ → ℝ} (hf : Continuous f) (hg : Continuous g) (c : ℝ) :
    simpsonErr L (fun x => c * f x + g x) = c * simpsonErr L f + simpsonErr L g := by
  unfold simpsonErr
  rw [simpson_add_smul, intervalIntegral.integral_add ((hf.const_mul c).intervalIntegrable _ _)
    (hg.intervalIntegrable _ _), intervalIntegral.integral_const_mul]
  ring

theorem simpsonErr_zero (L : ℝ) : simpsonErr L (fun _ => 0) = 0 := by
  have : ∀ m, simpson m (fun _ : ℝ => (0 : ℝ)) 0 L = 0 := fun m => by
    unfold simpson
    simp
  rw [simpsonErr, this]
  simp

theorem simpsonErr_pow {L : ℝ} (hL : 0 < L) (n : ℕ) :
    |simpsonErr L (fun x => x ^ n)|
      ≤ L ^ (n + 1) * (n * (n - 1 : ℕ) * (n - 2 : ℕ) * (n - 3 : ℕ)) / (2880 * 1000 ^ 4) := by
  have hd : ∀ (c : ℝ) (j : ℕ) (x : ℝ), HasDerivAt (fun x : ℝ => c * x ^ j) (c * j * x ^ (j - 1)) x :=
    fun c j x => ((hasDerivAt_pow j x).const_mul c).congr_deriv (by ring)
  have hB : ∀ x ∈ Ioo 0 L, |(n : ℝ) * (n - 1 : ℕ) * (n - 2 : ℕ) * (n - 3 : ℕ) * x ^ (n - 4)|
      ≤ (n : ℝ) * (n - 1 : ℕ) * (n - 2 : ℕ) * (n - 3 : ℕ) * L ^ (n - 4) := fun x hx => by
    rw [abs_of_nonneg (mul_nonneg (by positivity) (pow_nonneg hx.1.le _))]
    exact mul_le_mul_of_nonneg_left (pow_le_pow_left₀ hx.1.le hx.2.le _) (by positivity)
  have := C144_simpson 1000 (by norm_num) (fun x => x ^ n) (fun x => n * x ^ (n - 1))
    (fun x => n * (n - 1 : ℕ) * x ^ (n - 2)) (fun x => n * (n - 1 : ℕ) * (n - 2 : ℕ) * x ^ (n - 3))
    (fun x => n * (n - 1 : ℕ) * (n - 2 : ℕ) * (n - 3 : ℕ) * x ^ (n - 4)) 0 L _ hL
    (by fun_prop) (fun x _ => hasDerivAt_pow n x)
    (fun x _ => hd _ _ x) (fun x _ => hd _ _ x) (fun x _ => hd _ _ x) hB
  refine this.trans (le_of_eq ?_)
  rcases Nat.lt_or_ge n 4 with h | h
  · have h0 : (n : ℝ) * (n - 1 : ℕ) * (n - 2 : ℕ) * (n - 3 : ℕ) = 0 := by
      interval_cases n <;> norm_num
    rw [h0]; simp
  · have : L ^ (n + 1) = L ^ 5 * L ^ (n - 4) := by rw [← pow_add]; congr 1; omega
    rw [this]
    push_cast
    ring

/-- The bound of the error for the term `x ^ i` of an imposed curvature. -/
noncomputable def icTermErr (L : ℝ) (i : ℕ) : ℝ :=
  L ^ (i + 1) * ((i * (i - 1) ^ 2 * (i - 2) : ℕ) : ℝ) / (1440 * 1000 ^ 4)

theorem simpsonErr_term {L : ℝ} (hL : 0 < L) (i : ℕ) :
    |simpsonErr L (fun x => (1 - x / L) * x ^ i)| ≤ icTermErr L i ∧
    |simpsonErr L (fun x => -x / L * x ^ i)| ≤ icTermErr L i := by
  have p0 := simpsonErr_pow hL i
  have p1 := simpsonErr_pow hL (i + 1)
  have hz : ∀ n : ℕ, simpsonErr L (fun x : ℝ => x ^ n) = simpsonErr L (fun x => x ^ n) := fun _ => rfl
  have e0 : (fun x : ℝ => (1 - x / L) * x ^ i) = fun x => -(1 / L) * x ^ (i + 1) + x ^ i := by
    funext x; ring
  have e1 : (fun x : ℝ => -x / L * x ^ i) = fun x => -(1 / L) * x ^ (i + 1) + (0 : ℝ) * x := by
    funext x; ring
  have z : simpsonErr L (fun x : ℝ => (0 : ℝ) * x) = 0 := by
    simp only [zero_mul]
    exact simpsonErr_zero L
  rw [e0, e1, simpsonErr_add_smul L (by fun_prop) (by fun_prop),
    simpsonErr_add_smul L (f := fun x => x ^ (i + 1)) (g := fun x => (0 : ℝ) * x)
      (by fun_prop) (by fun_prop), z, add_zero]
  have hq : |(-(1 / L)) * simpsonErr L (fun x => x ^ (i + 1))|
      ≤ L ^ (i + 1) * ((i + 1 : ℝ) * i * (i - 1 : ℕ) * (i - 2 : ℕ)) / (2880 * 1000 ^ 4) := by
    rw [abs_mul, abs_neg, abs_of_pos (by positivity : (0 : ℝ) < 1 / L)]
    refine (mul_le_mul_of_nonneg_left p1 (by positivity)).trans (le_of_eq ?_)
    have a1 : i + 1 - 1 = i := by omega
    have a2 : i + 1 - 2 = i - 1 := by omega
    have a3 : i + 1 - 3 = i - 2 := by omega
    rw [a1, a2, a3, pow_succ L (i + 1)]
    push_cast
    field_simp
  have hsum : L ^ (i + 1) * ((i + 1 : ℝ) * i * (i - 1 : ℕ) * (i - 2 : ℕ)) / (2880 * 1000 ^ 4)
      + L ^ (i + 1) * (i * (i - 1 : ℕ) * (i - 2 : ℕ) * (i - 3 : ℕ)) / (2880 * 1000 ^ 4)
      = icTermErr L i := by
    unfold icTermErr
    rcases Nat.lt_or_ge i 3 with h | h
    · interval_cases i <;> norm_num
    · obtain ⟨j, rfl⟩ := Nat.exists_eq_add_of_le h
      have a1 : 3 + j - 1 = j + 2 := by omega
      have a2 : 3 + j - 2 = j + 1 := by omega
      have a3 : 3 + j - 3 = j := by omega
      rw [a1, a2, a3]
      push_cast
      ring
  have hnn : 0 ≤ L ^ (i + 1) * (i * (i - 1 : ℕ) * (i - 2 : ℕ) * (i - 3 : ℕ)) / (2880 * 1000 ^ 4) := by
    positivity
  constructor
  · refine (abs_add_le _ _).trans ?_
    linarith
  · linarith

theorem polyInc_continuous (k : List ℝ) : Continuous (polyInc k) := by
  induction k with
  | nil => exact continuous_const
  | cons a k ih => exact continuous_const.add (continuous_id.mul ih)

theorem simpsonErr_poly {L : ℝ} {e : ℕ → ℝ} (w : ℝ → ℝ) (hw : Continuous w)
    (he : ∀ i, |simpsonErr L (fun x => w x * x ^ i)| ≤ e i) (k : List ℝ) :
    ∀ j, |simpsonErr L (fun x => w x * (x ^ j * polyInc k x))|
      ≤ ((List.range k.length).map fun i => |k.getD i 0| * e (j + i)).sum := by
  induction k with
  | nil => 
    intro j
    simp only [polyInc, mul_zero, simpsonErr_zero]
    simp
  | cons a k ih =>
    intro j
    have e1 : (fun x : ℝ => w x * (x ^ j * polyInc (a :: k) x))
        = fun x => a * (w x * x ^ j) + w x * (x ^ (j + 1) * polyInc k x) := by
      funext x; simp only [polyInc]; ring
    have hc := polyInc_continuous k
    rw [e1, simpsonErr_add_smul L (by fun_prop) (by fun_prop), List.length_cons,
      List.range_succ_eq_map, List.map_cons, List.sum_cons, List.map_map]
    refine (abs_add_le _ _).trans (add_le_add ?_ ?_)
    · rw [abs_mul]
      exact mul_le_mul_of_nonneg_left (he j) (abs_nonneg _)
    · refine (ih (j + 1)).trans (le_of_eq ?_)
      congr 1
      refine List.map_congr_left fun i _ => ?_
      simp only [Function.comp, List.getD_cons_succ, Nat.succ_eq_add_one]
      congr 2
      omega

/-- Bound of the error of the end rotations of an imposed curvature `Σ kᵢ xⁱ` over a span. -/
noncomputable def icErr (k : List ℝ) (L : ℝ) : ℝ :=
  ((List.range k.length).map fun i => |k.getD i 0| *
    (L ^ (i + 1) * ((i * (i - 1) ^ 2 * (i - 2) : ℕ) : ℝ) / (1440 * 1000 ^ 4))).sum

theorem icRot_err {L : ℝ} (hL : 0 < L) (k : List ℝ) :
    |simpsonErr L (fun x => (1 - x / L) * polyInc k x)| ≤ icErr k L ∧
    |simpsonErr L (fun x => -x / L * polyInc k x)| ≤ icErr k L := by
  have h0 := simpsonErr_poly (L := L) (fun x => 1 - x / L) (by fun_prop)
    (fun i => (simpsonErr_term hL i).1) k 0
  have h1 := simpsonErr_poly (L := L) (fun x => -x / L) (by fun_prop)
    (fun i => (simpsonErr_term hL i).2) k 0
  simp only [pow_zero, one_mul, zero_add] at h0 h1
  exact ⟨h0, h1⟩

/-- `Ma` and `Mb` clamp a prismatic member with an imposed curvature: the total curvature has zero
area and zero first moment over the span, so both ends keep their rotation and deflection. -/
def ClampsCurvature (k : List ℝ) (EI L Ma Mb : ℝ) : Prop :=
  (∫ x in (0 : ℝ)..L, polyInc k x + ((Ma + Mb) / L * x - Ma) / EI) = 0 ∧
  (∫ x in (0 : ℝ)..L, x * (polyInc k x + ((Ma + Mb) / L * x - Ma) / EI)) = 0

theorem clampsCurvature_iff {k : List ℝ} {EI L Ma Mb : ℝ} (hL : 0 < L) (hE : 0 < EI) :
    ClampsCurvature k EI L Ma Mb ↔
      Ma = 2 * EI / L * (2 * (∫ x in (0 : ℝ)..L, (1 - x / L) * polyInc k x)
        + ∫ x in (0 : ℝ)..L, -x / L * polyInc k x) ∧
      Mb = 2 * EI / L * ((∫ x in (0 : ℝ)..L, (1 - x / L) * polyInc k x)
        + 2 * ∫ x in (0 : ℝ)..L, -x / L * polyInc k x) := by
  have hc := polyInc_continuous k
  have i1 : (∫ x in (0 : ℝ)..L, polyInc k x + ((Ma + Mb) / L * x - Ma) / EI)
      = (∫ x in (0 : ℝ)..L, polyInc k x) + ((Ma + Mb) / L * (L ^ 2 / 2) - Ma * L) / EI := by
    rw [intervalIntegral.integral_add (hc.intervalIntegrable _ _)
      ((by fun_prop : Continuous _).intervalIntegrable _ _)]
    congr 1
    rw [intervalIntegral.integral_div, intervalIntegral.integral_sub
      ((by fun_prop : Continuous _).intervalIntegrable _ _) (by simp),
      intervalIntegral.integral_const_mul, integral_id]
    simp
    ring
  have i2 : (∫ x in (0 : ℝ)..L, x * (polyInc k x + ((Ma + Mb) / L * x - Ma) / EI))
      = (∫ x in (0 : ℝ)..L, x * polyInc k x)
        + ((Ma + Mb) / L * (L ^ 3 / 3) - Ma * (L ^ 2 / 2)) / EI := by
    have : (fun x : ℝ => x * (polyInc k x + ((Ma + Mb) / L * x - Ma) / EI))
        = fun x => x * polyInc k x + ((Ma + Mb) / L * x ^ 2 - Ma * x) / EI := by
      funext x; ring
    rw [this, intervalIntegral.integral_add ((by fun_prop : Continuous _).intervalIntegrable _ _)
      ((by fun_prop : Continuous _).intervalIntegrable _ _)]
    congr 1
    rw [intervalIntegral.integral_div, intervalIntegral.integral_sub
      ((by fun_prop : Continuous _).intervalIntegrable _ _)
      ((by fun_prop : Continuous _).intervalIntegrable _ _),
      intervalIntegral.integral_const_mul, intervalIntegral.integral_const_mul, integral_id,
      integral_pow]
    norm_num
  have j1 : (∫ x in (0 : ℝ)..L, -x / L * polyInc k x) = -(1 / L) * ∫ x in (0 : ℝ)..L, x * polyInc k x := by
    rw [← intervalIntegral.integral_const_mul]
    congr 1; funext x; ring
  have j0 : (∫ x in (0 : ℝ)..L, (1 - x / L) * polyInc k x)
      = (∫ x in (0 : ℝ)..L, polyInc k x) - 1 / L * ∫ x in (0 : ℝ)..L, x * polyInc k x := by
    rw [← intervalIntegral.integral_const_mul, ← intervalIntegral.integral_sub
      (hc.intervalIntegrable _ _) ((by fun_prop : Continuous _).intervalIntegrable _ _)]
    congr 1; funext x; ring
  rw [ClampsCurvature, i1, i2, j0, j1]
  generalize (∫ x in (0 : ℝ)..L, polyInc k x) = A
  generalize (∫ x in (0 : ℝ)..L, x * polyInc k x) = S
  have hL0 := hL.ne'
  have hE0 := hE.ne'
  constructor
  · rintro ⟨h1, h2⟩
    field_simp at h1 h2 ⊢
    constructor
    · linear_combination (-2) * L * h1 + h2
    · linear_combination (-1) * L * h1 + h2
  · rintro ⟨h1, h2⟩
    subst h1 h2
    constructor <;> field_simp <;> ring

/-- **C144**: the end moments that clamp a member with an imposed curvature of any degree exist and
are unique, and the fixed-end moments of the code (2001-point Simpson rule) are within
`6 EI / L` times `Σ |kᵢ| Lⁱ⁺¹ i (i-1)² (i-2) / 1.44e15` of them; in particular exact up to degree
two. -/
theorem C144_fixed_end_moments (k : List ℝ) (EI L : ℝ) (hL : 0 < L) (hE : 0 < EI) :
    ∃ c, (Load.ic k (some EI)).getCnl L = .ok (.cnl c) ∧
      (∃ Ma Mb, ClampsCurvature k EI L Ma Mb) ∧
      ∀ Ma Mb, ClampsCurvature k EI L Ma Mb →
        |c.Ma - Ma| ≤ 6 * EI / L * icErr k L ∧ |c.Mb - Mb| ≤ 6 * EI / L * icErr k L ∧
        |c.Va - (Ma + Mb) / L| ≤ 12 * EI / L ^ 2 * icErr k L ∧
        |c.Vb + (Ma + Mb) / L| ≤ 12 * EI / L ^ 2 * icErr k L := by
  refine ⟨_, rfl, ⟨_, _, (clampsCurvature_iff hL hE).2 ⟨rfl, rfl⟩⟩, fun Ma Mb h => ?_⟩
  obtain ⟨rfl, rfl⟩ := (clampsCurvature_iff hL hE).1 h
  obtain ⟨e0, e1⟩ := icRot_err hL k
  simp only [simpsonErr] at e0 e1
  simp only [icCnl, icEndMoments]
  generalize (∫ x in (0 : ℝ)..L, (1 - x / L) * polyInc k x) = a0 at *
  generalize (∫ x in (0 : ℝ)..L, -x / L * polyInc k x) = a1 at *
  generalize simpson 1000 (fun x => (1 - x / L) * polyInc k x) 0 L = s0 at *
  generalize simpson 1000 (fun x => -x / L * polyInc k x) 0 L = s1 at *
  generalize icErr k L = ε at *
  obtain ⟨l0, u0⟩ := abs_le.1 e0
  obtain ⟨l1, u1⟩ := abs_le.1 e1
  have hq : (0 : ℝ) < 2 * EI / L := by positivity
  have hq2 : (0 : ℝ) < 6 * EI / L ^ 2 := by positivity
  have key : ∀ d c B : ℝ, 0 < c → |d| ≤ B → |c * d| ≤ c * B := fun d c B hc hd => by
    rw [abs_mul, abs_of_pos hc]; exact mul_le_mul_of_nonneg_left hd hc.le
  have d1 : |2 * (s0 - a0) + (s1 - a1)| ≤ 3 * ε := abs_le.2 ⟨by linarith, by linarith⟩
  have d2 : |(s0 - a0) + 2 * (s1 - a1)| ≤ 3 * ε := abs_le.2 ⟨by linarith, by linarith⟩
  have d3 : |(s0 - a0) + (s1 - a1)| ≤ 2 * ε := abs_le.2 ⟨by linarith, by linarith⟩
  have d4 : |-((s0 - a0) + (s1 - a1))| ≤ 2 * ε := by rw [abs_neg]; exact d3
  refine ⟨?_, ?_, ?_, ?_⟩
  · convert key _ _ _ hq d1 using 1
    · congr 1; ring
    · ring
  · convert key _ _ _ hq d2 using 1
    · congr 1; ring
    · ring
  · convert key _ _ _ hq2 d3 using 1
    · congr 1; field_simp; ring
    · ring
  · convert key _ _ _ hq2 d4 using 1
    · congr 1; field_simp; ring
    · ring

/-- For a cubic curvature `2 x³` on a span of 10 the bound is `1.7e-10`; the rule is not
exact there, so the bound cannot be zero. -/
example : icErr [0, 0, 0, 2] 10 = 2 * 10 ^ 4 * 12 / (1440 * 1000 ^ 4) ∧
    simpson 1 (fun x : ℝ => (1 - x / 10) * polyInc [0, 0, 0, 2] x) 0 10
      ≠ ∫ x in (0 : ℝ)..10, (1 - x / 10) * (2 * x ^ 3) := by
  constructor
  · norm_num [icErr, List.range_succ]
  · have : (fun x : ℝ => (1 - x / 10) * (2 * x ^ 3)) = fun x => 2 * x ^ 3 - 1 / 5 * x ^ 4 := by
      funext x; ring
    rw [this, intervalIntegral.integral_sub
      ((by fun_prop : Continuous _).intervalIntegrable _ _)
      ((by fun_prop : Continuous _).intervalIntegrable _ _), intervalIntegral.integral_const_mul,
      intervalIntegral.integral_const_mul, integral_pow, integral_pow]
    norm_num [simpson, polyInc, List.range_succ]

/-! ### Primary end rotations of members with a variable section -/

/-- `f` is continuous on `[a, b]` and inside has four derivatives, the last at most `B`. -/
def FourTimes (f : ℝ → ℝ) (a b B : ℝ) : Prop :=
  ContinuousOn f (Icc a b) ∧ ∃ f1 f2 f3 f4 : ℝ → ℝ,
    (∀ x ∈ Ioo a b, HasDerivAt f (f1 x) x) ∧ (∀ x ∈ Ioo a b, HasDerivAt f1 (f2 x) x) ∧
    (∀ x ∈ Ioo a b, HasDerivAt f2 (f3 x) x) ∧ (∀ x ∈ Ioo a b, HasDerivAt f3 (f4 x) x) ∧
    ∀ x ∈ Ioo a b, |f4 x| ≤ B

/-- One integration piece: the samples at its two ends are replaced by zero. -/
theorem piece_err {g φ w : ℝ → ℝ} {r : ℝ → ℝ} {a b B : ℝ} (hab : a < b)
    (hg : ∀ x ∈ Ioo a b, φ x = w x * (g x / r x)) (hφ : FourTimes φ a b B) :
    |simpson 1000 (fun x => w x * (endsZeroed a b g x / r x + 0)) a b
      - ∫ x in a..b, w x * (g x / r x)|
      ≤ (b - a) ^ 5 / (2880 * 1000 ^ 4) * B + (b - a) / 6000 * (|φ a| + |φ b|) := by
  obtain ⟨hc, f1, f2, f3, f4, h1, h2, h3, h4, hB⟩ := hφ
  have hpt : ∀ x ∈ Icc a b, w x * (endsZeroed a b g x / r x + 0) = endsZeroed a b φ x := by
    intro x hx
    unfold endsZeroed
    by_cases hx' : x = a ∨ x = b
    · rw [if_pos hx', if_pos hx']; simp
    · rw [if_neg hx', if_neg hx', add_zero]
      push Not at hx'
      exact (hg x ⟨lt_of_le_of_ne hx.1 hx'.1.symm, lt_of_le_of_ne hx.2 hx'.2⟩).symm
  have hcongr : ∀ (m : ℕ) (u v : ℝ → ℝ), 0 < m → (∀ x ∈ Icc a b, u x = v x) →
      simpson m u a b = simpson m v a b := by
    intro m u v hm huv
    unfold simpson
    dsimp only
    have hm0 : (0 : ℝ) < m := by exact_mod_cast hm
    set h := (b - a) / (2 * m) with hh
    have hp : 0 < h := by rw [hh]; exact div_pos (by linarith) (by linarith)
    have hbd : b = a + (2 * m : ℝ) * h := by rw [hh]; field_simp; ring
    have pt : ∀ j : ℕ, j ≤ 2 * m → u (a + (j : ℝ) * h) = v (a + (j : ℝ) * h) := by
      intro j hj
      have hj' : (j : ℝ) ≤ 2 * m := by exact_mod_cast hj
      refine huv _ ⟨by have : 0 ≤ (j : ℝ) * h := by positivity
                       linarith, ?_⟩
      rw [hbd]
      have := mul_le_mul_of_nonneg_right hj' hp.le
      linarith
    congr 1
    refine List.map_congr_left fun i hi => ?_
    have hi' := List.mem_range.1 hi
    rw [pt _ (by omega), pt _ (by omega), pt _ (by omega)]
  have hI : (∫ x in a..b, w x * (g x / r x)) = ∫ x in a..b, φ x := by
    refine intervalIntegral.integral_congr_ae ?_
    have hne : ∀ᵐ x ∂(volume : Measure ℝ), x ≠ b := by
      simp [ae_iff, measure_singleton]
    filter_upwards [hne] with x hx hx'
    rw [uIoc_of_le hab.le] at hx'
    exact (hg x ⟨hx'.1, lt_of_le_of_ne hx'.2 hx⟩).symm
  rw [hcongr 1000 _ _ (by norm_num) hpt, simpson_endsZeroed 1000 (by norm_num) φ a b hab.ne, hI]
  have key := C144_simpson 1000 (by norm_num) φ f1 f2 f3 f4 a b B hab hc h1 h2 h3 h4 hB
  have e : simpson 1000 φ a b - (b - a) / (2 * (1000 : ℕ)) / 3 * (φ a + φ b) - ∫ x in a..b, φ x
      = (simpson 1000 φ a b - ∫ x in a..b, φ x) - (b - a) / 6000 * (φ a + φ b) := by
    push_cast; ring
  rw [e]
  refine (abs_sub _ _).trans (add_le_add ?_ ?_)
  · push_cast at key; exact key
  · rw [abs_mul, abs_of_pos (by linarith : 0 < (b - a) / 6000)]
    exact mul_le_mul_of_nonneg_left (abs_add_le _ _) (by linarith)

/-- The pieces make up the span. -/
theorem pieces_integral (bps : List ℝ) (L : ℝ) (hL : 0 < L) (hb : ∀ x ∈ bps, 0 ≤ x ∧ x ≤ L)
    (f : ℝ → ℝ) (hf : ∀ p ∈ pieces bps L, IntervalIntegrable f volume p.1 p.2) :
    (∫ x in (0 : ℝ)..L, f x) = ((pieces bps L).map fun p => ∫ x in p.1..p.2, f x).sum := by
  obtain ⟨e, he, hs, hm⟩ := pieces_sorted bps L hL hb
  have key : ∀ l : List ℝ, l.Pairwise (· < ·) → ∀ a, (∀ x ∈ l, a < x) →
      (∀ p ∈ ((a :: l).zip l).filter fun p => p.1 < p.2, IntervalIntegrable f volume p.1 p.2) →
      IntervalIntegrable f volume a ((a :: l).getLast (by simp)) ∧
      ((((a :: l).zip l).filter fun p => p.1 < p.2).map fun p => ∫ x in p.1..p.2, f x).sum
        = ∫ x in a..((a :: l).getLast (by simp)), f x := by
    intro l
    induction l with
    | nil => intro _ a _ _; simp
    | cons b l ih =>
      intro hp a ha hi
      obtain ⟨h1, h2⟩ := List.pairwise_cons.1 hp
      have hz : ((a :: b :: l).zip (b :: l)).filter (fun p => p.1 < p.2)
          = (a, b) :: ((b :: l).zip l).filter (fun p => p.1 < p.2) := by
        rw [List.zip_cons_cons, List.filter_cons_of_pos (by simpa using ha b List.mem_cons_self)]
      rw [hz] at hi ⊢
      obtain ⟨i1, i2⟩ := ih h2 b h1 fun p hp => hi p (List.mem_cons_of_mem _ hp)
      have i0 := hi (a, b) List.mem_cons_self
      have hl : (a :: b :: l).getLast (by simp) = (b :: l).getLast (by simp) :=
        List.getLast_cons (by simp)
      rw [hl, List.map_cons, List.sum_cons, i2]
      exact ⟨i0.trans i1, intervalIntegral.integral_add_adjacent_intervals i0 i1⟩
  have hin : ∀ x ∈ e, 0 ≤ x ∧ x ≤ L := by
    intro x hx
    rcases (hm x).1 hx with hx | rfl | rfl
    · exact hb x hx
    · exact ⟨le_rfl, hL.le⟩
    · exact ⟨hL.le, le_rfl⟩
  have h0 : (0 : ℝ) ∈ e := (hm 0).2 (by simp)
  have hLe : L ∈ e := (hm L).2 (by simp)
  rw [he]
  cases e with
  | nil => simp at h0
  | cons a l =>
    obtain ⟨s1, s2⟩ := List.pairwise_cons.1 hs
    have ha : a = 0 := by
      rcases List.mem_cons.1 h0 with h | h
      · exact h.symm
      · exact absurd (s1 0 h) (not_lt.2 (hin a List.mem_cons_self).1)
    have hlast : (a :: l).getLast (by simp) = L := by
      have hle : L ≤ (a :: l).getLast (by simp) := by
        obtain ⟨j, hj, hjL⟩ := List.getElem_of_mem hLe
        rw [List.getLast_eq_getElem, ← hjL]
        rcases Nat.lt_or_ge j ((a :: l).length - 1) with h | h
        · exact (List.pairwise_iff_getElem.1 hs _ _ hj (by simp) h).le
        · have : j = (a :: l).length - 1 := by omega
          simp only [this, le_refl]
      exact le_antisymm (hin _ (List.getLast_mem _)).2 hle
    rw [he] at hf
    rw [List.tail_cons] at hf ⊢
    obtain ⟨_, h2⟩ := key l s2 a s1 hf
    rw [h2, hlast, ha]

/-- The curvature of a load on a section is given on every piece by a function that has four
derivatives there once weighted by the moment of a unit couple at either end. -/
structure SmoothCurvature (ld : Load ℝ) (s : SecData ℝ) (L B : ℝ) (φ : ℝ × ℝ → ℝ → ℝ) : Prop where
  agree : ∀ p ∈ pieces s.bps L, ∀ x ∈ Ioo p.1 p.2, φ p x = ld.ssM L x / s.eval x
  left : ∀ p ∈ pieces s.bps L, FourTimes (fun x => (1 - x / L) * φ p x) p.1 p.2 B
  right : ∀ p ∈ pieces s.bps L, FourTimes (fun x => -x / L * φ p x) p.1 p.2 B

/-- **C144**: the primary end rotations of a load on a member with a variable section err, against
the exact integrals of `M / EI` times the unit moment diagrams, by at most the Simpson error of
every piece plus `1 / 6000` of the piece length times the curvature at its ends (whose samples the
code overwrites by zero). -/
theorem C144_primary_rotations (ld : Load ℝ) (hm : ld.IsMechanical) (s : SecData ℝ) (L B : ℝ)
    (hL : 0 < L) (hb : ∀ x ∈ s.bps, 0 ≤ x ∧ x ≤ L) (φ : ℝ × ℝ → ℝ → ℝ)
    (hφ : SmoothCurvature ld s L B φ) :
    |(theta0 ld (.section s) none L).1 - ∫ x in (0 : ℝ)..L, (1 - x / L) * (ld.ssM L x / s.eval x)|
      ≤ ((pieces s.bps L).map fun p => (p.2 - p.1) ^ 5 / (2880 * 1000 ^ 4) * B
          + (p.2 - p.1) / 6000 * (|(1 - p.1 / L) * φ p p.1| + |(1 - p.2 / L) * φ p p.2|)).sum ∧
    |(theta0 ld (.section s) none L).2 - ∫ x in (0 : ℝ)..L, -x / L * (ld.ssM L x / s.eval x)|
      ≤ ((pieces s.bps L).map fun p => (p.2 - p.1) ^ 5 / (2880 * 1000 ^ 4) * B
          + (p.2 - p.1) / 6000 * (|-p.1 / L * φ p p.1| + |-p.2 / L * φ p p.2|)).sum := by
  have hk : ∀ x, ld.kappaImp x = 0 := kappaImp_mech ld hm
  have hin := pieces_inside s.bps L hL hb
  have main : ∀ w : ℝ → ℝ, (∀ p ∈ pieces s.bps L, FourTimes (fun x => w x * φ p x) p.1 p.2 B) →
      |((pieces s.bps L).map fun p => simpson 1000 (fun x => w x *
          (endsZeroed p.1 p.2 (ld.ssM L) x / s.eval x + 0)) p.1 p.2).sum
        - ∫ x in (0 : ℝ)..L, w x * (ld.ssM L x / s.eval x)|
      ≤ ((pieces s.bps L).map fun p => (p.2 - p.1) ^ 5 / (2880 * 1000 ^ 4) * B
          + (p.2 - p.1) / 6000 * (|w p.1 * φ p p.1| + |w p.2 * φ p p.2|)).sum := by
    intro w hw
    set f : ℝ → ℝ := fun x => w x * (ld.ssM L x / s.eval x) with hf
    have hii : ∀ p ∈ pieces s.bps L, IntervalIntegrable f volume p.1 p.2 := by
      intro p hp
      have hlt := (hin p hp).1
      have h1 : IntervalIntegrable (fun x => w x * φ p x) volume p.1 p.2 :=
        (hw p hp).1.intervalIntegrable_of_Icc hlt.le
      refine h1.congr_ae ?_
      rw [uIoc_of_le hlt.le, Filter.EventuallyEq, ae_restrict_iff' measurableSet_Ioc]
      have hne : ∀ᵐ x ∂(volume : Measure ℝ), x ≠ p.2 := by
        simp [ae_iff, measure_singleton]
      filter_upwards [hne] with x hx hx'
      rw [hf, hφ.agree p hp x ⟨hx'.1, lt_of_le_of_ne hx'.2 hx⟩]
    have hsum : (∫ x in (0 : ℝ)..L, f x)
        = ((pieces s.bps L).map fun p => ∫ x in p.1..p.2, f x).sum :=
      pieces_integral s.bps L hL hb f hii
    rw [hsum]
    have hl : ∀ l : List (ℝ × ℝ), (∀ p ∈ l, p ∈ pieces s.bps L) →
        |(l.map fun p => simpson 1000 (fun x => w x *
          (endsZeroed p.1 p.2 (ld.ssM L) x / s.eval x + 0)) p.1 p.2).sum
          - (l.map fun p => ∫ x in p.1..p.2, f x).sum|
        ≤ (l.map fun p => (p.2 - p.1) ^ 5 / (2880 * 1000 ^ 4) * B
          + (p.2 - p.1) / 6000 * (|w p.1 * φ p p.1| + |w p.2 * φ p p.2|)).sum := by
      intro l
      induction l with
      | nil => intro _; simp
      | cons p l ih =>
        intro hp
        have h1 := ih fun q hq => hp q (List.mem_cons_of_mem _ hq)
        have h2 := piece_err (g := ld.ssM L) (φ := fun x => w x * φ p x) (w := w) (r := s.eval)
          (hin p (hp p List.mem_cons_self)).1
          (fun x hx => by rw [hφ.agree p (hp p List.mem_cons_self) x hx])
          (hw p (hp p List.mem_cons_self))
        simp only [List.map_cons, List.sum_cons]
        rw [add_sub_add_comm]
        exact (abs_add_le _ _).trans (add_le_add h2 h1)
    exact hl _ fun _ h => h
  have e : theta0 ld (.section s) none L
      = (((pieces s.bps L).map fun p => simpson 1000 (fun x => (1 - x / L) *
          (endsZeroed p.1 p.2 (ld.ssM L) x / s.eval x + 0)) p.1 p.2).sum,
        ((pieces s.bps L).map fun p => simpson 1000 (fun x => -x / L *
          (endsZeroed p.1 p.2 (ld.ssM L) x / s.eval x + 0)) p.1 p.2).sum) := by
    simp only [theta0, Rigidity.bps, Rigidity.eval, hk, List.append_nil, add_zero]
  rw [e]
  exact ⟨main _ hφ.left, main _ hφ.right⟩

/-! ### A tapered member -/

theorem FourTimes.congr {f g : ℝ → ℝ} {a b B : ℝ} (h : FourTimes g a b B)
    (he : ∀ x ∈ Icc a b, f x = g x) : FourTimes f a b B := by
  obtain ⟨hc, f1, f2, f3, f4, h1, h⟩ := h
  refine ⟨hc.congr he, f1, f2, f3, f4, fun x hx => ?_, h⟩
  refine (h1 x hx).congr_of_eventuallyEq ?_
  filter_upwards [isOpen_Ioo.mem_nhds hx] with y hy using he y (Ioo_subset_Icc_self hy)

theorem fourTimes_hyperbola (c0 c1 d : ℝ) (hd : 0 ≤ d) :
    FourTimes (fun x => x ^ 2 + c1 * x + c0 - d * (1 / (1 + x))) 0 1 (24 * d) := by
  have hi : ∀ (n : ℕ) (x : ℝ), x ∈ Ioo (0 : ℝ) 1 →
      HasDerivAt (fun x : ℝ => 1 / (1 + x) ^ (n + 1)) (-(n + 1) * (1 / (1 + x) ^ (n + 2))) x := by
    intro n x hx
    have hx0 : 1 + x ≠ 0 := by linarith [hx.1]
    have h1 : HasDerivAt (fun x : ℝ => (1 + x) ^ (n + 1)) (((n + 1 : ℕ) : ℝ) * (1 + x) ^ n * 1) x := by
      have := ((hasDerivAt_id x).const_add 1).pow (n + 1)
      simp only [Nat.add_sub_cancel] at this
      exact this
    have h2 := h1.inv (pow_ne_zero _ hx0)
    have e : (fun x : ℝ => 1 / (1 + x) ^ (n + 1)) = (fun x : ℝ => (1 + x) ^ (n + 1))⁻¹ := by
      funext y; simp
    rw [e]
    refine h2.congr_deriv ?_
    push_cast
    field_simp
    ring
  have h0 : ∀ x ∈ Ioo (0 : ℝ) 1, HasDerivAt (fun x : ℝ => 1 / (1 + x)) (-(1 / (1 + x) ^ 2)) x :=
    fun x hx => by simpa using hi 0 x hx
  refine ⟨?_, fun x => 2 * x + c1 + d * (1 / (1 + x) ^ 2), fun x => 2 - d * 2 * (1 / (1 + x) ^ 3),
    fun x => d * 6 * (1 / (1 + x) ^ 4), fun x => -(d * 24 * (1 / (1 + x) ^ 5)), fun x hx => ?_,
    fun x hx => ?_, fun x hx => ?_, fun x hx => ?_, fun x hx => ?_⟩
  · refine ContinuousOn.sub (by fun_prop) (continuousOn_const.mul ?_)
    exact continuousOn_const.div (by fun_prop) fun x hx => by linarith [hx.1]
  · refine ((((hasDerivAt_pow 2 x).add ((hasDerivAt_id x).const_mul c1)).add_const c0).sub
      ((h0 x hx).const_mul d)).congr_deriv ?_
    norm_num
  · refine ((((hasDerivAt_id x).const_mul 2).add_const c1).add ((hi 1 x hx).const_mul d)).congr_deriv ?_
    norm_num
    ring
  · refine (((hi 2 x hx).const_mul (d * 2)).const_sub 2).congr_deriv ?_
    norm_num
    ring
  · refine ((hi 3 x hx).const_mul (d * 6)).congr_deriv ?_
    norm_num
    ring
  · rw [abs_neg, abs_of_nonneg (by have := hx.1; positivity)]
    have : 1 / (1 + x) ^ 5 ≤ 1 := by
      rw [div_le_one (by have := hx.1; positivity)]
      exact one_le_pow₀ (by linarith [hx.1])
    nlinarith

/-- A linear taper `EI = 1 + x` on a unit span under a uniform load: the hypotheses of
`C144_primary_rotations` hold, and the bound is `3.4e-14`. -/
example : ∃ φ, SmoothCurvature (.udl 2) ⟨[], fun x => 1 + x, [0, 1]⟩ 1 96 φ ∧
    |(theta0 (.udl 2) (.section ⟨[], fun x => 1 + x, [0, 1]⟩) none 1).1
      - ∫ x in (0 : ℝ)..1, (1 - x / 1) * ((Load.udl 2).ssM 1 x / (1 + x))| ≤ 96 / (2880 * 1000 ^ 4) := by
  have hp : pieces ([0, 1] : List ℝ) 1 = [(0, 1)] :=
    pieces_one _ 1 one_pos fun x hx => by simpa using hx
  have hM : ∀ x : ℝ, (Load.udl 2).ssM 1 x = x * (1 - x) := fun x => by
    have : (Load.udl (2 : ℝ)).ssM 1 x = 2 * 1 / 2 * x - 2 / 2 * x ^ 2 := rfl
    rw [this]; ring
  have hφ : SmoothCurvature (.udl 2) ⟨[], fun x => 1 + x, [0, 1]⟩ 1 96
      (fun _ x => x * (1 - x) / (1 + x)) := by
    constructor
    · intro p _ x _
      simp only [hM]
    · intro p hp'
      simp only [hp, List.mem_singleton] at hp'
      subst hp'
      have := (fourTimes_hyperbola 4 (-3) 4 (by norm_num)).congr
        (f := fun x => (1 - x / 1) * (x * (1 - x) / (1 + x))) fun x hx => by
          have : 1 + x ≠ 0 := by linarith [hx.1]
          field_simp
          ring
      norm_num at this ⊢
      exact this
    · intro p hp'
      simp only [hp, List.mem_singleton] at hp'
      subst hp'
      obtain ⟨h0, f1, f2, f3, f4, a1, a2, a3, a4, a5⟩ :=
        (fourTimes_hyperbola 2 (-2) 2 (by norm_num)).congr
        (f := fun x => -x / 1 * (x * (1 - x) / (1 + x))) fun x hx => by
          have : 1 + x ≠ 0 := by linarith [hx.1]
          field_simp
          ring
      exact ⟨h0, f1, f2, f3, f4, a1, a2, a3, a4, fun x hx => (a5 x hx).trans (by norm_num)⟩
  refine ⟨_, hφ, ?_⟩
  have h := (C144_primary_rotations (.udl 2) trivial ⟨[], fun x => 1 + x, [0, 1]⟩ 1 96 one_pos
    (by intro x hx; simp at hx; rcases hx with rfl | rfl <;> norm_num) _ hφ).1
  refine h.trans (le_of_eq ?_)
  simp only [hp]
  norm_num

end PyCBA
