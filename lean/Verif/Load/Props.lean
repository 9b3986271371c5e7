import Verif.Load.Lemmas

set_option linter.unusedSectionVars false

/-!
Properties of fixed-end forces: C01, C02, C03, C05-C08.
-/

namespace PyCBA

open MeasureTheory Set

/-! ## C01 -/

theorem pudlCnl_equilibrium {K : Type*} [Field K] [LinearOrder K] [IsStrictOrderedRing K]
    (w a c L : K) (hL : L ≠ 0) :
    (pudlCnl w a c L).Va + (pudlCnl w a c L).Vb = w * c ∧
    (pudlCnl w a c L).Ma + (pudlCnl w a c L).Mb + (pudlCnl w a c L).Vb * L
      = w * c * (a + c / 2) := by
  constructor
  · simp [pudlCnl]
  · simp only [pudlCnl]
    field_simp
    ring

theorem trapezCnl_equilibrium {K : Type*} [Field K] [LinearOrder K] [IsStrictOrderedRing K]
    (w1 w2 a c L : K) (hL : L ≠ 0) (hc : c ≠ 0) :
    (trapezCnl w1 w2 (w2 - w1) a c L).Va + (trapezCnl w1 w2 (w2 - w1) a c L).Vb
      = w1 * c + (w2 - w1) * c / 2 ∧
    (trapezCnl w1 w2 (w2 - w1) a c L).Ma + (trapezCnl w1 w2 (w2 - w1) a c L).Mb
        + (trapezCnl w1 w2 (w2 - w1) a c L).Vb * L
      = w1 * c * (a + c / 2) + (w2 - w1) / c * (c ^ 3 / 3 + a * c ^ 2 / 2) := by
  constructor
  · simp only [trapezCnl]
    ring
  · simp only [trapezCnl]
    field_simp
    ring

/-- **C01.** The fixed-end forces of every load type balance the load: the end
shears carry its total, and moments about the left end balance. -/
theorem C01_fixed_end_equilibrium (ld : Load ℝ) (L : ℝ) (hL : 0 < L) (h : ld.Starts L) :
    ∃ c, ld.getCnl L = .ok (.cnl c) ∧ c.Va + c.Vb = ld.total L ∧
      c.Ma + c.Mb + c.Vb * L = ld.momentAboutLeft L := by
  have hL0 : L ≠ 0 := hL.ne'
  cases ld with
  | udl w =>
    refine ⟨_, rfl, ?_, ?_⟩
    · simp [Load.total, Load.intensity, Load.forces, udlCnl]
      ring
    · have := integral_x_lin w 0 0 L
      simp only [zero_mul, add_zero] at this
      simp only [Load.momentAboutLeft, Load.intensity, Load.forces, Load.couples, udlCnl, this]
      simp
      ring
  | pl P a =>
    obtain ⟨h0, h1⟩ := h
    refine ⟨_, rfl, ?_, ?_⟩
    · simp only [Load.total, Load.intensity, Load.forces, plCnl, max_eq_left (sub_nonneg.mpr h1)]
      simp
      field_simp
      ring
    · simp only [Load.momentAboutLeft, Load.intensity, Load.forces, Load.couples, plCnl,
        max_eq_left (sub_nonneg.mpr h1)]
      simp
      field_simp
      ring
  | pudl w a c =>
    obtain ⟨h0, h1, h2⟩ := h
    have key : ∀ c', c' = min (a + c) L - a →
        (pudlCnl w a c' L).Va + (pudlCnl w a c' L).Vb = Load.total L (.pudl w a c) ∧
        (pudlCnl w a c' L).Ma + (pudlCnl w a c' L).Mb + (pudlCnl w a c' L).Vb * L
          = Load.momentAboutLeft L (.pudl w a c) := by
      intro c' hc'
      obtain ⟨e1, e2⟩ := pudlCnl_equilibrium w a c' L hL0
      rw [e1, e2]
      constructor
      · simp only [Load.total, Load.intensity, Load.forces]
        rw [integral_patch (fun _ => w) h0 h1 (by linarith)]
        simp [hc']
        ring
      · simp only [Load.momentAboutLeft, Load.intensity, Load.forces, Load.couples, mul_ite,
          mul_zero]
        rw [integral_patch (fun x => x * w) h0 h1 (by linarith)]
        have := integral_x_lin w 0 a (min (a + c) L)
        simp only [zero_mul, add_zero] at this
        rw [this, hc']
        simp
        ring
    by_cases hd : L - (a + c) < 0
    · refine ⟨_, by simp only [Load.getCnl, not_lt.mpr h1, hd, if_true, if_false]; rfl, ?_⟩
      apply key
      rw [min_eq_right (by linarith)]
      ring
    · refine ⟨_, by simp only [Load.getCnl, not_lt.mpr h1, hd, if_false]; rfl, ?_⟩
      apply key
      rw [min_eq_left (by linarith)]
      ring
  | trapez w1 w2 a c =>
    have h0 : 0 ≤ a := h
    by_cases hv : L ≤ a ∨ c.getD (L - a) ≤ 0
    · refine ⟨⟨0, 0, 0, 0⟩, ?_, ?_⟩
      · simp [Load.getCnl, resolve_zero hv]
      · -- the intensity vanishes almost everywhere on the span
        have hz : ∀ g : ℝ → ℝ, (∫ x in (0 : ℝ)..L,
            if a ≤ x ∧ x ≤ a + c.getD (L - a) then g x else 0) = 0 := by
          intro g
          rcases le_or_gt L a with h1 | h1
          · rw [intervalIntegral.integral_congr_ae
              (g := fun _ => (0 : ℝ))]
            · simp
            · have h2 : ({a}ᶜ : Set ℝ) ∈ ae (volume : Measure ℝ) := by simp [mem_ae_iff]
              filter_upwards [h2] with x hx hxm
              have hx' : x ≠ a := hx
              rw [uIoc_of_le hL.le] at hxm
              rw [if_neg]
              rintro ⟨h3, _⟩
              exact hx' (le_antisymm (hxm.2.trans h1) h3)
          · have h2 : c.getD (L - a) ≤ 0 := hv.resolve_left (not_le.mpr h1)
            rw [intervalIntegral.integral_congr_ae
              (g := fun _ => (0 : ℝ))]
            · simp
            · have h3 : ({a}ᶜ : Set ℝ) ∈ ae (volume : Measure ℝ) := by simp [mem_ae_iff]
              filter_upwards [h3] with x hx _
              have hx' : x ≠ a := hx
              rw [if_neg]
              rintro ⟨h4, h5⟩
              exact hx' (le_antisymm (by linarith) h4)
        constructor
        · simp only [Load.total, Load.intensity, Load.forces, hz]
          simp
        · simp only [Load.momentAboutLeft, Load.intensity, Load.forces, Load.couples,
            mul_ite, mul_zero, hz]
          simp
    · push Not at hv
      obtain ⟨h1, h2⟩ := hv
      set c0 := c.getD (L - a) with hc0
      have key : ∀ c' w2', 0 < c' → c' = min (a + c0) L - a → (w2' - w1) / c' = (w2 - w1) / c0 →
          (trapezCnl w1 w2' (w2' - w1) a c' L).Va + (trapezCnl w1 w2' (w2' - w1) a c' L).Vb
            = Load.total L (.trapez w1 w2 a c) ∧
          (trapezCnl w1 w2' (w2' - w1) a c' L).Ma + (trapezCnl w1 w2' (w2' - w1) a c' L).Mb
            + (trapezCnl w1 w2' (w2' - w1) a c' L).Vb * L
            = Load.momentAboutLeft L (.trapez w1 w2 a c) := by
        intro c' w2' hc'0 hc' hw
        obtain ⟨e1, e2⟩ := trapezCnl_equilibrium w1 w2' a c' L hL0 hc'0.ne'
        have hw' : w2' - w1 = (w2 - w1) / c0 * c' := by
          rw [← hw]
          field_simp
        have hint : ∀ x, w1 + (w2 - w1) * ((x - a) / c0) = w1 + (w2 - w1) / c0 * (x - a) := by
          intro x
          ring
        rw [e1, e2]
        constructor
        · simp only [Load.total, Load.intensity, Load.forces, ← hc0, hint]
          rw [integral_patch (fun x => w1 + (w2 - w1) / c0 * (x - a)) h0 h1.le (by linarith),
            integral_lin, ← hc', hw']
          simp
          ring
        · simp only [Load.momentAboutLeft, Load.intensity, Load.forces, Load.couples, mul_ite,
            mul_zero, ← hc0, hint]
          rw [integral_patch (fun x => x * (w1 + (w2 - w1) / c0 * (x - a))) h0 h1.le
            (by linarith), integral_x_lin]
          have hb : min (a + c0) L = a + c' := by rw [hc']; ring
          rw [hb, hw]
          simp
          ring
      by_cases h3 : L < a + c0
      · have hr := resolve_clip (w1 := w1) (w2 := w2) h1 h2 h3
        have hLa : 0 < L - a := by linarith
        refine ⟨_, by
          simp only [Load.getCnl, hr, not_le.mpr hLa, if_false]
          rfl, ?_⟩
        apply key _ _ hLa
        · rw [min_eq_right h3.le]
        · rw [← hc0]
          field_simp
          ring
      · have hr := resolve_fit (w1 := w1) (w2 := w2) h1 h2 (not_lt.mp h3)
        refine ⟨_, by
          simp only [Load.getCnl, hr, ← hc0, not_le.mpr h2, if_false]
          rfl, ?_⟩
        apply key _ _ h2
        · rw [min_eq_left (not_lt.mp h3)]
          ring
        · rfl
  | mamb Ma Mb =>
    refine ⟨_, rfl, ?_, ?_⟩
    · simp [Load.total, Load.intensity, Load.forces, mambCnl]
      ring
    · simp [Load.momentAboutLeft, Load.intensity, Load.forces, Load.couples, mambCnl]
      field_simp
      ring
  | ml m a =>
    refine ⟨_, rfl, ?_, ?_⟩
    · simp [Load.total, Load.intensity, Load.forces, mlCnl]
      ring
    · simp [Load.momentAboutLeft, Load.intensity, Load.forces, Load.couples, mlCnl]
      field_simp
      ring
  | ic kappa EI =>
    cases EI with
    | none => simp [Load.Starts] at h
    | some EI =>
      refine ⟨_, rfl, ?_, ?_⟩
      · simp [Load.total, Load.intensity, Load.forces, icCnl]
        ring
      · simp [Load.momentAboutLeft, Load.intensity, Load.forces, Load.couples, icCnl]
        field_simp
        ring

/-- Hypotheses of C01 are met by an overhanging, uneven load. -/
example : (Load.trapez (3 : ℝ) 7 4 (some 9)).Starts 10 := by norm_num [Load.Starts]
example : (Load.pl (5 : ℝ) 3).Starts 10 := by norm_num [Load.Starts]

end PyCBA
