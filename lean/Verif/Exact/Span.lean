import Verif.Exact.Spec
import Verif.Load.DiagramProps
import Verif.Results.Props
import Verif.Split.Transfer

set_option linter.unusedSectionVars false
set_option linter.unusedSimpArgs false

/-!
One span of the continuous beam problem: the diagrams of the code are free-body cuts, and
the stiffness equation with the fixed-end forces is equivalent to the elastic line.
-/

namespace PyCBA

open MeasureTheory Set Matrix

/-! ### The diagrams are free-body cuts -/

theorem intensity_eq_indicator (ld : Load ℝ) (L : ℝ) :
    ∃ (g : ℝ → ℝ) (p q : ℝ), Continuous g ∧
      ((∀ x, ld.intensity L x = g x) ∨ ld.intensity L = (Icc p q).indicator g) := by
  cases ld with
  | pudl w a c =>
    refine ⟨fun _ => w, a, a + c, continuous_const, .inr ?_⟩
    ext x
    simp only [Load.intensity, indicator, mem_Icc]
  | trapez w1 w2 a c =>
    refine ⟨fun x => w1 + (w2 - w1) * ((x - a) / c.getD (L - a)), a, a + c.getD (L - a),
      by fun_prop, .inr ?_⟩
    ext x
    simp only [Load.intensity, indicator, mem_Icc]
  | udl w => exact ⟨fun _ => w, 0, 0, continuous_const, .inl fun _ => rfl⟩
  | pl P a => exact ⟨fun _ => 0, 0, 0, continuous_const, .inl fun _ => rfl⟩
  | mamb A B => exact ⟨fun _ => 0, 0, 0, continuous_const, .inl fun _ => rfl⟩
  | ml m a => exact ⟨fun _ => 0, 0, 0, continuous_const, .inl fun _ => rfl⟩
  | ic k e => exact ⟨fun _ => 0, 0, 0, continuous_const, .inl fun _ => rfl⟩

theorem intensity_integrable (ld : Load ℝ) (L : ℝ) (f : ℝ → ℝ) (hf : Continuous f) (s t : ℝ) :
    IntervalIntegrable (fun x => f x * ld.intensity L x) volume s t := by
  obtain ⟨g, p, q, hg, h | h⟩ := intensity_eq_indicator ld L
  · simp only [h]
    exact (hf.mul hg).intervalIntegrable s t
  · rw [h]
    have h1 : (fun x => f x * (Icc p q).indicator g x) = (Icc p q).indicator fun x => f x * g x := by
      ext x
      by_cases hx : x ∈ Icc p q <;> simp [hx]
    rw [h1, intervalIntegrable_iff]
    exact ((intervalIntegrable_iff.1 ((hf.mul hg).intervalIntegrable s t))).indicator
      measurableSet_Icc

theorem ss_V_continuous (ld : Load ℝ) (L : ℝ) (hL : 0 < L) (hd : ld.forces = []) (hm : ld.IsMechanical) :
    Continuous fun x => (ld.ss L x).V := by
  have ht : ∀ w1 w2 a c : ℝ, Continuous fun x => (trapezStn w1 w2 (w2 - w1) a c L x).V := by
    intro w1 w2 a c
    have := continuous_mb a
    have := continuous_mb (a + c)
    simp only [trapezStn]
    fun_prop
  cases ld with
  | udl w => simp only [Load.ss, Load.stn, udlStn]; fun_prop
  | pl P a => simp [Load.forces] at hd
  | pudl w a c =>
    simp only [Load.ss, Load.stn, pudlStn_eq _ _ _ _ _ hL]
    exact ht w w a c
  | trapez w1 w2 a c =>
    rcases trapez_cases w1 w2 a c L with ⟨_, e, _⟩ | ⟨w2', c', _, _, _, _, _, _, e, _⟩
    · simp only [e]; exact continuous_const
    · simp only [e]; exact ht w1 w2' a c'
  | mamb A B => simp only [Load.ss, Load.stn, mambStn]; exact continuous_const
  | ml m a => simp only [Load.ss, Load.stn, mlStn]; exact continuous_const
  | ic k e => exact hm.elim

/-- The diagrams of a load on its simply supported span are free-body cuts. -/
theorem Load.cut (ld : Load ℝ) (L : ℝ) (hL : 0 < L) (h : ld.OnSpan L) (hm : ld.IsMechanical)
    (hn : ∀ A B, ld ≠ .mamb A B) (x : ℝ) (hx : x ∈ Icc 0 L) :
    (ld.ss L x).V = (ld.ss L 0).V - ld.forceLeft L x ∧
    ((∀ p ∈ ld.couplesAt, p.2 ≠ x) →
      (ld.ss L x).M = (ld.ss L 0).V * x - ld.momentLeft L x) := by
  by_cases hpt : ld.forces = [] ∧ ld.couplesAt = []
  · obtain ⟨hf, hc⟩ := hpt
    have hV := ss_V_continuous ld L hL hf hm
    have hact : ld.pointActions = ∅ := by
      cases ld <;> simp [Load.forces, Load.couplesAt, Load.pointActions] at hf hc ⊢
    obtain ⟨_, dM, dV, em⟩ := C09_shear_moment_diagrams ld L hL h hm
    have e0 : (ld.ss L 0).M = 0 := by
      have := (em (by cases ld <;> simp [Load.EndCouple, Load.couplesAt] at hc ⊢)).1
      rw [this]
      cases ld <;> simp [Load.endMoments]
      exact absurd rfl (hn _ _)
    have hM : Continuous fun y => (ld.ss L y).M :=
      continuous_iff_continuousAt.mpr fun y => (dM y (by simp [hact])).continuousAt
    have hcount : (ld.patchEnds L).Countable := by
      cases ld <;> simp [Load.patchEnds]
    have i1 := integral_eq_of_hasDerivAt_off_countable_of_le (fun s => (ld.ss L s).V)
      (fun s => -(ld.intensity L s)) hx.1 hcount hV.continuousOn
      (fun s hs => dV s ⟨hs.1.1, hs.1.2.trans_le hx.2⟩ (by simp [hact]) hs.2)
      (by simpa using (intensity_integrable ld L (fun _ => -1) continuous_const 0 x))
    have i2 := integral_eq_of_hasDerivAt_off_countable_of_le
      (fun s => (ld.ss L s).M + (x - s) * (ld.ss L s).V)
      (fun s => (x - s) * -(ld.intensity L s)) hx.1 hcount
      ((hM.add ((continuous_const.sub continuous_id).mul hV)).continuousOn)
      (fun s hs => by
        have h1 := dM s (by simp [hact])
        have h2 := dV s ⟨hs.1.1, hs.1.2.trans_le hx.2⟩ (by simp [hact]) hs.2
        have h3 := ((hasDerivAt_const s x).sub (hasDerivAt_id s))
        refine (h1.add (h3.mul h2)).congr_deriv ?_
        simp
        )
      (by
        have := intensity_integrable ld L (fun s => -(x - s)) (by fun_prop) 0 x
        refine this.congr ?_
        intro s _
        simp only
        ring)
    simp only [mul_neg, intervalIntegral.integral_neg] at i1 i2
    constructor
    · simp only [Load.forceLeft, hf, List.filter_nil, List.map_nil, List.sum_nil, add_zero]
      linarith
    · intro _
      simp only [Load.momentLeft, hf, hc, List.filter_nil, List.map_nil, List.sum_nil, add_zero]
      rw [e0] at i2
      linarith
  · cases ld with
    | pl P a =>
      have hb : max (L - a) 0 = L - a := max_eq_left (by have := h.2; linarith)
      simp only [Load.ss, Load.stn, plStn, Load.forceLeft, Load.momentLeft, Load.intensity,
        Load.forces, Load.couplesAt, mul_zero, intervalIntegral.integral_zero, zero_add,
        List.filter_nil, List.map_nil, List.sum_nil, add_zero, hb]
      have h0 : hv (0 - a) 0 = (0 : ℝ) := by
        simp only [hv]
        split_ifs <;> first | rfl | (exfalso; have := h.1; rcases lt_or_eq_of_le this with q | q <;> simp_all)
      rcases lt_or_ge a x with hax | hax
      · rw [h0, hv_pos' (by linarith), mb_of_nonneg (by linarith)]
        simp [hax]
      · have : hv (x - a) 0 = (0 : ℝ) := by
          simp only [hv]
          split_ifs <;> first | rfl | (exfalso; simp only [not_lt] at *; exact absurd (le_antisymm (by linarith) ‹0 ≤ x - a›) ‹_›)
        rw [h0, this, mb_of_nonpos (by linarith)]
        simp [not_lt.mpr hax]
    | ml m a =>
      simp only [Load.ss, Load.stn, mlStn, Load.forceLeft, Load.momentLeft, Load.intensity,
        Load.forces, Load.couplesAt, mul_zero, intervalIntegral.integral_zero, zero_add,
        List.filter_nil, List.map_nil, List.sum_nil, add_zero, sub_zero, List.mem_singleton,
        forall_eq]
      refine ⟨trivial, fun hne => ?_⟩
      rcases lt_or_gt_of_ne hne with hax | hax
      · simp only [hv_pos' (show 0 < x - a by linarith)]
        simp [hax]
      · simp only [hv_neg' (show x - a < 0 by linarith)]
        simp [not_lt.mpr hax.le]
    | _ => simp [Load.forces, Load.couplesAt] at hpt

/-! ### The elastic line -/

/-- A mechanical load on its span (not the internal `LoadMaMb`). -/
def Load.Plain (L : ℝ) (ld : Load ℝ) : Prop :=
  ld.OnSpan L ∧ ld.IsMechanical ∧ ∀ A B, ld ≠ .mamb A B

/-- The clamped end forces of a load. -/
def Load.clamped {K : Type*} [Field K] [LinearOrder K] (L : K) (ld : Load K) : CNL K :=
  match ld.getCnl L with
  | .ok (.cnl c) => c
  | _ => ⟨0, 0, 0, 0⟩

theorem Load.Plain.getCnl {L : ℝ} {ld : Load ℝ} (hL : 0 < L) (h : ld.Plain L) :
    ld.getCnl L = .ok (.cnl (ld.clamped L)) := by
  obtain ⟨c, hc, _⟩ := clamped_rotations ld L hL h.1 h.2.1 h.2.2
  simp only [Load.clamped, hc]

theorem Load.OnSpan.starts {L : ℝ} {ld : Load ℝ} (hL : 0 < L) (h : ld.OnSpan L) :
    ld.Starts L := by
  cases ld with
  | pudl w a c => exact ⟨h.1, by have := h.2.1; have := h.2.2; linarith, h.2.1⟩
  | trapez w1 w2 a c => exact h.1
  | _ => exact h

/-- The clamped end forces balance the load. -/
theorem Load.Plain.balance {L : ℝ} {ld : Load ℝ} (hL : 0 < L) (h : ld.Plain L) :
    (ld.clamped L).Va + (ld.clamped L).Vb = ld.total L ∧
    (ld.clamped L).Ma + (ld.clamped L).Mb + (ld.clamped L).Vb * L = ld.momentAboutLeft L := by
  obtain ⟨c, hc, h1, h2⟩ := C01_fixed_end_equilibrium ld L hL (h.1.starts hL)
  rw [h.getCnl hL] at hc
  cases hc
  exact ⟨h1, h2⟩

/-- Start of the diagrams of a load in terms of its clamped end forces. -/
theorem Load.Plain.start {L : ℝ} {ld : Load ℝ} (hL : 0 < L) (h : ld.Plain L) :
    (ld.ss L 0).V = (ld.clamped L).Va - ((ld.clamped L).Ma + (ld.clamped L).Mb) / L ∧
    (ld.ss L 0).R = -((ld.clamped L).Ma * L / 3 - (ld.clamped L).Mb * L / 6) ∧
    (ld.ss L L).R = -((ld.clamped L).Mb * L / 3 - (ld.clamped L).Ma * L / 6) := by
  obtain ⟨c, hc, r0, rL⟩ := clamped_rotations ld L hL h.1 h.2.1 h.2.2
  have hc' := h.getCnl hL
  rw [hc] at hc'
  cases hc'
  have hw : ld.Within L := by cases ld <;> first | exact h.1 | exact trivial
  have hcn : (⟨.const 1, L, .FF, none⟩ : Member ℝ).cnl ld = .ok (ld.clamped L) := by
    have := h.2.1
    cases ld <;> first | exact this.elim | (simp only [Member.cnl, h.getCnl hL])
  have := (Load.ends ⟨.const 1, L, .FF, none⟩ hL ld hw h.2.2 _ hcn).1
  refine ⟨?_, ?_, ?_⟩
  · rw [← this]
    simp only [Load.ssV, Load.ss]
    cases ld.stn L 0 <;> rfl
  · simp only [mambStn] at r0
    linear_combination r0
  · simp only [mambStn] at rL
    have e : ((ld.clamped L).Ma + (ld.clamped L).Mb) / L / 2 * L ^ 2
        = ((ld.clamped L).Ma + (ld.clamped L).Mb) * L / 2 := by field_simp
    linear_combination rL - e

/-- The rotation of the elastic line that starts with rotation `t0`. -/
noncomputable def exLineT (EI L : ℝ) (own : List (Load ℝ)) (F : Vec4 ℝ) (t0 x : ℝ) : ℝ :=
  t0 + (-F 1 * x + F 0 * x ^ 2 / 2
    + (own.map fun ld => (ld.ss L x).R - (ld.ss L 0).R - (ld.ss L 0).V * x ^ 2 / 2).sum) / EI

/-- The deflection of the elastic line that starts with deflection `v0`, rotation `t0`. -/
noncomputable def exLineV (EI L : ℝ) (own : List (Load ℝ)) (F : Vec4 ℝ) (v0 t0 x : ℝ) : ℝ :=
  v0 + t0 * x + (-F 1 * x ^ 2 / 2 + F 0 * x ^ 3 / 6
    + (own.map fun ld => (ld.ss L x).D - (ld.ss L 0).R * x - (ld.ss L 0).V * x ^ 3 / 6).sum) / EI

theorem hasDerivAt_list_sum {α : Type*} (l : List α) (f : α → ℝ → ℝ) (f' : α → ℝ) (x : ℝ)
    (h : ∀ a ∈ l, HasDerivAt (f a) (f' a) x) :
    HasDerivAt (fun y => (l.map fun a => f a y).sum) ((l.map f').sum) x := by
  induction l with
  | nil => simpa using hasDerivAt_const x (0 : ℝ)
  | cons a l ih =>
    simp only [List.map_cons, List.sum_cons]
    exact (h a (by simp)).add (ih fun b hb => h b (List.mem_cons_of_mem _ hb))

theorem couplePts_iff (ld : Load ℝ) (x : ℝ) :
    x ∉ ld.couplePts ↔ ∀ p ∈ ld.couplesAt, p.2 ≠ x := by
  cases ld <;> simp [Load.couplePts, Load.couplesAt, eq_comm]

theorem exLineV_deriv {EI L : ℝ} (hL : 0 < L) {own : List (Load ℝ)} (hown : ∀ ld ∈ own, ld.Plain L)
    (F : Vec4 ℝ) (v0 t0 x : ℝ) :
    HasDerivAt (exLineV EI L own F v0 t0) (exLineT EI L own F t0 x) x := by
  have h1 := hasDerivAt_list_sum own
    (fun ld y => (ld.ss L y).D - (ld.ss L 0).R * y - (ld.ss L 0).V * y ^ 3 / 6)
    (fun ld => (ld.ss L x).R - (ld.ss L 0).R - (ld.ss L 0).V * x ^ 2 / 2) x (by
      intro ld hld
      have hd := (C10_rotation_deflection_diagrams ld L hL (hown ld hld).1 (hown ld hld).2.1).2.2.1 x
      refine ((hd.sub ((hasDerivAt_id x).const_mul _)).sub
        (((hasDerivAt_pow 3 x).const_mul _).div_const 6)).congr_deriv ?_
      simp only [Nat.cast_ofNat, Nat.add_one_sub_one]
      ring)
  refine ((((hasDerivAt_const x v0).add ((hasDerivAt_id x).const_mul t0))).add
    ((((((hasDerivAt_pow 2 x).const_mul (-F 1)).div_const 2).add
      (((hasDerivAt_pow 3 x).const_mul (F 0)).div_const 6)).add h1).div_const EI)).congr_deriv ?_
  simp only [exLineT, Nat.cast_ofNat, Nat.add_one_sub_one]
  ring

theorem cutM_eq {L : ℝ} (hL : 0 < L) {own : List (Load ℝ)} (hown : ∀ ld ∈ own, ld.Plain L)
    (F : Vec4 ℝ) {x : ℝ} (hx : x ∈ Icc 0 L) (hc : ∀ ld ∈ own, ∀ p ∈ ld.couplesAt, p.2 ≠ x) :
    cutM L own F x
      = -F 1 + F 0 * x + (own.map fun ld => (ld.ss L x).M - (ld.ss L 0).V * x).sum := by
  have h1 : (own.map fun ld => (ld.ss L x).M - (ld.ss L 0).V * x)
      = own.map fun ld => -ld.momentLeft L x := by
    apply List.map_congr_left
    intro ld hld
    obtain ⟨a, b, c⟩ := hown ld hld
    rw [(ld.cut L hL a b c x hx).2 (hc ld hld)]
    ring
  rw [h1, cutM]
  have h2 : (own.map fun ld => -ld.momentLeft L x).sum
      = -(own.map fun ld => ld.momentLeft L x).sum := by
    induction own with
    | nil => simp
    | cons a l ih =>
      simp only [List.map_cons, List.sum_cons]
      rw [ih (fun ld h => hown ld (List.mem_cons_of_mem _ h))
        (fun ld h => hc ld (List.mem_cons_of_mem _ h)) (by
          simp only [List.map_cons, List.cons.injEq] at h1
          exact h1.2)]
      ring
  rw [h2]
  ring

theorem exLineT_deriv {EI L : ℝ} (hL : 0 < L) {own : List (Load ℝ)} (hown : ∀ ld ∈ own, ld.Plain L)
    (F : Vec4 ℝ) (t0 x : ℝ) (hx : x ∈ Icc 0 L) (hc : ∀ ld ∈ own, ∀ p ∈ ld.couplesAt, p.2 ≠ x) :
    HasDerivAt (exLineT EI L own F t0) (cutM L own F x / EI) x := by
  rw [cutM_eq hL hown F hx hc]
  have h1 := hasDerivAt_list_sum own
    (fun ld y => (ld.ss L y).R - (ld.ss L 0).R - (ld.ss L 0).V * y ^ 2 / 2)
    (fun ld => (ld.ss L x).M - (ld.ss L 0).V * x) x (by
      intro ld hld
      have hd := (C10_rotation_deflection_diagrams ld L hL (hown ld hld).1 (hown ld hld).2.1).2.1 x
        ((couplePts_iff ld x).2 (hc ld hld))
      refine ((hd.sub_const _).sub (((hasDerivAt_pow 2 x).const_mul _).div_const 2)).congr_deriv ?_
      simp only [Nat.cast_ofNat, Nat.add_one_sub_one, pow_one]
      ring)
  refine ((hasDerivAt_const x t0).add
    ((((((hasDerivAt_id x).const_mul (-F 1))).add
      (((hasDerivAt_pow 2 x).const_mul (F 0)).div_const 2)).add h1).div_const EI)).congr_deriv ?_
  simp only [Nat.cast_ofNat, Nat.add_one_sub_one, pow_one]
  ring

theorem exact_ss_R_continuous (ld : Load ℝ) (L : ℝ) (hL : 0 < L) (h : ld.Plain L) :
    Continuous fun x => (ld.ss L x).R := by
  have hR := (C10_rotation_deflection_diagrams ld L hL h.1 h.2.1).2.1
  cases ld with
  | ml m a =>
    simp only [Load.ss, Load.stn, mlStn]
    have := continuous_mb a
    fun_prop
  | ic => exact h.2.1.elim
  | _ => exact continuous_iff_continuousAt.mpr fun x => (hR x (by simp [Load.couplePts])).continuousAt

theorem continuous_list_sum {α : Type*} (l : List α) (f : α → ℝ → ℝ)
    (h : ∀ a ∈ l, Continuous (f a)) : Continuous fun y => (l.map fun a => f a y).sum := by
  induction l with
  | nil => simpa using continuous_const
  | cons a l ih =>
    simp only [List.map_cons, List.sum_cons]
    exact (h a (by simp)).add (ih fun b hb => h b (List.mem_cons_of_mem _ hb))

theorem exLineT_continuous {EI L : ℝ} (hL : 0 < L) {own : List (Load ℝ)}
    (hown : ∀ ld ∈ own, ld.Plain L) (F : Vec4 ℝ) (t0 : ℝ) : Continuous (exLineT EI L own F t0) := by
  have := continuous_list_sum own
    (fun ld y => (ld.ss L y).R - (ld.ss L 0).R - (ld.ss L 0).V * y ^ 2 / 2) (by
      intro ld hld
      have := exact_ss_R_continuous ld L hL (hown ld hld)
      fun_prop)
  unfold exLineT
  fun_prop

/-- The sum of the clamped end forces of the loads of a span. -/
def clampedSum {K : Type*} [Field K] [LinearOrder K] (L : K) (own : List (Load K)) : CNL K :=
  ⟨(own.map fun ld => (ld.clamped L).Va).sum, (own.map fun ld => (ld.clamped L).Ma).sum,
    (own.map fun ld => (ld.clamped L).Vb).sum, (own.map fun ld => (ld.clamped L).Mb).sum⟩

/-- A linear function of the clamped end forces may be summed. -/
theorem sum_clamped {K : Type*} [Field K] [LinearOrder K] (L : K) (own : List (Load K))
    (f : Load K → K) (p q r s : K)
    (h : ∀ ld ∈ own, f ld = p * (ld.clamped L).Va + q * (ld.clamped L).Ma
      + r * (ld.clamped L).Vb + s * (ld.clamped L).Mb) :
    (own.map f).sum = p * (clampedSum L own).Va + q * (clampedSum L own).Ma
      + r * (clampedSum L own).Vb + s * (clampedSum L own).Mb := by
  induction own with
  | nil => simp [clampedSum]
  | cons a l ih =>
    have := ih fun ld hld => h ld (List.mem_cons_of_mem _ hld)
    simp only [clampedSum, List.map_cons, List.sum_cons] at this ⊢
    rw [this, h a (by simp)]
    ring

/-- The elastic line meets the stiffness equation of the member at its right end. -/
theorem line_end {EI L : ℝ} (hE : EI ≠ 0) (hL : 0 < L) {own : List (Load ℝ)}
    (hown : ∀ ld ∈ own, ld.Plain L) (F : Vec4 ℝ) (v0 t0 : ℝ) :
    EI * exLineV EI L own F v0 t0 L = EI * v0 + EI * t0 * L - F 1 * L ^ 2 / 2 + F 0 * L ^ 3 / 6
        + loadState L (clampedSum L own).vec 0 ∧
    EI * exLineT EI L own F t0 L = EI * t0 - F 1 * L + F 0 * L ^ 2 / 2
        + loadState L (clampedSum L own).vec 1 := by
  have hL0 := hL.ne'
  constructor
  · have := sum_clamped L own
      (fun ld => (ld.ss L L).D - (ld.ss L 0).R * L - (ld.ss L 0).V * L ^ 3 / 6)
      (-(L ^ 3 / 6)) (L ^ 2 / 2) 0 0 (by
        intro ld hld
        obtain ⟨h1, h2, _⟩ := (hown ld hld).start hL
        rw [h1, h2, (C10_rotation_deflection_diagrams ld L hL (hown ld hld).1
          (hown ld hld).2.1).2.2.2.2]
        field_simp
        ring)
    rw [exLineV, this]
    simp only [loadState, CNL.vec]
    simp
    field_simp
    ring
  · have := sum_clamped L own
      (fun ld => (ld.ss L L).R - (ld.ss L 0).R - (ld.ss L 0).V * L ^ 2 / 2)
      (-(L ^ 2 / 2)) L 0 0 (by
        intro ld hld
        obtain ⟨h1, h2, h3⟩ := (hown ld hld).start hL
        rw [h1, h2, h3]
        field_simp
        ring)
    rw [exLineT, this]
    simp only [loadState, CNL.vec]
    simp
    field_simp
    ring

theorem line_start (EI L : ℝ) (hL : 0 < L) (own : List (Load ℝ)) (hown : ∀ ld ∈ own, ld.Plain L)
    (F : Vec4 ℝ) (v0 t0 : ℝ) :
    exLineV EI L own F v0 t0 0 = v0 ∧ exLineT EI L own F t0 0 = t0 := by
  have h1 : (own.map fun ld => (ld.ss L 0).D - (ld.ss L 0).R * 0 - (ld.ss L 0).V * 0 ^ 3 / 6).sum
      = 0 := by
    rw [List.map_congr_left (g := fun _ => (0 : ℝ))]
    · simp
    · intro ld hld
      rw [(C10_rotation_deflection_diagrams ld L hL (hown ld hld).1 (hown ld hld).2.1).2.2.2.1]
      ring
  have h2 : (own.map fun ld => (ld.ss L 0).R - (ld.ss L 0).R - (ld.ss L 0).V * 0 ^ 2 / 2).sum
      = 0 := by
    rw [List.map_congr_left (g := fun _ => (0 : ℝ))]
    · simp
    · intro ld hld
      ring
  rw [exLineV, exLineT, h1, h2]
  constructor <;> ring

/-- The sum of a load quantity that the clamped end forces balance. -/
theorem clampedSum_balance {L : ℝ} (hL : 0 < L) {own : List (Load ℝ)}
    (hown : ∀ ld ∈ own, ld.Plain L) :
    (own.map fun ld => ld.total L).sum = (clampedSum L own).Va + (clampedSum L own).Vb ∧
    (own.map fun ld => ld.momentAboutLeft L).sum
      = (clampedSum L own).Ma + (clampedSum L own).Mb + (clampedSum L own).Vb * L := by
  constructor
  · rw [sum_clamped L own _ 1 0 1 0 fun ld hld => by
      rw [← ((hown ld hld).balance hL).1]; ring]
    ring
  · rw [sum_clamped L own _ 0 1 L 1 fun ld hld => by
      rw [← ((hown ld hld).balance hL).2]; ring]
    ring

/-- The stiffness equation of a clamped member gives an elastic line with the given end
displacements. -/
theorem elasticSpan_of_stiffness {EI L : ℝ} (hE : EI ≠ 0) (hL : 0 < L) {own : List (Load ℝ)}
    (hown : ∀ ld ∈ own, ld.Plain L) (F d : Vec4 ℝ)
    (h : F = kFF EI L *ᵥ d + (clampedSum L own).vec) :
    ∃ v θ : ℝ → ℝ, ElasticSpan EI L own F v θ ∧ v 0 = d 0 ∧ θ 0 = d 1 ∧ v L = d 2 ∧ θ L = d 3 := by
  obtain ⟨t1, t2, t3, t4⟩ := (transfer_iff hL.ne' _ _ _).1 h
  obtain ⟨e1, e2⟩ := line_end hE hL hown F (d 0) (d 1)
  obtain ⟨s1, s2⟩ := line_start EI L hL own hown F (d 0) (d 1)
  obtain ⟨b1, b2⟩ := clampedSum_balance hL hown
  refine ⟨exLineV EI L own F (d 0) (d 1), exLineT EI L own F (d 1), ?_, s1, s2, ?_, ?_⟩
  · refine ⟨fun x _ => exLineV_deriv hL hown F _ _ x,
      fun x hx hc => exLineT_deriv hL hown F _ x (Ioo_subset_Icc_self hx) hc, ?_,
      (exLineT_continuous hL hown F _).continuousOn, ?_, ?_⟩
    · exact fun x _ => (exLineV_deriv hL hown F _ _ x).continuousAt.continuousWithinAt
    · rw [b1, t3]
      simp only [loadState, CNL.vec]
      simp
    · rw [b2, t4, t3]
      simp only [loadState, CNL.vec]
      simp
      ring
  · exact mul_left_cancel₀ hE (by rw [e1, t1])
  · exact mul_left_cancel₀ hE (by rw [e2, t2])

/-- An elastic line is the explicit one. -/
theorem ElasticSpan.eq_line {EI L : ℝ} (hL : 0 < L) {own : List (Load ℝ)}
    (hown : ∀ ld ∈ own, ld.Plain L) {F : Vec4 ℝ} {v θ : ℝ → ℝ} (h : ElasticSpan EI L own F v θ) :
    (∀ x ∈ Icc 0 L, θ x = exLineT EI L own F (θ 0) x) ∧
    (∀ x ∈ Icc 0 L, v x = exLineV EI L own F (v 0) (θ 0) x) := by
  have hcount : {x : ℝ | ¬ ∀ ld ∈ own, ∀ p ∈ ld.couplesAt, p.2 ≠ x}.Countable := by
    have : {x : ℝ | ¬ ∀ ld ∈ own, ∀ p ∈ ld.couplesAt, p.2 ≠ x}
        ⊆ {x | x ∈ (own.flatMap fun ld => ld.couplesAt.map Prod.snd)} := by
      intro x hx
      simp only [mem_setOf_eq, not_forall, not_not] at hx
      obtain ⟨ld, h1, p, h2, h3⟩ := hx
      simp only [mem_setOf_eq, List.mem_flatMap, List.mem_map]
      exact ⟨ld, h1, p, h2, h3⟩
    exact (List.finite_toSet _).countable.mono this
  have hT : ∀ x ∈ Icc 0 L, θ x = exLineT EI L own F (θ 0) x := by
    intro x hx
    have := integral_eq_of_hasDerivAt_off_countable_of_le
      (fun s => θ s - exLineT EI L own F (θ 0) s) (fun _ => 0) hx.1 hcount
      ((h.contT.mono (Icc_subset_Icc_right hx.2)).sub
        (exLineT_continuous hL hown F (θ 0)).continuousOn)
      (fun s hs => by
        have hs' : s ∈ Ioo 0 L := ⟨hs.1.1, hs.1.2.trans_le hx.2⟩
        have hc : ∀ ld ∈ own, ∀ p ∈ ld.couplesAt, p.2 ≠ s := not_not.1 hs.2
        refine ((h.curvature s hs' hc).sub
          (exLineT_deriv hL hown F (θ 0) s (Ioo_subset_Icc_self hs') hc)).congr_deriv (sub_self _))
      intervalIntegrable_const
    simp only [intervalIntegral.integral_zero, (line_start EI L hL own hown F (v 0) (θ 0)).2,
      sub_self, sub_zero] at this
    linarith
  refine ⟨hT, fun x hx => ?_⟩
  have := intervalIntegral.integral_eq_sub_of_hasDerivAt_of_le hx.1
    (f := fun s => v s - exLineV EI L own F (v 0) (θ 0) s) (f' := fun _ => 0)
    ((h.contV.mono (Icc_subset_Icc_right hx.2)).sub
      (fun s _ => (exLineV_deriv hL hown F (v 0) (θ 0) s).continuousAt.continuousWithinAt))
    (fun s hs => by
      have hs' : s ∈ Ioo 0 L := ⟨hs.1, hs.2.trans_le hx.2⟩
      have h1 := h.slope s hs'
      rw [hT s (Ioo_subset_Icc_self hs')] at h1
      exact (h1.sub (exLineV_deriv hL hown F (v 0) (θ 0) s)).congr_deriv (sub_self _))
    intervalIntegrable_const
  simp only [intervalIntegral.integral_zero, (line_start EI L hL own hown F (v 0) (θ 0)).1,
    sub_self, sub_zero] at this
  linarith

/-- The end displacements and end forces of an elastic line satisfy the stiffness equation
of the clamped member. -/
theorem ElasticSpan.stiffness {EI L : ℝ} (hE : EI ≠ 0) (hL : 0 < L) {own : List (Load ℝ)}
    (hown : ∀ ld ∈ own, ld.Plain L) {F : Vec4 ℝ} {v θ : ℝ → ℝ} (h : ElasticSpan EI L own F v θ) :
    F = kFF EI L *ᵥ ![v 0, θ 0, v L, θ L] + (clampedSum L own).vec := by
  obtain ⟨h1, h2⟩ := h.eq_line hL hown
  obtain ⟨e1, e2⟩ := line_end hE hL hown F (v 0) (θ 0)
  obtain ⟨b1, b2⟩ := clampedSum_balance hL hown
  have f1 := h.force
  have f2 := h.moment
  rw [b1] at f1
  rw [b2] at f2
  rw [transfer_iff hL.ne']
  rw [← h2 L ⟨hL.le, le_rfl⟩] at e1
  rw [← h1 L ⟨hL.le, le_rfl⟩] at e2
  refine ⟨by simpa using e1, by simpa using e2, ?_, ?_⟩
  · simp only [loadState, CNL.vec]
    simp
    linarith
  · simp only [loadState, CNL.vec]
    simp
    linear_combination f2 - L * f1

end PyCBA
