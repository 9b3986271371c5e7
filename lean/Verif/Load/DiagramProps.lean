import Verif.Load.Props
import Verif.Load.Calc

set_option linter.unusedSectionVars false
set_option linter.unusedSimpArgs false

/-!
Properties of the simply supported span diagrams: C02, C09, C10.
-/

namespace PyCBA

open MeasureTheory Set Filter Topology

/-- Positions of point forces and couples. -/
def Load.pointActions : Load ℝ → Set ℝ
  | .pl _ a => {a}
  | .ml _ a => {a}
  | _ => ∅

/-- Positions of applied couples. -/
def Load.couplePts : Load ℝ → Set ℝ
  | .ml _ a => {a}
  | _ => ∅

/-- Ends of a loaded patch, where the intensity jumps. -/
def Load.patchEnds (L : ℝ) : Load ℝ → Set ℝ
  | .pudl _ a c => {a, a + c}
  | .trapez _ _ a c => {a, a + c.getD (L - a)}
  | _ => ∅

/-- Loads with an explicit diagram (all but imposed curvature). -/
def Load.IsMechanical {K : Type*} : Load K → Prop
  | .ic _ _ => False
  | _ => True

/-- A couple sitting exactly on a span end (its diagram jumps there). -/
def Load.EndCouple (L : ℝ) : Load ℝ → Prop
  | .ml _ a => a = 0 ∨ a = L
  | _ => False

/-- The end moments `LoadMaMb` applies at the two ends. -/
def Load.endMoments : Load ℝ → ℝ × ℝ
  | .mamb Ma Mb => (Ma, Mb)
  | _ => (0, 0)

theorem hv_neg' {v u : ℝ} (h : v < 0) : hv v u = 0 := by simp [hv, h]
theorem hv_pos' {v u : ℝ} (h : 0 < v) : hv v u = 1 := by
  simp only [hv]
  rw [if_neg (by linarith), if_neg h.ne']

section trapez

variable (w1 w2 a c L : ℝ)

theorem trapez_V_deriv (hc : 0 < c) {x : ℝ} (hxa : x ≠ a) (hxb : x ≠ a + c) :
    HasDerivAt (fun y => (trapezStn w1 w2 (w2 - w1) a c L y).V)
      (-(if a ≤ x ∧ x ≤ a + c then w1 + (w2 - w1) * ((x - a) / c) else 0)) x := by
  have h1 := hasDerivAt_mb hxa 0
  have h2 := hasDerivAt_mb hxb 0
  have h3 := hasDerivAt_mb2 a x
  have h4 := hasDerivAt_mb2 (a + c) x
  simp only [trapezStn]
  refine (((((hasDerivAt_const x _).sub (h1.const_mul w1)).sub
    (h3.const_mul ((w2 - w1) / (2 * c)))).add (h2.const_mul w2)).add
    (h4.const_mul ((w2 - w1) / (2 * c)))).congr_deriv ?_
  rcases lt_or_gt_of_ne hxa with h | h
  · rw [hv_neg' (by linarith), hv_neg' (by linarith), mb_of_nonpos (by linarith),
      mb_of_nonpos (by linarith), if_neg (by intro h'; linarith [h'.1])]
    ring
  · rcases lt_or_gt_of_ne hxb with h' | h'
    · rw [hv_pos' (by linarith), hv_neg' (by linarith), mb_of_nonneg (by linarith),
        mb_of_nonpos (by linarith), if_pos ⟨h.le, h'.le⟩]
      field_simp
      ring
    · rw [hv_pos' (by linarith), hv_pos' (by linarith), mb_of_nonneg (by linarith),
        mb_of_nonneg (by linarith), if_neg (by intro h''; linarith [h''.2])]
      field_simp
      ring

theorem trapez_M_deriv (hc : 0 < c) (x : ℝ) :
    HasDerivAt (fun y => (trapezStn w1 w2 (w2 - w1) a c L y).M)
      ((trapezStn w1 w2 (w2 - w1) a c L x).V) x := by
  simp only [trapezStn]
  refine ((((((hasDerivAt_id x).const_mul _).sub ((hasDerivAt_mb2 a x).const_mul (w1 / 2))).sub
    ((hasDerivAt_mb3 a x).const_mul ((w2 - w1) / (6 * c)))).add
    ((hasDerivAt_mb2 (a + c) x).const_mul (w2 / 2))).add
    ((hasDerivAt_mb3 (a + c) x).const_mul ((w2 - w1) / (6 * c)))).congr_deriv ?_
  field_simp
  ring

theorem trapez_R_deriv (hc : 0 < c) (x : ℝ) :
    HasDerivAt (fun y => (trapezStn w1 w2 (w2 - w1) a c L y).R)
      ((trapezStn w1 w2 (w2 - w1) a c L x).M) x := by
  simp only [trapezStn]
  refine (((((((hasDerivAt_pow 2 x).const_mul _).sub
    ((hasDerivAt_mb3 a x).const_mul (w1 / 6))).sub
    ((hasDerivAt_mb4 a x).const_mul ((w2 - w1) / (24 * c)))).add
    ((hasDerivAt_mb3 (a + c) x).const_mul (w2 / 6))).add
    ((hasDerivAt_mb4 (a + c) x).const_mul ((w2 - w1) / (24 * c)))).add_const _).congr_deriv ?_
  simp only [Nat.cast_ofNat, Nat.add_one_sub_one, pow_one]
  field_simp
  ring

theorem trapez_D_deriv (hc : 0 < c) (x : ℝ) :
    HasDerivAt (fun y => (trapezStn w1 w2 (w2 - w1) a c L y).D)
      ((trapezStn w1 w2 (w2 - w1) a c L x).R) x := by
  simp only [trapezStn]
  refine (((((((hasDerivAt_pow 3 x).const_mul _).sub
    ((hasDerivAt_mb4 a x).const_mul (w1 / 24))).sub
    ((hasDerivAt_mb5 a x).const_mul ((w2 - w1) / (120 * c)))).add
    ((hasDerivAt_mb4 (a + c) x).const_mul (w2 / 24))).add
    ((hasDerivAt_mb5 (a + c) x).const_mul ((w2 - w1) / (120 * c)))).add
    ((hasDerivAt_id x).const_mul _)).congr_deriv ?_
  simp only [Nat.cast_ofNat, Nat.add_one_sub_one]
  field_simp
  ring

theorem trapez_ends (hL : 0 < L) (ha : 0 ≤ a) (hc : 0 < c) (hb : a + c ≤ L) :
    (trapezStn w1 w2 (w2 - w1) a c L 0).M = 0 ∧ (trapezStn w1 w2 (w2 - w1) a c L L).M = 0 ∧
    (trapezStn w1 w2 (w2 - w1) a c L 0).D = 0 ∧ (trapezStn w1 w2 (w2 - w1) a c L L).D = 0 := by
  have e1 : mb (0 - a) = 0 := mb_of_nonpos (by linarith)
  have e2 : mb (0 - (a + c)) = 0 := mb_of_nonpos (by linarith)
  have e3 : mb (L - a) = L - a := mb_of_nonneg (by linarith)
  have e4 : mb (L - (a + c)) = L - (a + c) := mb_of_nonneg (by linarith)
  refine ⟨?_, ?_, ?_, ?_⟩
  · simp only [trapezStn, e1, e2]
    ring
  · simp only [trapezStn, e3, e4]
    field_simp
    ring
  · simp only [trapezStn, e1, e2]
    ring
  · simp only [trapezStn, e3, e4]
    field_simp
    ring

theorem trapez_clamped (hL : 0 < L) (ha : 0 ≤ a) (hc : 0 < c) (hb : a + c ≤ L) :
    (trapezStn w1 w2 (w2 - w1) a c L 0).R +
      (mambStn (trapezCnl w1 w2 (w2 - w1) a c L).Ma (trapezCnl w1 w2 (w2 - w1) a c L).Mb L 0).R = 0 ∧
    (trapezStn w1 w2 (w2 - w1) a c L L).R +
      (mambStn (trapezCnl w1 w2 (w2 - w1) a c L).Ma (trapezCnl w1 w2 (w2 - w1) a c L).Mb L L).R = 0 := by
  have e1 : mb (0 - a) = 0 := mb_of_nonpos (by linarith)
  have e2 : mb (0 - (a + c)) = 0 := mb_of_nonpos (by linarith)
  have e3 : mb (L - a) = L - a := mb_of_nonneg (by linarith)
  have e4 : mb (L - (a + c)) = L - (a + c) := mb_of_nonneg (by linarith)
  constructor
  · simp only [trapezStn, e1, e2, mambStn, trapezCnl]
    field_simp
    ring
  · simp only [trapezStn, e3, e4, mambStn, trapezCnl]
    field_simp
    ring

end trapez

/-- Partial UDL diagrams are trapezoidal diagrams with equal ends. -/
theorem pudlStn_eq {K : Type*} [Field K] [LinearOrder K] [IsStrictOrderedRing K]
    (w a c L x : K) (hL : 0 < L) :
    pudlStn w a c L x = trapezStn w w (w - w) a c L x := by
  have : L ≠ 0 := hL.ne'
  ext <;> simp only [pudlStn, trapezStn, add_comm c a, sub_self, zero_div, zero_mul, sub_zero,
    add_zero] <;> field_simp <;> ring

theorem pudlCnl_eq {K : Type*} [Field K] [LinearOrder K] [IsStrictOrderedRing K]
    (w a c L : K) (hL : 0 < L) :
    pudlCnl w a c L = trapezCnl w w (w - w) a c L := by
  have : L ≠ 0 := hL.ne'
  ext <;> simp only [pudlCnl, trapezCnl, sub_self, zero_div, zero_mul, sub_zero,
    add_zero] <;> field_simp <;> ring

/-- The diagram values as a total function (`none` never occurs for mechanical
loads, see `stn_eq_ss`). -/
def Load.ss {K : Type*} [Field K] [LinearOrder K] (ld : Load K) (L x : K) : Stn K :=
  match ld.stn L x with
  | some s => s
  | none => ⟨0, 0, 0, 0⟩

theorem stn_eq_ss {K : Type*} [Field K] [LinearOrder K] (ld : Load K) (hm : ld.IsMechanical)
    (L x : K) :
    ld.stn L x = some (ld.ss L x) := by
  cases ld with
  | trapez w1 w2 a c =>
    simp only [Load.ss, Load.stn]
    split_ifs <;> rfl
  | ic => exact hm.elim
  | _ => rfl

/-- A trapezoidal load is void, or behaves as its resolved on-span part. -/
theorem trapez_cases (w1 w2 a : ℝ) (c : Option ℝ) (L : ℝ) :
    ((L ≤ a ∨ c.getD (L - a) ≤ 0) ∧ (∀ x, (Load.trapez w1 w2 a c).ss L x = ⟨0, 0, 0, 0⟩) ∧
      (Load.trapez w1 w2 a c).getCnl L = .ok (.cnl ⟨0, 0, 0, 0⟩)) ∨
    ∃ w2' c', a < L ∧ 0 < c.getD (L - a) ∧ 0 < c' ∧ a + c' ≤ L ∧
      c' = min (a + c.getD (L - a)) L - a ∧
      (w2' - w1) / c' = (w2 - w1) / c.getD (L - a) ∧
      (∀ x, (Load.trapez w1 w2 a c).ss L x = trapezStn w1 w2' (w2' - w1) a c' L x) ∧
      (Load.trapez w1 w2 a c).getCnl L = .ok (.cnl (trapezCnl w1 w2' (w2' - w1) a c' L)) := by
  by_cases hv : L ≤ a ∨ c.getD (L - a) ≤ 0
  · left
    refine ⟨hv, fun x => ?_, ?_⟩
    · simp [Load.ss, Load.stn, resolve_zero hv]
    · simp [Load.getCnl, resolve_zero hv]
  · right
    push Not at hv
    obtain ⟨h1, h2⟩ := hv
    have hLa : 0 < L - a := by linarith
    by_cases h3 : L < a + c.getD (L - a)
    · have hr := resolve_clip (w1 := w1) (w2 := w2) h1 h2 h3
      refine ⟨w1 + (w2 - w1) * (L - a) / c.getD (L - a), L - a, h1, h2, hLa, by linarith,
        by rw [min_eq_right h3.le], ?_, fun x => ?_, ?_⟩
      rotate_left
      · simp only [Load.ss, Load.stn, hr, not_le.mpr hLa, if_false]
      · simp only [Load.getCnl, hr, not_le.mpr hLa, if_false]
      · field_simp
        ring
    · have hr := resolve_fit (w1 := w1) (w2 := w2) h1 h2 (not_lt.mp h3)
      refine ⟨w2, c.getD (L - a), h1, h2, h2, not_lt.mp h3, ?_, rfl, fun x => ?_, ?_⟩
      · rw [min_eq_left (not_lt.mp h3)]
        ring
      · simp only [Load.ss, Load.stn, hr, not_le.mpr h2, if_false]
      · simp only [Load.getCnl, hr, not_le.mpr h2, if_false]

/-! ## C09 -/

/-- **C09.** In the span diagrams of every load type, shear is the derivative of
moment, minus the load intensity is the derivative of shear, and the moment
vanishes at the ends of the (simply supported) span apart from applied end
couples. -/
theorem C09_shear_moment_diagrams (ld : Load ℝ) (L : ℝ) (hL : 0 < L) (h : ld.OnSpan L)
    (hm : ld.IsMechanical) :
    (∀ x, ld.stn L x = some (ld.ss L x)) ∧
    (∀ x, x ∉ ld.pointActions →
      HasDerivAt (fun y => (ld.ss L y).M) ((ld.ss L x).V) x) ∧
    (∀ x ∈ Ioo 0 L, x ∉ ld.pointActions → x ∉ ld.patchEnds L →
      HasDerivAt (fun y => (ld.ss L y).V) (-(ld.intensity L x)) x) ∧
    (¬ ld.EndCouple L → (ld.ss L 0).M = -ld.endMoments.1 ∧ (ld.ss L L).M = ld.endMoments.2) := by
  have hL0 : L ≠ 0 := hL.ne'
  refine ⟨stn_eq_ss ld hm L, ?_⟩
  cases ld with
  | udl w =>
    simp only [Load.ss, Load.stn, Load.intensity, Load.endMoments, udlStn]
    refine ⟨fun x _ => ?_, fun x _ _ _ => ?_, fun _ => ⟨?_, ?_⟩⟩
    · refine (((hasDerivAt_id x).const_mul _).sub
        ((hasDerivAt_pow 2 x).const_mul _)).congr_deriv ?_
      simp only [Nat.cast_ofNat, Nat.add_one_sub_one, pow_one]
      ring
    · refine ((hasDerivAt_const x _).sub ((hasDerivAt_id x).const_mul w)).congr_deriv ?_
      ring
    · ring
    · ring
  | pl P a =>
    obtain ⟨h0, h1⟩ := h
    have hb : max (L - a) 0 = L - a := max_eq_left (by linarith)
    simp only [Load.ss, Load.stn, Load.intensity, Load.endMoments, plStn, hb,
      Load.pointActions, mem_singleton_iff]
    refine ⟨fun x hx => ?_, fun x _ hx _ => ?_, fun _ => ⟨?_, ?_⟩⟩
    · refine (((hasDerivAt_id x).const_mul _).sub
        ((hasDerivAt_mb hx 0).const_mul P)).congr_deriv ?_
      ring
    · refine ((hasDerivAt_const x _).sub ((hasDerivAt_hv hx 0).const_mul P)).congr_deriv ?_
      ring
    · rw [mb_of_nonpos (by linarith)]
      ring
    · rw [mb_of_nonneg (by linarith)]
      field_simp
      ring
  | pudl w a c =>
    obtain ⟨h0, h1, h2⟩ := h
    have e : ∀ x, (Load.pudl w a c).ss L x = trapezStn w w (w - w) a c L x :=
      fun x => pudlStn_eq w a c L x hL
    rcases eq_or_lt_of_le h1 with hc | hc
    · subst hc
      have e' : ∀ x, (Load.pudl w a 0).ss L x = ⟨0, 0, 0, 0⟩ := by
        intro x
        ext <;> simp [Load.ss, Load.stn, pudlStn]
      simp only [e', Load.intensity, Load.endMoments, Load.patchEnds]
      refine ⟨fun x _ => hasDerivAt_const x _, fun x _ _ hx => ?_, fun _ => by simp⟩
      simp only [add_zero, mem_insert_iff, mem_singleton_iff, or_self] at hx
      rw [if_neg]
      · simpa using hasDerivAt_const x (0 : ℝ)
      · rintro ⟨h3, h4⟩
        exact hx (le_antisymm (by linarith) h3)
    · simp only [e, Load.endMoments, Load.patchEnds]
      refine ⟨fun x _ => trapez_M_deriv w w a c L hc x, fun x _ _ hx => ?_, fun _ => ?_⟩
      · simp only [mem_insert_iff, mem_singleton_iff, not_or] at hx
        refine (trapez_V_deriv w w a c L hc hx.1 hx.2).congr_deriv ?_
        simp [Load.intensity]
      · have := trapez_ends w w a c L hL h0 hc h2
        exact ⟨by rw [this.1]; simp, this.2.1⟩
  | trapez w1 w2 a c =>
    obtain ⟨h0, h2⟩ := h
    rcases trapez_cases w1 w2 a c L with ⟨hv, e, _⟩ | ⟨w2', c', h1, hc0, hc, hb, hc', hw, e, _⟩
    · simp only [e, Load.endMoments]
      refine ⟨fun x _ => hasDerivAt_const x _, fun x hx _ hx' => ?_, fun _ => by simp⟩
      have : (Load.trapez w1 w2 a c).intensity L x = 0 := by
        simp only [Load.intensity]
        rw [if_neg]
        rintro ⟨h3, h4⟩
        simp only [Load.patchEnds, mem_insert_iff, mem_singleton_iff, not_or] at hx'
        rcases hv with hv | hv
        · linarith [hx.2]
        · exact hx'.1 (le_antisymm (by linarith) h3)
      rw [this]
      simpa using hasDerivAt_const x (0 : ℝ)
    · simp only [e, Load.endMoments]
      refine ⟨fun x _ => trapez_M_deriv w1 w2' a c' L hc x, fun x hx _ hx' => ?_, fun _ => ?_⟩
      · simp only [Load.patchEnds, mem_insert_iff, mem_singleton_iff, not_or] at hx'
        have hne : x ≠ a + c' := by
          rw [hc']
          intro hx2
          rcases min_choice (a + c.getD (L - a)) L with hmn | hmn
          · rw [hmn] at hx2
            exact hx'.2 (by linarith)
          · rw [hmn] at hx2
            linarith [hx.2]
        refine (trapez_V_deriv w1 w2' a c' L hc hx'.1 hne).congr_deriv ?_
        simp only [Load.intensity]
        have hiff : (a ≤ x ∧ x ≤ a + c') ↔ (a ≤ x ∧ x ≤ a + c.getD (L - a)) := by
          have : a + c' = min (a + c.getD (L - a)) L := by rw [hc']; ring
          rw [this, le_min_iff]
          exact ⟨fun h => ⟨h.1, h.2.1⟩, fun h => ⟨h.1, h.2, hx.2.le⟩⟩
        simp only [hiff]
        split_ifs with hin
        · have : (w2' - w1) * ((x - a) / c') = (w2 - w1) * ((x - a) / c.getD (L - a)) := by
            calc (w2' - w1) * ((x - a) / c') = (w2' - w1) / c' * (x - a) := by ring
              _ = (w2 - w1) / c.getD (L - a) * (x - a) := by rw [hw]
              _ = _ := by ring
          rw [this]
        · rfl
      · have := trapez_ends w1 w2' a c' L hL h0 hc hb
        exact ⟨by rw [this.1]; simp, this.2.1⟩
  | mamb Ma Mb =>
    simp only [Load.ss, Load.stn, Load.intensity, Load.endMoments, mambStn]
    refine ⟨fun x _ => ?_, fun x _ _ _ => ?_, fun _ => ⟨?_, ?_⟩⟩
    · refine (((hasDerivAt_id x).const_mul _).sub_const _).congr_deriv ?_
      ring
    · simpa using hasDerivAt_const x ((Ma + Mb) / L)
    · ring
    · field_simp
      ring
  | ml m a =>
    obtain ⟨h0, h1⟩ := h
    have hMd : ∀ x v, x ≠ a → HasDerivAt (fun y => m / L * y - m * hv (y - a) v) (m / L) x := by
      intro x v hx
      refine (((hasDerivAt_id x).const_mul (m / L)).sub
        ((hasDerivAt_hv hx v).const_mul m)).congr_deriv ?_
      ring
    simp only [Load.ss, Load.stn, Load.intensity, Load.endMoments, mlStn,
      Load.pointActions, mem_singleton_iff, Load.EndCouple]
    refine ⟨fun x hx => ?_, fun x _ hx _ => ?_, fun hn => ?_⟩
    · split_ifs
      · exact hMd x _ hx
      · exact hMd x _ hx
      · exact hMd x _ hx
    · simpa using hasDerivAt_const x (m / L)
    · push Not at hn
      have ha0 : 0 < a := lt_of_le_of_ne h0 (Ne.symm hn.1)
      have haL : a < L := lt_of_le_of_ne h1 hn.2
      simp only [hn.1, hn.2, if_false]
      rw [hv_neg' (by linarith : (0 : ℝ) - a < 0), hv_pos' (by linarith : 0 < L - a)]
      constructor
      · ring
      · field_simp
        ring
  | ic => exact hm.elim

/-! ## C10 -/

/-- **C10.** In the span diagrams of every load type (per unit rigidity), moment
is the derivative of rotation, rotation the derivative of deflection, and the
deflection vanishes at both ends. -/
theorem C10_rotation_deflection_diagrams (ld : Load ℝ) (L : ℝ) (hL : 0 < L) (h : ld.OnSpan L)
    (hm : ld.IsMechanical) :
    (∀ x, ld.stn L x = some (ld.ss L x)) ∧
    (∀ x, x ∉ ld.couplePts → HasDerivAt (fun y => (ld.ss L y).R) ((ld.ss L x).M) x) ∧
    (∀ x, HasDerivAt (fun y => (ld.ss L y).D) ((ld.ss L x).R) x) ∧
    (ld.ss L 0).D = 0 ∧ (ld.ss L L).D = 0 := by
  have hL0 : L ≠ 0 := hL.ne'
  refine ⟨stn_eq_ss ld hm L, ?_⟩
  cases ld with
  | udl w =>
    simp only [Load.ss, Load.stn, udlStn]
    refine ⟨fun x _ => ?_, fun x => ?_, ?_, ?_⟩
    · refine ((((hasDerivAt_pow 2 x).const_mul _).sub
        ((hasDerivAt_pow 3 x).const_mul _)).add_const _).congr_deriv ?_
      simp only [Nat.cast_ofNat, Nat.add_one_sub_one, pow_one]
      ring
    · refine ((((hasDerivAt_pow 3 x).const_mul _).sub
        ((hasDerivAt_pow 4 x).const_mul _)).add ((hasDerivAt_id x).const_mul _)).congr_deriv ?_
      simp only [Nat.cast_ofNat, Nat.add_one_sub_one]
      ring
    · ring
    · ring
  | pl P a =>
    obtain ⟨h0, h1⟩ := h
    have hb : max (L - a) 0 = L - a := max_eq_left (by linarith)
    simp only [Load.ss, Load.stn, plStn, hb]
    refine ⟨fun x hx => ?_, fun x => ?_, ?_, ?_⟩
    · refine ((((hasDerivAt_pow 2 x).const_mul _).sub
        ((hasDerivAt_mb2 a x).const_mul (P / 2))).add_const _).congr_deriv ?_
      simp only [Nat.cast_ofNat, Nat.add_one_sub_one, pow_one]
      ring
    · refine ((((hasDerivAt_pow 3 x).const_mul _).sub
        ((hasDerivAt_mb3 a x).const_mul (P / 6))).add
        ((hasDerivAt_id x).const_mul _)).congr_deriv ?_
      simp only [Nat.cast_ofNat, Nat.add_one_sub_one]
      ring
    · rw [mb_of_nonpos (by linarith)]
      ring
    · rw [mb_of_nonneg (by linarith)]
      field_simp
      ring
  | pudl w a c =>
    obtain ⟨h0, h1, h2⟩ := h
    have e : ∀ x, (Load.pudl w a c).ss L x = trapezStn w w (w - w) a c L x :=
      fun x => pudlStn_eq w a c L x hL
    rcases eq_or_lt_of_le h1 with hc | hc
    · subst hc
      have e' : ∀ x, (Load.pudl w a 0).ss L x = ⟨0, 0, 0, 0⟩ := by
        intro x
        ext <;> simp [Load.ss, Load.stn, pudlStn]
      simp only [e']
      exact ⟨fun x _ => hasDerivAt_const x _, fun x => hasDerivAt_const x _, trivial, trivial⟩
    · simp only [e]
      have := trapez_ends w w a c L hL h0 hc h2
      exact ⟨fun x _ => trapez_R_deriv w w a c L hc x, fun x => trapez_D_deriv w w a c L hc x,
        this.2.2.1, this.2.2.2⟩
  | trapez w1 w2 a c =>
    obtain ⟨h0, h2⟩ := h
    rcases trapez_cases w1 w2 a c L with ⟨hv, e, _⟩ | ⟨w2', c', h1, hc0, hc, hb, hc', hw, e, _⟩
    · simp only [e]
      exact ⟨fun x _ => hasDerivAt_const x _, fun x => hasDerivAt_const x _, trivial, trivial⟩
    · simp only [e]
      have := trapez_ends w1 w2' a c' L hL h0 hc hb
      exact ⟨fun x _ => trapez_R_deriv w1 w2' a c' L hc x,
        fun x => trapez_D_deriv w1 w2' a c' L hc x, this.2.2.1, this.2.2.2⟩
  | mamb Ma Mb =>
    simp only [Load.ss, Load.stn, mambStn]
    refine ⟨fun x _ => ?_, fun x => ?_, ?_, ?_⟩
    · refine ((((hasDerivAt_pow 2 x).const_mul _).sub
        ((hasDerivAt_id x).const_mul Ma)).add_const _).congr_deriv ?_
      simp only [Nat.cast_ofNat, Nat.add_one_sub_one, pow_one]
      ring
    · refine ((((hasDerivAt_pow 3 x).const_mul _).sub
        ((hasDerivAt_pow 2 x).const_mul (Ma / 2))).add
        ((hasDerivAt_id x).const_mul _)).congr_deriv ?_
      simp only [Nat.cast_ofNat, Nat.add_one_sub_one]
      ring
    · ring
    · field_simp
      ring
  | ml m a =>
    obtain ⟨h0, h1⟩ := h
    have hRd : ∀ x v c, x ≠ a →
        HasDerivAt (fun y => m / L / 2 * y ^ 2 - m * mb (y - a) + c)
          (m / L * x - m * hv (x - a) v) x := by
      intro x v c hx
      refine ((((hasDerivAt_pow 2 x).const_mul _).sub
        ((hasDerivAt_mb hx v).const_mul m)).add_const _).congr_deriv ?_
      simp only [Nat.cast_ofNat, Nat.add_one_sub_one, pow_one]
      ring
    simp only [Load.ss, Load.stn, mlStn, Load.couplePts, mem_singleton_iff]
    refine ⟨fun x hx => ?_, fun x => ?_, ?_, ?_⟩
    · split_ifs
      · exact hRd x _ _ hx
      · exact hRd x _ _ hx
      · exact hRd x _ _ hx
    · refine ((((hasDerivAt_pow 3 x).const_mul _).sub
        ((hasDerivAt_mb2 a x).const_mul (m / 2))).add
        ((hasDerivAt_id x).const_mul _)).congr_deriv ?_
      simp only [Nat.cast_ofNat, Nat.add_one_sub_one]
      ring
    · rw [mb_of_nonpos (by linarith)]
      ring
    · rw [mb_of_nonneg (by linarith)]
      field_simp
      ring
  | ic => exact hm.elim

/-! ## C02 -/

/-- End rotations of the clamped span (helper form of C02). -/
theorem clamped_rotations (ld : Load ℝ) (L : ℝ) (hL : 0 < L) (h : ld.OnSpan L)
    (hm : ld.IsMechanical) (hn : ∀ Ma Mb, ld ≠ .mamb Ma Mb) :
    ∃ c, ld.getCnl L = .ok (.cnl c) ∧
      (ld.ss L 0).R + (mambStn c.Ma c.Mb L 0).R = 0 ∧
      (ld.ss L L).R + (mambStn c.Ma c.Mb L L).R = 0 := by
  have hL0 : L ≠ 0 := hL.ne'
  cases ld with
  | udl w =>
    refine ⟨_, rfl, ?_, ?_⟩ <;> simp only [Load.ss, Load.stn, udlStn, mambStn, udlCnl] <;>
      field_simp <;> ring
  | pl P a =>
    obtain ⟨h0, h1⟩ := h
    have hb : max (L - a) 0 = L - a := max_eq_left (by linarith)
    refine ⟨_, rfl, ?_, ?_⟩
    · simp only [Load.ss, Load.stn, plStn, mambStn, plCnl, hb]
      rw [mb_of_nonpos (by linarith)]
      field_simp
      ring
    · simp only [Load.ss, Load.stn, plStn, mambStn, plCnl, hb]
      rw [mb_of_nonneg (by linarith)]
      field_simp
      ring
  | pudl w a c =>
    obtain ⟨h0, h1, h2⟩ := h
    have hcnl : (Load.pudl w a c).getCnl L = .ok (.cnl (trapezCnl w w (w - w) a c L)) := by
      rw [← pudlCnl_eq w a c L hL]
      simp only [Load.getCnl]
      rw [if_neg (by linarith), if_neg (by linarith)]
    have e : ∀ x, (Load.pudl w a c).ss L x = trapezStn w w (w - w) a c L x :=
      fun x => pudlStn_eq w a c L x hL
    refine ⟨_, hcnl, ?_⟩
    rcases eq_or_lt_of_le h1 with hc | hc
    · subst hc
      simp [Load.ss, Load.stn, pudlStn, trapezCnl, mambStn]
    · simp only [e]
      exact trapez_clamped w w a c L hL h0 hc h2
  | trapez w1 w2 a c =>
    obtain ⟨h0, h2⟩ := h
    rcases trapez_cases w1 w2 a c L with
      ⟨hv, e, hg⟩ | ⟨w2', c', h1, hc0, hc, hb, hc', hw, e, hg⟩
    · refine ⟨_, hg, ?_⟩
      simp [e, mambStn]
    · refine ⟨_, hg, ?_⟩
      simp only [e]
      exact trapez_clamped w1 w2' a c' L hL h0 hc hb
  | mamb Ma Mb => exact absurd rfl (hn Ma Mb)
  | ml m a =>
    obtain ⟨h0, h1⟩ := h
    refine ⟨_, rfl, ?_, ?_⟩
    · simp only [Load.ss, Load.stn, mlStn, mambStn, mlCnl]
      rw [mb_of_nonpos (by linarith)]
      field_simp
      ring
    · simp only [Load.ss, Load.stn, mlStn, mambStn, mlCnl]
      rw [mb_of_nonneg (by linarith)]
      field_simp
      ring
  | ic => exact hm.elim

theorem ss_M_intervalIntegrable (ld : Load ℝ) (L : ℝ) (hL : 0 < L) (h : ld.OnSpan L)
    (hm : ld.IsMechanical) (g : ℝ → ℝ) (hg : Continuous g) :
    IntervalIntegrable (fun x => g x * (ld.ss L x).M) volume 0 L := by
  have hcont : (∀ a m, ld ≠ .ml m a) → ContinuousOn (fun x => (ld.ss L x).M) (uIcc 0 L) := by
    intro hne
    have h9 := (C10_rotation_deflection_diagrams ld L hL h hm)
    cases ld with
    | udl w =>
      simp only [Load.ss, Load.stn, udlStn]
      fun_prop
    | pl P a =>
      simp only [Load.ss, Load.stn, plStn]
      have := continuous_mb a
      exact (by fun_prop : Continuous _).continuousOn
    | pudl w a c =>
      simp only [Load.ss, Load.stn, pudlStn]
      have := continuous_mb a
      have := continuous_mb (c + a)
      exact (by fun_prop : Continuous _).continuousOn
    | trapez w1 w2 a c =>
      have h0 := h.1
      rcases trapez_cases w1 w2 a c L with
        ⟨hv, e, hg⟩ | ⟨w2', c', h1, hc0, hc, hb, hc', hw, e, hg⟩
      · simp only [e]
        fun_prop
      · simp only [e, trapezStn]
        have := continuous_mb a
        have := continuous_mb (a + c')
        exact (by fun_prop : Continuous _).continuousOn
    | mamb Ma Mb =>
      simp only [Load.ss, Load.stn, mambStn]
      fun_prop
    | ml m a => exact absurd rfl (hne a m)
    | ic => exact hm.elim
  cases ld with
  | ml m a =>
    have hmono : ∀ v : ℝ, 0 ≤ v → v ≤ 1 → Monotone fun x : ℝ => hv (x - a) v := by
      intro v hv0 hv1 x y hxy
      rcases lt_trichotomy (x - a) 0 with h1 | h1 | h1
      · change hv (x - a) v ≤ hv (y - a) v
        rw [hv_neg' h1]
        simp only [hv]
        split_ifs <;> linarith
      · change hv (x - a) v ≤ hv (y - a) v
        have e1 : hv (x - a) v = v := by simp [hv, h1]
        rw [e1]
        rcases eq_or_lt_of_le hxy with h2 | h2
        · rw [← h2, e1]
        · rw [hv_pos' (by linarith)]
          exact hv1
      · change hv (x - a) v ≤ hv (y - a) v
        rw [hv_pos' h1, hv_pos' (by linarith)]
    have hstep : ∀ v : ℝ, 0 ≤ v → v ≤ 1 →
        IntervalIntegrable (fun x => g x * (m / L * x - m * hv (x - a) v)) volume 0 L := by
      intro v hv0 hv1
      have h1 : IntervalIntegrable (fun x => hv (x - a) v) volume 0 L :=
        (hmono v hv0 hv1).intervalIntegrable
      have h2 : IntervalIntegrable (fun x => m / L * x) volume 0 L :=
        (by fun_prop : Continuous fun x : ℝ => m / L * x).intervalIntegrable 0 L
      exact (h2.sub (h1.const_mul m)).continuousOn_mul hg.continuousOn
    simp only [Load.ss, Load.stn, mlStn]
    split_ifs
    · exact hstep 1 (by norm_num) le_rfl
    · exact hstep 0 le_rfl (by norm_num)
    · exact hstep (1 / 2) (by norm_num) (by norm_num)
  | ic => exact hm.elim
  | _ => exact (hg.continuousOn.mul (hcont (by intro a m h; cases h))).intervalIntegrable

/-- **C02.** The fixed-end moments are those of a clamped span: the moment field
made of the reported simply supported diagram and the linear diagram of the end
moments (`-Ma` at the left end, `Mb` at the right) has zero area and zero first
moment of area over the span, i.e. both end rotations and the relative end
deflection vanish.  Missing: `LoadMaMb`, which states its end moments itself
(`C02_end_moments_violation`); imposed curvature is `C02_curvature_partial`. -/
theorem C02_clamped_partial (ld : Load ℝ) (L : ℝ) (hL : 0 < L) (h : ld.OnSpan L)
    (hm : ld.IsMechanical) (hn : ∀ Ma Mb, ld ≠ .mamb Ma Mb) :
    ∃ c, ld.getCnl L = .ok (.cnl c) ∧
      (∫ x in (0 : ℝ)..L, ((ld.ss L x).M + ((c.Ma + c.Mb) / L * x - c.Ma))) = 0 ∧
      (∫ x in (0 : ℝ)..L, x * ((ld.ss L x).M + ((c.Ma + c.Mb) / L * x - c.Ma))) = 0 := by
  obtain ⟨c, hc, r0, rL⟩ := clamped_rotations ld L hL h hm hn
  obtain ⟨_, hR, hD, d0, dL⟩ := C10_rotation_deflection_diagrams ld L hL h hm
  obtain ⟨_, hR', hD', d0', dL'⟩ :=
    C10_rotation_deflection_diagrams (.mamb c.Ma c.Mb) L hL trivial trivial
  have hss : ∀ x, (Load.mamb c.Ma c.Mb).ss L x = mambStn c.Ma c.Mb L x := fun x => rfl
  simp only [hss] at hR' hD' d0' dL'
  have hcount : (ld.couplePts).Countable := by
    cases ld <;> simp [Load.couplePts]
  have hRcont : Continuous fun x => (ld.ss L x).R := by
    cases ld with
    | ml m a =>
      simp only [Load.ss, Load.stn, mlStn]
      have := continuous_mb a
      fun_prop
    | ic => exact hm.elim
    | _ => exact continuous_iff_continuousAt.mpr fun x => (hR x (by simp [Load.couplePts])).continuousAt
  have hRmcont : Continuous fun x => (mambStn c.Ma c.Mb L x).R :=
    continuous_iff_continuousAt.mpr fun x => (hR' x (by simp [Load.couplePts])).continuousAt
  refine ⟨c, hc, ?_, ?_⟩
  · have hint := integral_eq_of_hasDerivAt_off_countable_of_le
      (fun x => (ld.ss L x).R + (mambStn c.Ma c.Mb L x).R)
      (fun x => (ld.ss L x).M + ((c.Ma + c.Mb) / L * x - c.Ma)) hL.le hcount
      (hRcont.add hRmcont).continuousOn
      (fun x hx => (hR x hx.2).add (hR' x (by simp [Load.couplePts])))
      ?_
    · rw [hint, r0, rL]
      ring
    · have h1 := ss_M_intervalIntegrable ld L hL h hm (fun _ => 1) continuous_const
      simp only [one_mul] at h1
      exact h1.add ((by fun_prop : Continuous fun x : ℝ =>
        (c.Ma + c.Mb) / L * x - c.Ma).intervalIntegrable 0 L)
  · have hint := integral_eq_of_hasDerivAt_off_countable_of_le
      (fun x => x * ((ld.ss L x).R + (mambStn c.Ma c.Mb L x).R)
        - ((ld.ss L x).D + (mambStn c.Ma c.Mb L x).D))
      (fun x => x * ((ld.ss L x).M + ((c.Ma + c.Mb) / L * x - c.Ma))) hL.le hcount
      ?_ ?_ ?_
    · rw [hint, d0, dL, d0', dL', r0, rL]
      ring
    · apply ContinuousOn.sub
      · exact (continuous_id.mul (hRcont.add hRmcont)).continuousOn
      · apply ContinuousOn.add
        · exact (continuous_iff_continuousAt.mpr fun x => (hD x).continuousAt).continuousOn
        · exact (continuous_iff_continuousAt.mpr fun x => (hD' x).continuousAt).continuousOn
    · intro x hx
      refine (((hasDerivAt_id x).mul ((hR x hx.2).add (hR' x (by simp [Load.couplePts])))).sub
        ((hD x).add (hD' x))).congr_deriv ?_
      simp only [id, Pi.add_apply, mambStn]
      ring
    · have h1 := ss_M_intervalIntegrable ld L hL h hm (fun x => x) continuous_id
      have h2 : IntervalIntegrable (fun x => x * ((c.Ma + c.Mb) / L * x - c.Ma)) volume 0 L :=
        (by fun_prop : Continuous fun x : ℝ =>
          x * ((c.Ma + c.Mb) / L * x - c.Ma)).intervalIntegrable 0 L
      refine (h1.add h2).congr ?_
      intro x _
      ring

/-- **C02 fails** for `LoadMaMb`: its diagram already is that of the end moments it
returns, so that the superposed field is twice that diagram. -/
theorem C02_end_moments_violation (Ma Mb L : ℝ) (hL : 0 < L) (h : Ma ≠ 0 ∨ Mb ≠ 0) :
    ∃ c, (Load.mamb Ma Mb).getCnl L = .ok (.cnl c) ∧
      ¬ ((∫ x in (0 : ℝ)..L, (((Load.mamb Ma Mb).ss L x).M + ((c.Ma + c.Mb) / L * x - c.Ma))) = 0 ∧
        (∫ x in (0 : ℝ)..L, x * (((Load.mamb Ma Mb).ss L x).M + ((c.Ma + c.Mb) / L * x - c.Ma))) = 0) := by
  refine ⟨_, rfl, ?_⟩
  rintro ⟨h1, h2⟩
  simp only [Load.ss, Load.stn, mambStn, mambCnl] at h1 h2
  rw [intervalIntegral.integral_eq_sub_of_hasDerivAt
    (f := fun x => (Ma + Mb) / L * x ^ 2 - 2 * Ma * x) (fun x _ => ?_)
    ((by fun_prop : Continuous _).intervalIntegrable _ _)] at h1
  rw [intervalIntegral.integral_eq_sub_of_hasDerivAt
    (f := fun x => 2 * ((Ma + Mb) / L) / 3 * x ^ 3 - Ma * x ^ 2) (fun x _ => ?_)
    ((by fun_prop : Continuous _).intervalIntegrable _ _)] at h2
  · have e1 : (Mb - Ma) * L = 0 := by
      have : (Ma + Mb) / L * L ^ 2 = (Ma + Mb) * L := by field_simp
      linear_combination h1 - this
    have e2 : (2 * Mb - Ma) * L ^ 2 = 0 := by
      have : 2 * ((Ma + Mb) / L) / 3 * L ^ 3 = 2 * (Ma + Mb) / 3 * L ^ 2 := by field_simp
      linear_combination 3 * h2 - 3 * this
    have e3 := (mul_eq_zero.1 e1).resolve_right hL.ne'
    have e4 := (mul_eq_zero.1 e2).resolve_right (by positivity)
    have hb : Mb = 0 := by linarith
    have ha : Ma = 0 := by linarith
    rcases h with h | h
    · exact h ha
    · exact h hb
  · refine (((hasDerivAt_pow 3 x).const_mul _).sub ((hasDerivAt_pow 2 x).const_mul Ma)).congr_deriv ?_
    simp only [Nat.cast_ofNat, Nat.add_one_sub_one, pow_one]
    ring
  · refine (((hasDerivAt_pow 2 x).const_mul _).sub ((hasDerivAt_id x).const_mul (2 * Ma))).congr_deriv ?_
    simp only [Nat.cast_ofNat, Nat.add_one_sub_one, pow_one]
    ring

/-- The hypotheses of C02, C09 and C10 hold for a point load off mid-span and an
uneven patch. -/
example : (Load.pl (5 : ℝ) 3).OnSpan 10 ∧ (Load.pl (5 : ℝ) 3).IsMechanical := by
  norm_num [Load.OnSpan, Load.IsMechanical]
example : (Load.trapez (5 : ℝ) 2 3 (some 4)).OnSpan 10 := by
  norm_num [Load.OnSpan]

end PyCBA
