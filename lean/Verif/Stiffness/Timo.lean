import Verif.Load.DiagramProps
import Verif.Stiffness.Model

set_option linter.unusedSectionVars false
set_option linter.unusedSimpArgs false

/-!
C76: the fixed-end forces of shear-flexible prismatic members clamp the ends; exactness of
Simpson's rule for cubics; the fixed-end forces of imposed curvatures up to degree two.
-/

namespace PyCBA

open MeasureTheory Set Filter Topology

/-! ### Simpson's rule -/

section
variable {K : Type*} [Field K] [LinearOrder K] [IsStrictOrderedRing K]

/-- Simpson's rule with any number of panels integrates a cubic exactly. -/
theorem simpson_cubic (m : ℕ) (hm : m ≠ 0) (f : K → K) (c0 c1 c2 c3 a b : K)
    (hf : ∀ x, f x = c0 + c1 * x + c2 * x ^ 2 + c3 * x ^ 3) :
    simpson m f a b = (c0 * b + c1 / 2 * b ^ 2 + c2 / 3 * b ^ 3 + c3 / 4 * b ^ 4)
      - (c0 * a + c1 / 2 * a ^ 2 + c2 / 3 * a ^ 3 + c3 / 4 * a ^ 4) := by
  unfold simpson
  simp only
  set h : K := (b - a) / (2 * m) with hh
  have hm' : (m : K) ≠ 0 := Nat.cast_ne_zero.2 hm
  let F : K → K := fun x => c0 * x + c1 / 2 * x ^ 2 + c2 / 3 * x ^ 3 + c3 / 4 * x ^ 4
  have key : ∀ n : ℕ, ((List.range n).map fun i : ℕ =>
      h / 3 * (f (a + (2 * i : ℕ) * h) + 4 * f (a + (2 * i + 1 : ℕ) * h)
        + f (a + (2 * i + 2 : ℕ) * h))).sum = F (a + 2 * n * h) - F a := by
    intro n
    induction n with
    | zero => simp
    | succ n ih =>
      rw [List.range_succ, List.map_append, List.sum_append, ih]
      simp only [List.map_cons, List.map_nil, List.sum_cons, List.sum_nil, hf, F]
      push_cast
      ring
  rw [key m]
  have : a + 2 * (m : K) * h = b := by
    rw [hh]; field_simp; ring
  rw [this]

/-- An imposed curvature of degree at most two. -/
theorem polyInc_quadratic (k : List K) (h : k.length ≤ 3) (x : K) :
    polyInc k x = k.getD 0 0 + k.getD 1 0 * x + k.getD 2 0 * x ^ 2 := by
  rcases k with _ | ⟨a, _ | ⟨b, _ | ⟨c, _ | ⟨d, k⟩⟩⟩⟩
  · simp [polyInc]
  · simp [polyInc]
  · simp [polyInc]; ring
  · simp [polyInc]; ring
  · simp only [List.length_cons] at h
    omega

/-- The fixed-end moments of an imposed curvature of degree at most two, in closed form. -/
theorem icEndMoments_quadratic (k : List K) (h : k.length ≤ 3) (EI L : K) (hL : L ≠ 0) :
    (icEndMoments k EI L).1 = EI * (k.getD 0 0 - k.getD 2 0 * L ^ 2 / 6) ∧
    (icEndMoments k EI L).2 = -EI * (k.getD 0 0 + k.getD 1 0 * L + k.getD 2 0 * L ^ 2 * 5 / 6) := by
  have e0 := simpson_cubic 1000 (by norm_num) (fun x => (1 - x / L) * polyInc k x)
    (k.getD 0 0) (k.getD 1 0 - k.getD 0 0 / L) (k.getD 2 0 - k.getD 1 0 / L) (-k.getD 2 0 / L) 0 L
    (fun x => by simp only [polyInc_quadratic k h]; field_simp; ring)
  have e1 := simpson_cubic 1000 (by norm_num) (fun x => -x / L * polyInc k x)
    0 (-k.getD 0 0 / L) (-k.getD 1 0 / L) (-k.getD 2 0 / L) 0 L
    (fun x => by simp only [polyInc_quadratic k h]; field_simp; ring)
  simp only [icEndMoments, e0, e1]
  constructor <;> field_simp <;> ring

end

/-! ### Fields of a shear-flexible member -/

/-- `ψ` and `w` are the section rotation and deflection of a member held at its left end
(`ψ 0 = w 0 = 0`), under a load and end moments `Ma`, `Mb`: bending moment and shear are the
simply supported ones plus those of the end moments; `ψ' = M / EI + κ` away from applied
couples and `w' = ψ - V / GAv` away from point actions (deflections upwards). -/
structure TimoField (ld : Load ℝ) (L EI GAv Ma Mb : ℝ) (ψ w : ℝ → ℝ) : Prop where
  contψ : Continuous ψ
  contw : Continuous w
  rot : ∀ x ∈ Ioo 0 L, x ∉ ld.couplePts →
    HasDerivAt ψ ((ld.ssM L x + ((Ma + Mb) / L * x - Ma)) / EI + ld.kappaImp x) x
  defl : ∀ x ∈ Ioo 0 L, x ∉ ld.pointActions →
    HasDerivAt w (ψ x - (ld.ssV L x + (Ma + Mb) / L) / GAv) x
  rot0 : ψ 0 = 0
  defl0 : w 0 = 0

theorem const_of_deriv_zero {f : ℝ → ℝ} {s : Set ℝ} {b : ℝ} (hb : 0 ≤ b) (hs : s.Countable)
    (hc : Continuous f) (hd : ∀ x ∈ Ioo 0 b, x ∉ s → HasDerivAt f 0 x) : f b = f 0 := by
  have := integral_eq_of_hasDerivAt_off_countable_of_le f (fun _ => 0) hb hs hc.continuousOn
    (fun x hx => hd x hx.1 hx.2) (by simp)
  simp at this
  linarith

theorem couplePts_countable (ld : Load ℝ) : ld.couplePts.Countable := by
  cases ld <;> simp [Load.couplePts]

theorem pointActions_countable (ld : Load ℝ) : ld.pointActions.Countable := by
  cases ld <;> simp [Load.pointActions]

/-- The fields are determined on the whole span. -/
theorem TimoField.unique {ld : Load ℝ} {L EI GAv Ma Mb : ℝ} {ψ w ψ' w' : ℝ → ℝ}
    (h : TimoField ld L EI GAv Ma Mb ψ w) (h' : TimoField ld L EI GAv Ma Mb ψ' w') (x : ℝ)
    (hx : 0 ≤ x) (hxL : x ≤ L) : ψ x = ψ' x ∧ w x = w' x := by
  have hψ : ∀ x, 0 ≤ x → x ≤ L → ψ x = ψ' x := by
    intro x hx hxL
    have := const_of_deriv_zero hx (couplePts_countable ld) (h.contψ.sub h'.contψ)
      (fun y hy hys => ((h.rot y ⟨hy.1, hy.2.trans_le hxL⟩ hys).sub
        (h'.rot y ⟨hy.1, hy.2.trans_le hxL⟩ hys)).congr_deriv (by ring))
    simp only [Pi.sub_apply, h.rot0, h'.rot0] at this
    linarith
  refine ⟨hψ x hx hxL, ?_⟩
  have := const_of_deriv_zero hx (pointActions_countable ld) (h.contw.sub h'.contw)
    (fun y hy hys => ((h.defl y ⟨hy.1, hy.2.trans_le hxL⟩ hys).sub
      (h'.defl y ⟨hy.1, hy.2.trans_le hxL⟩ hys)).congr_deriv (by
        rw [hψ y hy.1.le (hy.2.le.trans hxL)]; ring))
  simp only [Pi.sub_apply, h.defl0, h'.defl0] at this
  linarith

/-- The end moments and shears clamp the member: the fields exist and end with zero rotation
and deflection. -/
def Clamps (ld : Load ℝ) (L EI GAv : ℝ) (c : CNL ℝ) : Prop :=
  (∃ ψ w, TimoField ld L EI GAv c.Ma c.Mb ψ w) ∧
    ∀ ψ w, TimoField ld L EI GAv c.Ma c.Mb ψ w → ψ L = 0 ∧ w L = 0

theorem ssM_eq_ss (ld : Load ℝ) (L x : ℝ) : ld.ssM L x = (ld.ss L x).M := by
  unfold Load.ssM Load.ss
  cases ld.stn L x <;> rfl

theorem ssV_eq_ss (ld : Load ℝ) (L x : ℝ) : ld.ssV L x = (ld.ss L x).V := by
  unfold Load.ssV Load.ss
  cases ld.stn L x <;> rfl

theorem kappaImp_mech (ld : Load ℝ) (hm : ld.IsMechanical) (x : ℝ) : ld.kappaImp x = 0 := by
  cases ld with
  | ic => exact hm.elim
  | _ => rfl

theorem Member.cnl_mech (m : Member ℝ) (ld : Load ℝ) (hm : ld.IsMechanical) {c : CNL ℝ}
    (h : ld.getCnl m.L = .ok (.cnl c)) : m.cnl ld = .ok c := by
  cases ld with
  | ic => exact hm.elim
  | _ => simp only [Member.cnl, h]

/-- Continuity of the reported bending moment (C09): everywhere but at an applied couple. -/
theorem ss_M_continuous (ld : Load ℝ) (L : ℝ) (hm : ld.IsMechanical) (hn : ∀ m a, ld ≠ .ml m a) :
    Continuous fun x => (ld.ss L x).M := by
  cases ld with
  | udl w =>
    simp only [Load.ss, Load.stn, udlStn]
    fun_prop
  | pl P a =>
    simp only [Load.ss, Load.stn, plStn]
    have := continuous_mb a
    fun_prop
  | pudl w a c =>
    simp only [Load.ss, Load.stn, pudlStn]
    have := continuous_mb a
    have := continuous_mb (c + a)
    fun_prop
  | trapez w1 w2 a c =>
    rcases trapez_cases w1 w2 a c L with
      ⟨hv, e, hg⟩ | ⟨w2', c', h1, hc0, hc, hb, hc', hw, e, hg⟩
    · simp only [e]
      fun_prop
    · simp only [e, trapezStn]
      have := continuous_mb a
      have := continuous_mb (a + c')
      fun_prop
  | mamb Ma Mb =>
    simp only [Load.ss, Load.stn, mambStn]
    fun_prop
  | ml m a => exact absurd rfl (hn m a)
  | ic => exact hm.elim

/-- **C09** (continuity): the moment diagram of every load is continuous at every station
where no couple is applied. -/
theorem C09_moment_continuous (ld : Load ℝ) (L : ℝ) (hm : ld.IsMechanical) (x : ℝ)
    (hx : x ∉ ld.couplePts) : ContinuousAt (fun y => (ld.ss L y).M) x := by
  by_cases hn : ∀ m a, ld ≠ .ml m a
  · exact (ss_M_continuous ld L hm hn).continuousAt
  · push Not at hn
    obtain ⟨m, a, rfl⟩ := hn
    have hxa : x ≠ a := hx
    have hs := fun v : ℝ => (hasDerivAt_hv hxa v).continuousAt
    simp only [Load.ss, Load.stn, mlStn]
    by_cases h1 : a = 0
    · simp only [if_pos h1]
      exact ((continuous_const.mul continuous_id).continuousAt).sub (continuousAt_const.mul (hs _))
    · by_cases h2 : a = L
      · simp only [if_neg h1, if_pos h2]
        exact ((continuous_const.mul continuous_id).continuousAt).sub (continuousAt_const.mul (hs _))
      · simp only [if_neg h1, if_neg h2]
        exact ((continuous_const.mul continuous_id).continuousAt).sub (continuousAt_const.mul (hs _))

theorem ss_R_continuous (ld : Load ℝ) (L : ℝ) (hL : 0 < L) (h : ld.OnSpan L) (hm : ld.IsMechanical) :
    Continuous fun x => (ld.ss L x).R := by
  have hR := (C10_rotation_deflection_diagrams ld L hL h hm).2.1
  cases ld with
  | ml m a =>
    simp only [Load.ss, Load.stn, mlStn]
    have := continuous_mb a
    fun_prop
  | ic => exact hm.elim
  | _ => exact continuous_iff_continuousAt.mpr fun x => (hR x (by simp [Load.couplePts])).continuousAt

/-- The fixed-end moments of `_ref_timoshenko` and the condition they were made to meet. -/
theorem refTimoFF_moments (c : CNL ℝ) (EI GAv L : ℝ) (hE : 0 < EI) (hG : 0 < GAv) (hL : 0 < L) :
    ∃ d, (refTimoFF c EI GAv L).Ma = c.Ma + d ∧ (refTimoFF c EI GAv L).Mb = c.Mb + d ∧
      -(d * L / 6) * L / EI = (c.Ma + c.Mb + 2 * d) / GAv := by
  have hp : (1 : ℝ) + 12 * EI / (GAv * L ^ 2) ≠ 0 := by positivity
  have hp' : GAv * L ^ 2 + 12 * EI ≠ 0 := by positivity
  refine ⟨-(12 * EI / (GAv * L ^ 2)) * (c.Ma + c.Mb) / (2 * (1 + 12 * EI / (GAv * L ^ 2))), ?_, ?_, ?_⟩
  · simp only [refTimoFF, refFF]
    field_simp
    ring
  · simp only [refTimoFF, refFF]
    field_simp
    ring
  · field_simp
    ring

theorem member_ref_timo (ld : Load ℝ) (L EI GAv : ℝ) {c : CNL ℝ}
    (h : (⟨.const EI, L, .FF, some (.const GAv)⟩ : Member ℝ).cnl ld = .ok c) :
    (⟨.const EI, L, .FF, some (.const GAv)⟩ : Member ℝ).ref ld = .ok (refTimoFF c EI GAv L) := by
  simp only [Member.ref, h, releaseRef]

/-- **C76** (loads without couples): the fixed-end forces of a shear-flexible prismatic member
clamp both ends, in bending and in shear.  `LoadMaMb` states its end moments itself.  Couples:
`C76_couple_violation`; imposed curvature: `C76_curvature_partial`. -/
theorem C76_clamped_partial (ld : Load ℝ) (L EI GAv : ℝ) (hL : 0 < L) (hE : 0 < EI) (hG : 0 < GAv)
    (h : ld.OnSpan L) (hm : ld.IsMechanical) (hn : ∀ Ma Mb, ld ≠ .mamb Ma Mb)
    (hml : ∀ m a, ld ≠ .ml m a) :
    ∃ r, (⟨.const EI, L, .FF, some (.const GAv)⟩ : Member ℝ).ref ld = .ok r ∧
      Clamps ld L EI GAv r := by
  obtain ⟨c, hc, r0, rL⟩ := clamped_rotations ld L hL h hm hn
  obtain ⟨_, hR, hD, d0, dL⟩ := C10_rotation_deflection_diagrams ld L hL h hm
  obtain ⟨_, hM, _, hM0⟩ := C09_shear_moment_diagrams ld L hL h hm
  have hEC : ¬ ld.EndCouple L := by
    cases ld <;> simp [Load.EndCouple]
    exact absurd rfl (hml _ _)
  have hem : ld.endMoments = (0, 0) := by
    cases ld <;> simp [Load.endMoments]
    exact absurd rfl (hn _ _)
  obtain ⟨m0, mL⟩ := hM0 hEC
  rw [hem] at m0 mL
  simp only [neg_zero] at m0 mL
  obtain ⟨d, hMa, hMb, hd⟩ := refTimoFF_moments c EI GAv L hE hG hL
  refine ⟨_, member_ref_timo ld L EI GAv (Member.cnl_mech _ ld hm hc), ?_⟩
  have hcR := ss_R_continuous ld L hL h hm
  have hcM := ss_M_continuous ld L hm hml
  have hcD : Continuous fun x => (ld.ss L x).D :=
    continuous_iff_continuousAt.mpr fun x => (hD x).continuousAt
  rw [Clamps, hMa, hMb]
  set Ma := c.Ma + d with hMa'
  set Mb := c.Mb + d with hMb'
  -- explicit fields
  let ψ : ℝ → ℝ := fun x => ((ld.ss L x).R - (ld.ss L 0).R + ((Ma + Mb) / L / 2 * x ^ 2 - Ma * x)) / EI
  let w : ℝ → ℝ := fun x => ((ld.ss L x).D - (ld.ss L 0).R * x + ((Ma + Mb) / L / 6 * x ^ 3 - Ma / 2 * x ^ 2)) / EI
    - ((ld.ss L x).M + (Ma + Mb) / L * x) / GAv
  have hf : TimoField ld L EI GAv Ma Mb ψ w := by
    refine ⟨by fun_prop, by fun_prop, fun x hx hxc => ?_, fun x hx hxp => ?_, by simp [ψ], ?_⟩
    · rw [ssM_eq_ss, kappaImp_mech ld hm]
      refine ((((hR x hxc).sub_const _).add ((((hasDerivAt_pow 2 x).const_mul _)).sub
        ((hasDerivAt_id x).const_mul Ma))).div_const EI).congr_deriv ?_
      simp only [Nat.cast_ofNat, Nat.add_one_sub_one, pow_one]
      ring
    · rw [ssV_eq_ss]
      refine ((((((hD x).sub ((hasDerivAt_id x).const_mul (ld.ss L 0).R)).add
        (((hasDerivAt_pow 3 x).const_mul ((Ma + Mb) / L / 6)).sub
        ((hasDerivAt_pow 2 x).const_mul (Ma / 2)))).div_const EI)).sub
        (((hM x hxp).add ((hasDerivAt_id x).const_mul ((Ma + Mb) / L))).div_const GAv)).congr_deriv ?_
      simp only [Nat.cast_ofNat, Nat.add_one_sub_one, pow_one, ψ]
      ring
    · simp [w, d0, m0]
  refine ⟨⟨ψ, w, hf⟩, fun ψ' w' hf' => ?_⟩
  obtain ⟨e1, e2⟩ := hf'.unique hf L hL.le le_rfl
  rw [e1, e2]
  simp only [mambStn] at r0 rL
  have hr0 : (ld.ss L 0).R = -(c.Ma * L / 3 - c.Mb * L / 6) := by linarith
  have hrL : (ld.ss L L).R = c.Ma * L / 6 - c.Mb * L / 3 := by
    have : (c.Ma + c.Mb) / L / 2 * L ^ 2 = (c.Ma + c.Mb) * L / 2 := by field_simp
    linarith
  constructor
  · simp only [ψ, hr0, hrL, hMa', hMb']
    field_simp
    ring
  · simp only [w, dL, mL, hr0, hMa', hMb']
    have e3 : ((0 : ℝ) + (c.Ma + d + (c.Mb + d)) / L * L) / GAv = (c.Ma + c.Mb + 2 * d) / GAv := by
      field_simp
      ring
    rw [e3, ← hd]
    field_simp
    ring

/-- **C76 fails** (couples): for every couple on the span the fixed-end forces leave the
right end displaced by `-m / GAv`; the shear of the simply supported span was left out. -/
theorem C76_couple_violation (m a L EI GAv : ℝ) (hL : 0 < L) (hE : 0 < EI) (hG : 0 < GAv)
    (h0 : 0 ≤ a) (h1 : a ≤ L) (hm0 : m ≠ 0) :
    ∃ r, (⟨.const EI, L, .FF, some (.const GAv)⟩ : Member ℝ).ref (.ml m a) = .ok r ∧
      (∃ ψ w, TimoField (.ml m a) L EI GAv r.Ma r.Mb ψ w) ∧
      ∀ ψ w, TimoField (.ml m a) L EI GAv r.Ma r.Mb ψ w → w L = -(m / GAv) ∧ w L ≠ 0 := by
  have h : (Load.ml m a).OnSpan L := ⟨h0, h1⟩
  obtain ⟨c, hc, r0, rL⟩ := clamped_rotations (.ml m a) L hL h trivial (by intro _ _ h; cases h)
  obtain ⟨_, hR, hD, d0, dL⟩ := C10_rotation_deflection_diagrams (.ml m a) L hL h trivial
  obtain ⟨d, hMa, hMb, hd⟩ := refTimoFF_moments c EI GAv L hE hG hL
  refine ⟨_, member_ref_timo _ L EI GAv (Member.cnl_mech _ (.ml m a) trivial hc), ?_⟩
  rw [hMa, hMb]
  have hcR := ss_R_continuous (.ml m a) L hL h trivial
  set ld := Load.ml m a with hld
  have hcD : Continuous fun x => (ld.ss L x).D :=
    continuous_iff_continuousAt.mpr fun x => (hD x).continuousAt
  set Ma := c.Ma + d with hMa'
  set Mb := c.Mb + d with hMb'
  let ψ : ℝ → ℝ := fun x => ((ld.ss L x).R - (ld.ss L 0).R + ((Ma + Mb) / L / 2 * x ^ 2 - Ma * x)) / EI
  let w : ℝ → ℝ := fun x => ((ld.ss L x).D - (ld.ss L 0).R * x + ((Ma + Mb) / L / 6 * x ^ 3 - Ma / 2 * x ^ 2)) / EI
    - (m / L + (Ma + Mb) / L) * x / GAv
  have hf : TimoField ld L EI GAv Ma Mb ψ w := by
    refine ⟨by fun_prop, by fun_prop, fun x hx hxc => ?_, fun x hx hxp => ?_, by simp [ψ], ?_⟩
    · rw [ssM_eq_ss, kappaImp_mech ld trivial]
      refine ((((hR x hxc).sub_const _).add ((((hasDerivAt_pow 2 x).const_mul _)).sub
        ((hasDerivAt_id x).const_mul Ma))).div_const EI).congr_deriv ?_
      simp only [Nat.cast_ofNat, Nat.add_one_sub_one, pow_one]
      ring
    · have hV : ld.ssV L x = m / L := rfl
      rw [hV]
      refine ((((((hD x).sub ((hasDerivAt_id x).const_mul (ld.ss L 0).R)).add
        (((hasDerivAt_pow 3 x).const_mul ((Ma + Mb) / L / 6)).sub
        ((hasDerivAt_pow 2 x).const_mul (Ma / 2)))).div_const EI)).sub
        (((hasDerivAt_id x).const_mul (m / L + (Ma + Mb) / L)).div_const GAv)).congr_deriv ?_
      simp only [Nat.cast_ofNat, Nat.add_one_sub_one, pow_one, ψ]
      ring
    · simp [w, d0]
  refine ⟨⟨ψ, w, hf⟩, fun ψ' w' hf' => ?_⟩
  have key : w' L = -(m / GAv) := by
    rw [(hf'.unique hf L hL.le le_rfl).2]
    simp only [mambStn] at r0
    have hr0 : (ld.ss L 0).R = -(c.Ma * L / 3 - c.Mb * L / 6) := by linarith
    simp only [w, dL, hr0, hMa', hMb']
    have e3 : (m / L + (c.Ma + d + (c.Mb + d)) / L) * L / GAv
        = m / GAv + (c.Ma + c.Mb + 2 * d) / GAv := by
      field_simp
      ring
    rw [e3, ← hd]
    field_simp
    ring
  refine ⟨key, ?_⟩
  rw [key, neg_ne_zero]
  exact div_ne_zero hm0 hG.ne'

theorem polyInc_hasDeriv (k : List ℝ) (h : k.length ≤ 3) (x : ℝ) :
    HasDerivAt (fun y => k.getD 0 0 * y + k.getD 1 0 / 2 * y ^ 2 + k.getD 2 0 / 3 * y ^ 3)
      (polyInc k x) x := by
  refine ((((hasDerivAt_id x).const_mul _).add ((hasDerivAt_pow 2 x).const_mul _)).add
    ((hasDerivAt_pow 3 x).const_mul _)).congr_deriv ?_
  rw [polyInc_quadratic k h]
  simp only [Nat.cast_ofNat, Nat.add_one_sub_one, pow_one]
  ring

/-- **C76** (imposed curvature up to degree two; beyond it Simpson's rule is not exact): the
fixed-end forces of a shear-flexible prismatic member clamp both ends. -/
theorem C76_curvature_partial (k : List ℝ) (hk : k.length ≤ 3) (E : Option ℝ) (L EI GAv : ℝ)
    (hL : 0 < L) (hE : 0 < EI) (hG : 0 < GAv) :
    ∃ r, (⟨.const EI, L, .FF, some (.const GAv)⟩ : Member ℝ).ref (.ic k E) = .ok r ∧
      Clamps (.ic k E) L EI GAv r := by
  refine ⟨_, member_ref_timo _ L EI GAv rfl, ?_⟩
  obtain ⟨d, hMa, hMb, hd⟩ := refTimoFF_moments (icCnl k EI L) EI GAv L hE hG hL
  obtain ⟨ea, eb⟩ := icEndMoments_quadratic k hk EI L hL.ne'
  have ea' : (icCnl k EI L).Ma = EI * (k.getD 0 0 - k.getD 2 0 * L ^ 2 / 6) := ea
  have eb' : (icCnl k EI L).Mb = -EI * (k.getD 0 0 + k.getD 1 0 * L + k.getD 2 0 * L ^ 2 * 5 / 6) := eb
  rw [ea', eb'] at hd
  rw [ea'] at hMa
  rw [eb'] at hMb
  rw [Clamps, hMa, hMb]
  set Ma := EI * (k.getD 0 0 - k.getD 2 0 * L ^ 2 / 6) + d with hMa'
  set Mb := -EI * (k.getD 0 0 + k.getD 1 0 * L + k.getD 2 0 * L ^ 2 * 5 / 6) + d with hMb'
  let ψ : ℝ → ℝ := fun x => ((Ma + Mb) / L / 2 * x ^ 2 - Ma * x) / EI
    + (k.getD 0 0 * x + k.getD 1 0 / 2 * x ^ 2 + k.getD 2 0 / 3 * x ^ 3)
  let w : ℝ → ℝ := fun x => ((Ma + Mb) / L / 6 * x ^ 3 - Ma / 2 * x ^ 2) / EI
    + (k.getD 0 0 / 2 * x ^ 2 + k.getD 1 0 / 6 * x ^ 3 + k.getD 2 0 / 12 * x ^ 4)
    - (Ma + Mb) / L * x / GAv
  have hf : TimoField (.ic k E) L EI GAv Ma Mb ψ w := by
    refine ⟨by fun_prop, by fun_prop, fun x hx hxc => ?_, fun x hx hxp => ?_, by simp [ψ], by simp [w]⟩
    · have h0 : (Load.ic k E).ssM L x = 0 := rfl
      have h1 : (Load.ic k E).kappaImp x = polyInc k x := rfl
      rw [h0, h1]
      refine (((((hasDerivAt_pow 2 x).const_mul _)).sub
        ((hasDerivAt_id x).const_mul Ma)).div_const EI).add (polyInc_hasDeriv k hk x) |>.congr_deriv ?_
      simp only [Nat.cast_ofNat, Nat.add_one_sub_one, pow_one]
      ring
    · have h0 : (Load.ic k E).ssV L x = 0 := rfl
      rw [h0]
      refine (((((((hasDerivAt_pow 3 x).const_mul ((Ma + Mb) / L / 6)).sub
        ((hasDerivAt_pow 2 x).const_mul (Ma / 2)))).div_const EI).add
        ((((hasDerivAt_pow 2 x).const_mul (k.getD 0 0 / 2)).add
          ((hasDerivAt_pow 3 x).const_mul (k.getD 1 0 / 6))).add
          ((hasDerivAt_pow 4 x).const_mul (k.getD 2 0 / 12)))).sub
        (((hasDerivAt_id x).const_mul ((Ma + Mb) / L)).div_const GAv)).congr_deriv ?_
      simp only [Nat.cast_ofNat, Nat.add_one_sub_one, pow_one, ψ]
      ring
  refine ⟨⟨ψ, w, hf⟩, fun ψ' w' hf' => ?_⟩
  obtain ⟨e1, e2⟩ := hf'.unique hf L hL.le le_rfl
  rw [e1, e2]
  constructor
  · simp only [ψ, hMa', hMb']
    field_simp
    ring
  · simp only [w]
    have e3 : (Ma + Mb) / L * L / GAv = -(d * L / 6) * L / EI := by
      rw [hd, hMa', hMb']
      field_simp
      ring
    rw [e3]
    simp only [hMa', hMb']
    field_simp
    ring

/-- **C02** (imposed curvature up to degree two): the fixed-end moments make the total
curvature, imposed plus elastic, have zero area and zero first moment over the span. -/
theorem C02_curvature_partial (k : List ℝ) (hk : k.length ≤ 3) (L EI : ℝ) (hL : 0 < L) (hE : 0 < EI) :
    ∃ c, (Load.ic k (some EI)).getCnl L = .ok (.cnl c) ∧
      (∫ x in (0 : ℝ)..L, polyInc k x + ((c.Ma + c.Mb) / L * x - c.Ma) / EI) = 0 ∧
      (∫ x in (0 : ℝ)..L, x * (polyInc k x + ((c.Ma + c.Mb) / L * x - c.Ma) / EI)) = 0 := by
  refine ⟨_, rfl, ?_⟩
  obtain ⟨ea, eb⟩ := icEndMoments_quadratic k hk EI L hL.ne'
  have ea' : (icCnl k EI L).Ma = EI * (k.getD 0 0 - k.getD 2 0 * L ^ 2 / 6) := ea
  have eb' : (icCnl k EI L).Mb = -EI * (k.getD 0 0 + k.getD 1 0 * L + k.getD 2 0 * L ^ 2 * 5 / 6) := eb
  rw [ea', eb']
  set Ma := EI * (k.getD 0 0 - k.getD 2 0 * L ^ 2 / 6) with hMa'
  set Mb := -EI * (k.getD 0 0 + k.getD 1 0 * L + k.getD 2 0 * L ^ 2 * 5 / 6) with hMb'
  have hp : ∀ x, polyInc k x = k.getD 0 0 + k.getD 1 0 * x + k.getD 2 0 * x ^ 2 := polyInc_quadratic k hk
  simp only [hp]
  constructor
  · rw [intervalIntegral.integral_eq_sub_of_hasDerivAt (f := fun x => k.getD 0 0 * x
      + k.getD 1 0 / 2 * x ^ 2 + k.getD 2 0 / 3 * x ^ 3 + ((Ma + Mb) / L / 2 * x ^ 2 - Ma * x) / EI)
      (fun x _ => ?_) ((by fun_prop : Continuous _).intervalIntegrable _ _)]
    · simp only [hMa', hMb']
      field_simp
      ring
    · refine ((((hasDerivAt_id x).const_mul _).add ((hasDerivAt_pow 2 x).const_mul _)).add
        ((hasDerivAt_pow 3 x).const_mul _)).add ((((hasDerivAt_pow 2 x).const_mul _).sub
        ((hasDerivAt_id x).const_mul Ma)).div_const EI) |>.congr_deriv ?_
      simp only [Nat.cast_ofNat, Nat.add_one_sub_one, pow_one]
      ring
  · rw [intervalIntegral.integral_eq_sub_of_hasDerivAt (f := fun x => k.getD 0 0 / 2 * x ^ 2
      + k.getD 1 0 / 3 * x ^ 3 + k.getD 2 0 / 4 * x ^ 4 + ((Ma + Mb) / L / 3 * x ^ 3 - Ma / 2 * x ^ 2) / EI)
      (fun x _ => ?_) ((by fun_prop : Continuous _).intervalIntegrable _ _)]
    · simp only [hMa', hMb']
      field_simp
      ring
    · refine ((((hasDerivAt_pow 2 x).const_mul _).add ((hasDerivAt_pow 3 x).const_mul _)).add
        ((hasDerivAt_pow 4 x).const_mul _)).add ((((hasDerivAt_pow 3 x).const_mul _).sub
        ((hasDerivAt_pow 2 x).const_mul (Ma / 2))).div_const EI) |>.congr_deriv ?_
      simp only [Nat.cast_ofNat, Nat.add_one_sub_one, pow_one]
      ring

/-- The hypotheses of C76 hold for an eccentric point load, and the clamping moments differ
from the slender ones. -/
example : (Load.pl (60 : ℝ) 1).OnSpan 6 ∧
    (refTimoFF (plCnl (60 : ℝ) 1 6) 3 1 6).Ma ≠ (plCnl (60 : ℝ) 1 6).Ma := by
  refine ⟨⟨by norm_num, by norm_num⟩, ?_⟩
  norm_num [refTimoFF, refFF, plCnl]

end PyCBA
