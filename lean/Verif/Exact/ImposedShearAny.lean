import Verif.Exact.ImposedAny
import Verif.Exact.ImposedShear

set_option linter.unusedSectionVars false
set_option linter.unusedSimpArgs false

/-!
C146 for slender and shear-flexible prismatic members, also pinned at both ends: with imposed
curvatures of any degree, the distance of the reported displacements and end forces from the one
solution of the continuous problem is bounded.
-/

namespace PyCBA

open MeasureTheory Set Matrix

/-! ### The release step as a linear map -/

/-- `releaseRef` for a member with fixed-fixed stiffness `k`. -/
noncomputable def relOf (k : Mat4 ℝ) (c : CNL ℝ) (L : ℝ) : EType → CNL ℝ
  | .FF => c
  | .PP => ⟨c.Va + (c.Ma + c.Mb) / L, 0, c.Vb - (c.Ma + c.Mb) / L, 0⟩
  | .FP => ⟨c.Va - k 0 3 * (c.Mb / k 3 3), c.Ma - k 1 3 * (c.Mb / k 3 3), c.Vb - k 2 3 * (c.Mb / k 3 3),
      c.Mb - k 3 3 * (c.Mb / k 3 3)⟩
  | .PF => ⟨c.Va - k 0 1 * (c.Ma / k 1 1), c.Ma - k 1 1 * (c.Ma / k 1 1), c.Vb - k 2 1 * (c.Ma / k 1 1),
      c.Mb - k 3 1 * (c.Ma / k 1 1)⟩

/-- What `get_ref` makes of clamped forces on a prismatic member. -/
noncomputable def Member.relT (m : Member ℝ) (c : CNL ℝ) : CNL ℝ :=
  match m.GAv with
  | some (.const g) => relOf (kFFtimo m.EI.value g m.L) (refTimoFF c m.EI.value g m.L) m.L m.et
  | _ => releaseCnl c m.L m.et

theorem Member.relT_vec (m : Member ℝ) (c : CNL ℝ) (q : Fin 4) :
    (m.relT c).vec q = c.Va * (m.relT ⟨1, 0, 0, 0⟩).vec q + c.Ma * (m.relT ⟨0, 1, 0, 0⟩).vec q
      + c.Vb * (m.relT ⟨0, 0, 1, 0⟩).vec q + c.Mb * (m.relT ⟨0, 0, 0, 1⟩).vec q := by
  obtain ⟨EI, L, et, GAv⟩ := m
  have slender : ∀ q, (releaseCnl c L et).vec q = c.Va * (releaseCnl ⟨1, 0, 0, 0⟩ L et).vec q
      + c.Ma * (releaseCnl ⟨0, 1, 0, 0⟩ L et).vec q + c.Vb * (releaseCnl ⟨0, 0, 1, 0⟩ L et).vec q
      + c.Mb * (releaseCnl ⟨0, 0, 0, 1⟩ L et).vec q := by
    intro q
    cases et <;> fin_cases q <;> simp [CNL.vec, releaseCnl] <;> ring
  cases GAv with
  | none => exact slender q
  | some G =>
    cases G with
    | «section» s => exact slender q
    | const g =>
      simp only [Member.relT]
      generalize kFFtimo EI.value g L = k
      generalize EI.value = e
      cases et <;> fin_cases q <;> simp [CNL.vec, relOf, refTimoFF, refFF] <;> ring

/-- Sum of the magnitudes of the entries of the release step. -/
noncomputable def Member.relNorm (m : Member ℝ) : ℝ :=
  ∑ q : Fin 4, (|(m.relT ⟨1, 0, 0, 0⟩).vec q| + |(m.relT ⟨0, 1, 0, 0⟩).vec q|
    + |(m.relT ⟨0, 0, 1, 0⟩).vec q| + |(m.relT ⟨0, 0, 0, 1⟩).vec q|)

theorem Member.relNorm_nonneg (m : Member ℝ) : 0 ≤ m.relNorm :=
  Finset.sum_nonneg fun q _ => by positivity

theorem Member.relT_err (m : Member ℝ) {c x : CNL ℝ} {δ : ℝ} (hδ : 0 ≤ δ)
    (h0 : |c.Va - x.Va| ≤ δ) (h1 : |c.Ma - x.Ma| ≤ δ) (h2 : |c.Vb - x.Vb| ≤ δ)
    (h3 : |c.Mb - x.Mb| ≤ δ) (q : Fin 4) :
    |(m.relT c).vec q - (m.relT x).vec q| ≤ m.relNorm * δ := by
  rw [m.relT_vec c, m.relT_vec x]
  set a := (m.relT ⟨1, 0, 0, 0⟩).vec q with ha
  set b := (m.relT ⟨0, 1, 0, 0⟩).vec q with hb
  set d := (m.relT ⟨0, 0, 1, 0⟩).vec q with hd
  set f := (m.relT ⟨0, 0, 0, 1⟩).vec q with hf
  have hle : |a| + |b| + |d| + |f| ≤ m.relNorm := by
    have := Finset.single_le_sum (f := fun q : Fin 4 => |(m.relT ⟨1, 0, 0, 0⟩).vec q|
      + |(m.relT ⟨0, 1, 0, 0⟩).vec q| + |(m.relT ⟨0, 0, 1, 0⟩).vec q| + |(m.relT ⟨0, 0, 0, 1⟩).vec q|)
      (fun q _ => by positivity) (Finset.mem_univ q)
    exact this
  have t : ∀ y z : ℝ, |y| ≤ δ → |y * z| ≤ |z| * δ := by
    intro y z h
    rw [abs_mul, mul_comm]
    exact mul_le_mul_of_nonneg_left h (abs_nonneg _)
  have e : c.Va * a + c.Ma * b + c.Vb * d + c.Mb * f - (x.Va * a + x.Ma * b + x.Vb * d + x.Mb * f)
      = (c.Va - x.Va) * a + (c.Ma - x.Ma) * b + (c.Vb - x.Vb) * d + (c.Mb - x.Mb) * f := by ring
  rw [e]
  refine ((abs_add_le _ _).trans (add_le_add ((abs_add_le _ _).trans (add_le_add (abs_add_le _ _)
    le_rfl)) le_rfl)).trans ?_
  have := mul_le_mul_of_nonneg_right hle hδ
  linarith [t _ a h0, t _ b h1, t _ d h2, t _ f h3]

/-! ### One member -/

/-- Slender or shear-flexible, and prismatic. -/
def Member.Uniform (m : Member ℝ) : Prop :=
  0 < m.L ∧ (∃ e, 0 < e ∧ m.EI = .const e) ∧ (m.GAv = none ∨ ∃ g, 0 < g ∧ m.GAv = some (.const g))

theorem Member.Uniform.good {m : Member ℝ} (h : m.Uniform) : m.Good := by
  obtain ⟨hL, ⟨e, he, hEI⟩, hG⟩ := h
  refine ⟨hL, by rw [hEI]; exact he, fun g hg => ?_⟩
  rcases hG with hG | ⟨g', hg', hG⟩
  · rw [hG] at hg; cases hg
  · rw [hG] at hg; cases hg; exact hg'

theorem kFFtimo_diag {e g L : ℝ} (he : 0 < e) (hg : 0 < g) (hL : 0 < L) :
    kFFtimo e g L 1 1 ≠ 0 ∧ kFFtimo e g L 3 3 ≠ 0 ∧ kTimoshenko (.const e) (.const g) L .FF = .ok (kFFtimo e g L) := by
  obtain ⟨Kth', h1, h2⟩ := kFFtimo_eq e g L he hg hL
  refine ⟨?_, ?_, by simp only [kTimoshenko, h1, condenseFor, ← h2]⟩ <;>
  · simp [kFFtimo]
    refine ⟨⟨?_, ?_, ?_⟩, ?_⟩ <;> positivity

/-- The forces `get_ref` gives are the release of the clamped ones. -/
theorem Member.ref_relT {m : Member ℝ} (h : m.Uniform) {ld : Load ℝ} {c c' : CNL ℝ}
    (hc : m.cnl ld = .ok c) (hr : m.ref ld = .ok c') : c' = m.relT c := by
  obtain ⟨hL, ⟨e, he, hEI⟩, hG⟩ := h
  rcases hG with hG | ⟨g, hg, hG⟩
  · simp only [Member.ref, hc, hG, hEI] at hr
    simp only [Member.relT, hG]
    exact (Except.ok.inj hr).symm
  · obtain ⟨k1, k3, kt⟩ := kFFtimo_diag he hg hL
    simp only [Member.ref, hc, hG, hEI, kt] at hr
    simp only [Member.relT, hG, hEI, Rigidity.value]
    generalize m.et = et at *
    cases et with
    | FF => exact (Except.ok.inj hr).symm
    | PP => exact (Except.ok.inj hr).symm
    | FP =>
      simp only [releaseRef, k3, if_false] at hr
      exact (Except.ok.inj hr).symm
    | PF =>
      simp only [releaseRef, k1, if_false] at hr
      exact (Except.ok.inj hr).symm

theorem Member.refSum_relT {m : Member ℝ} (h : m.Uniform) (i : ℕ) (ls : List (SpanLoad ℝ)) {e : ℝ}
    (hcn : ∀ l ∈ ls, l.iSpan = (i : ℤ) → m.cnl l.load = .ok (l.load.clampedE e m.L)) (t : CNL ℝ)
    (ht : m.refSum i ls = .ok t) : t.vec = (m.relT (clampedSumE e m.L (ownLoads i ls))).vec := by
  have key : ∀ (q : Fin 4), t.vec q = (m.relT (clampedSumE e m.L (ownLoads i ls))).vec q := by
    intro q
    rw [m.refSum_lin i (fun c => c.vec q) (by fin_cases q <;> rfl) (fun c t => by fin_cases q <;> rfl)
      (fun l => (m.relT (l.load.clampedE e m.L)).vec q) ls
      (fun l hl hli c hc => by rw [Member.ref_relT h (hcn l hl hli) hc]) t ht, m.relT_vec]
    have := sum_clampedE e m.L (ownLoads i ls) (fun ld => (m.relT (ld.clampedE e m.L)).vec q)
      ((m.relT ⟨1, 0, 0, 0⟩).vec q) ((m.relT ⟨0, 1, 0, 0⟩).vec q) ((m.relT ⟨0, 0, 1, 0⟩).vec q)
      ((m.relT ⟨0, 0, 0, 1⟩).vec q) (fun ld _ => by rw [m.relT_vec]; ring)
    simp only [ownLoads, List.map_map, Function.comp_def] at this ⊢
    rw [this]
    ring
  exact funext key

/-- The released forces of a member, as forces of the clamped slender member whose end deflections
are the bending parts. -/
theorem Member.relT_iff {m : Member ℝ} (h : m.Uniform) {e : ℝ} (he : m.EI = .const e) {kr : Mat4 ℝ}
    (hkr : m.spanK = .ok kr) (C : CNL ℝ) (w : ℝ) (hPP : m.et = .PP → C.Ma + C.Mb = 0)
    (hw : m.et ≠ .PP → m.shearFlex * w = 0) (d F : Vec4 ℝ) :
    F = kr *ᵥ d + (m.relT C).vec ↔ ∃ d' : Vec4 ℝ,
      (∀ p, p ∉ m.et.released → d' p = d p) ∧ (∀ r ∈ m.et.released, F r = 0) ∧
      F = kFF e m.L *ᵥ ![d' 0 - m.shearFlex * F 1, d' 1, d' 2 + m.shearFlex * (F 3 + w), d' 3]
        + C.vec := by
  have hgood := h.good
  obtain ⟨hL, ⟨e', hepos, hEI⟩, hG⟩ := h
  rw [he] at hEI
  cases hEI
  obtain ⟨kff, kr', f1, f2, f3, _⟩ := C14_release_is_condensation m hgood
  obtain rfl : kr' = kr := Except.ok.inj (f2.symm.trans hkr)
  by_cases hpp : m.et = .PP
  · have hbal := hPP hpp
    have key := release_iff hepos hL .PP C (fun _ => hbal) F ![d 0, 0, d 2 + m.shearFlex * w, 0]
    have e1 : kr' *ᵥ d + (m.relT C).vec = kOf e m.L .PP *ᵥ ![d 0, 0, d 2 + m.shearFlex * w, 0]
        + (releaseCnl C m.L .PP).vec := by
      have k0 : kr' *ᵥ d = 0 := by
        rcases hG with hG | ⟨g, hg, hG⟩
        · simp only [Member.spanK, hG, he, hpp, Except.ok.injEq] at hkr
          rw [← hkr]
          ext p
          fin_cases p <;> simp [kPP, Matrix.mulVec, dotProduct, Fin.sum_univ_four]
        · have hkff : kff = kFFtimo e g m.L := by
            simp only [Member.spanK, hG, he, condenseFor] at f1
            exact (Except.ok.inj f1).symm
          obtain ⟨d', e1, e2⟩ := f3.1 d
          rw [f3.2 d d' e1 e2]
          have z1 := e2 1 (by simp [hpp, EType.released])
          have z3 := e2 3 (by simp [hpp, EType.released])
          have hL0 := hL.ne'
          have y0 : ∀ (y : Vec4 ℝ), (kFFtimo e g m.L *ᵥ y) 0
              = ((kFFtimo e g m.L *ᵥ y) 1 + (kFFtimo e g m.L *ᵥ y) 3) / m.L ∧
              (kFFtimo e g m.L *ᵥ y) 2
              = -((kFFtimo e g m.L *ᵥ y) 1 + (kFFtimo e g m.L *ᵥ y) 3) / m.L := by
            intro y
            simp only [mulVec4]
            simp [kFFtimo]
            constructor <;> field_simp <;> ring
          rw [hkff] at z1 z3 ⊢
          ext p
          fin_cases p
          · have := (y0 d').1
            rw [z1, z3] at this
            simpa using this
          · exact z1
          · have := (y0 d').2
            rw [z1, z3] at this
            simpa using this
          · exact z3
      have r0 : (m.relT C).vec = ![C.Va, 0, C.Vb, 0] := by
        rcases hG with hG | ⟨g, hg, hG⟩
        · simp only [Member.relT, hG, hpp]
          ext p
          fin_cases p <;> simp [releaseCnl, CNL.vec]
          all_goals exact Or.inl (by linarith)
        · have hd0 : 1 + 12 * e / (g * m.L ^ 2) ≠ 0 := by positivity
          have hb : C.Mb = -C.Ma := by linarith
          simp only [Member.relT, hG, hpp]
          ext p
          fin_cases p <;> simp [relOf, refTimoFF, refFF, CNL.vec, hb] <;> ring
      rw [k0, r0]
      ext p
      fin_cases p <;>
        simp [kOf, kPP, Matrix.mulVec, dotProduct, Fin.sum_univ_four, releaseCnl, CNL.vec, hbal]
    rw [e1, key, hpp]
    simp only [EType.freeLeft, EType.freeRight, if_true, EType.released]
    constructor
    · rintro ⟨t1, t3, g, g1, g3⟩
      refine ⟨![d 0, t1, d 2, t3], fun p hp => ?_, fun q hq => ?_, ?_⟩
      · fin_cases p
        · rfl
        · exact absurd hp (by simp)
        · rfl
        · exact absurd hp (by simp)
      · simp only [List.mem_cons, List.not_mem_nil, or_false] at hq
        rcases hq with rfl | rfl
        · exact g1
        · exact g3
      · rw [g1, g3]
        simpa using g
    · rintro ⟨d', g1, g2, g3⟩
      have z1 := g2 1 (by simp)
      have z3 := g2 3 (by simp)
      refine ⟨d' 1, d' 3, ?_, z1, z3⟩
      rw [z1, z3, g1 0 (by simp), g1 2 (by simp)] at g3
      simpa using g3
  · simp only [mul_add, hw hpp, add_zero]
    rcases hG with hG | ⟨g, hg, hG⟩
    · have hkff : kff = kFF e m.L := by
        simp only [Member.spanK, hG, he] at f1
        exact (Except.ok.inj f1).symm
      have hrel : IsReleasedForce kff C (m.relT C) m.et.released := by
        simp only [Member.relT, hG, hkff]
        have hL0 := hL.ne'
        have he0 := hepos.ne'
        generalize m.et = et at *
        cases et with
        | PP => exact absurd rfl hpp
        | FF =>
          refine ⟨⟨0, by simp, by simp [EType.released]⟩, fun th h1 _ => ?_⟩
          have : th = 0 := funext fun p => h1 p (by simp [EType.released])
          subst this
          ext p
          fin_cases p <;> simp [releaseCnl, CNL.vec]
        | FP =>
          refine releasedForce_single _ _ _ 3
            (by rw [show kFF e m.L 3 3 = 4 * e / m.L by simp [kFF]]; positivity) fun p => ?_
          fin_cases p <;> simp [CNL.vec, releaseCnl, kFF] <;> field_simp <;> ring
        | PF =>
          refine releasedForce_single _ _ _ 1
            (by rw [show kFF e m.L 1 1 = 4 * e / m.L by simp [kFF]]; positivity) fun p => ?_
          fin_cases p <;> simp [CNL.vec, releaseCnl, kFF] <;> field_simp <;> ring
      rw [released_iff f3 hrel]
      have hsf : m.shearFlex = 0 := by simp only [Member.shearFlex, hG]
      simp only [hsf, zero_mul, sub_zero, add_zero, hkff]
      refine exists_congr fun d' => ?_
      have : (![d' 0, d' 1, d' 2, d' 3] : Vec4 ℝ) = d' := by
        ext p
        fin_cases p <;> rfl
      rw [this]
    · have hkff : kff = kFFtimo e g m.L := by
        simp only [Member.spanK, hG, he, condenseFor] at f1
        exact (Except.ok.inj f1).symm
      obtain ⟨k1, k3, _⟩ := kFFtimo_diag hepos hg hL
      have hrel : IsReleasedForce kff (refTimoFF C e g m.L) (m.relT C) m.et.released := by
        obtain ⟨c', g1, g2⟩ := releaseRef_release (refTimoFF C e g m.L) (kFFtimo e g m.L) m.L m.et hpp k1 k3
        have : c' = m.relT C := by
          simp only [Member.relT, hG, he, Rigidity.value]
          generalize m.et = et at *
          cases et with
          | FF => exact (Except.ok.inj g1).symm
          | PP => exact absurd rfl hpp
          | FP =>
            simp only [releaseRef, k3, if_false] at g1
            exact (Except.ok.inj g1).symm
          | PF =>
            simp only [releaseRef, k1, if_false] at g1
            exact (Except.ok.inj g1).symm
        rw [← this, hkff]
        exact g2
      rw [released_iff f3 hrel]
      have hsf : m.shearFlex = 1 / g := by simp only [Member.shearFlex, hG]
      simp only [hsf, hkff]
      exact exists_congr fun d' => by rw [timo_iff hepos hg hL]

/-! ### One span -/

/-- Taking off the free shape of the imposed curvatures leaves the line of the loads. -/
theorem shearImposedSpan_iffX {EI g L : ℝ} {own : List (Load ℝ)}
    (hown : ∀ ld ∈ own, ld.ImposableAny L) (F : Vec4 ℝ) (v ψ : ℝ → ℝ) :
    ShearImposedSpan EI g L own F v ψ ↔
    ShearSpan EI g L (mechOnly own) F (fun x => v x - freeDefl own x)
      (fun x => ψ x - freeRot own x) := by
  have cD : Continuous (freeDefl own) :=
    continuous_iff_continuousAt.mpr fun x => (freeDefl_deriv own x).continuousAt
  have cR : Continuous (freeRot own) :=
    continuous_iff_continuousAt.mpr fun x => (freeRot_deriv hown x).continuousAt
  have e1 : ((mechOnly own).map fun ld => ld.total L).sum = (own.map fun ld => ld.total L).sum :=
    sum_mechOnly own _ fun k E => by
      simp [Load.total, Load.intensity, Load.forces]
  have e2 : ((mechOnly own).map fun ld => ld.momentAboutLeft L).sum
      = (own.map fun ld => ld.momentAboutLeft L).sum :=
    sum_mechOnly own _ fun k E => by
      simp [Load.momentAboutLeft, Load.intensity, Load.forces, Load.couples]
  constructor
  · intro h
    refine ⟨fun x hx hf => ?_, fun x hx hc => ?_,
      h.contV.sub cD.continuousOn, h.contT.sub cR.continuousOn, by rw [e1]; exact h.force,
      by rw [e2]; exact h.moment⟩
    · refine ((h.slope x hx ((mechOnly_forces own x).1 hf)).sub
        (freeDefl_deriv own x)).congr_deriv ?_
      rw [cutV_mechOnly]
      ring
    · refine ((h.curvature x hx ((mechOnly_couples own x).1 hc)).sub
        (freeRot_deriv hown x)).congr_deriv ?_
      rw [cutM_mechOnly]
      ring
  · intro h
    have ev : v = fun x => (v x - freeDefl own x) + freeDefl own x := by ext x; ring
    have et : ψ = fun x => (ψ x - freeRot own x) + freeRot own x := by ext x; ring
    refine ⟨fun x hx hf => ?_, fun x hx hc => ?_, ?_, ?_, by rw [← e1]; exact h.force,
      by rw [← e2]; exact h.moment⟩
    · rw [ev]
      refine ((h.slope x hx ((mechOnly_forces own x).2 hf)).add
        (freeDefl_deriv own x)).congr_deriv ?_
      rw [cutV_mechOnly]
      ring
    · rw [et]
      refine ((h.curvature x hx ((mechOnly_couples own x).2 hc)).add
        (freeRot_deriv hown x)).congr_deriv ?_
      rw [cutM_mechOnly]
    · rw [ev]
      exact h.contV.add cD.continuousOn
    · rw [et]
      exact h.contT.add cR.continuousOn

theorem ShearImposedSpan.stiffnessX {EI g L : ℝ} (hE : EI ≠ 0) (hL : 0 < L) {own : List (Load ℝ)}
    (hown : ∀ ld ∈ own, ld.ImposableAny L) {F : Vec4 ℝ} {v ψ : ℝ → ℝ}
    (h : ShearImposedSpan EI g L own F v ψ) :
    F = kFF EI L *ᵥ ![v 0 - g * F 1, ψ 0, v L + g * (F 3 + coupleSum own), ψ L]
      + (clampedSumX EI L own).vec := by
  have h1 := ((shearImposedSpan_iffX hown F v ψ).1 h).stiffness hE hL (mechOnly_plainX hown)
  obtain ⟨z1, z2⟩ := free_start own
  rw [clampedSumX_vec hL hown]
  rw [coupleSum_mechOnly] at h1
  have e : (![v 0 - freeDefl own 0 - g * F 1, ψ 0 - freeRot own 0,
      v L - freeDefl own L + g * (F 3 + coupleSum own), ψ L - freeRot own L] : Vec4 ℝ)
      = ![v 0 - g * F 1, ψ 0, v L + g * (F 3 + coupleSum own), ψ L]
        - ![0, 0, freeDefl own L, freeRot own L] := by
    ext p
    fin_cases p <;> simp [z1, z2]
    ring
  simp only [e, Matrix.mulVec_sub] at h1
  refine h1.trans ?_
  abel

theorem shearImposedSpan_of_stiffnessX {EI g L : ℝ} (hE : EI ≠ 0) (hL : 0 < L)
    {own : List (Load ℝ)} (hown : ∀ ld ∈ own, ld.ImposableAny L) (F d : Vec4 ℝ)
    (h : F = kFF EI L *ᵥ ![d 0 - g * F 1, d 1, d 2 + g * (F 3 + coupleSum own), d 3]
      + (clampedSumX EI L own).vec) :
    ∃ v ψ : ℝ → ℝ, ShearImposedSpan EI g L own F v ψ ∧ v 0 = d 0 ∧ ψ 0 = d 1 ∧ v L = d 2 ∧
      ψ L = d 3 := by
  obtain ⟨v, ψ, h1, h2, h3, h4, h5⟩ := shearSpan_of_stiffness (g := g) hE hL (mechOnly_plainX hown) F
    (d - ![0, 0, freeDefl own L, freeRot own L]) (by
      rw [coupleSum_mechOnly]
      have e : (![(d - ![0, 0, freeDefl own L, freeRot own L]) 0 - g * F 1,
          (d - ![0, 0, freeDefl own L, freeRot own L]) 1,
          (d - ![0, 0, freeDefl own L, freeRot own L]) 2 + g * (F 3 + coupleSum own),
          (d - ![0, 0, freeDefl own L, freeRot own L]) 3] : Vec4 ℝ)
          = ![d 0 - g * F 1, d 1, d 2 + g * (F 3 + coupleSum own), d 3]
            - ![0, 0, freeDefl own L, freeRot own L] := by
        ext p
        fin_cases p <;> simp
        ring
      rw [e, Matrix.mulVec_sub]
      rw [clampedSumX_vec hL hown] at h
      refine h.trans ?_
      abel)
  obtain ⟨z1, z2⟩ := free_start own
  refine ⟨fun x => v x + freeDefl own x, fun x => ψ x + freeRot own x, ?_, ?_, ?_, ?_, ?_⟩
  · rw [shearImposedSpan_iffX hown]
    simpa using h1
  · simp [h2, z2]
  · simp [h3, z1]
  · simp [h4]
  · simp [h5]

theorem ShearImposedSpan.uniqueX {EI g L : ℝ} (hL : 0 < L) {own : List (Load ℝ)}
    (hown : ∀ ld ∈ own, ld.ImposableAny L) {F : Vec4 ℝ} {v ψ v' ψ' : ℝ → ℝ}
    (h : ShearImposedSpan EI g L own F v ψ) (h' : ShearImposedSpan EI g L own F v' ψ')
    (e1 : v 0 = v' 0) (e2 : ψ 0 = ψ' 0) : ∀ x ∈ Icc 0 L, v x = v' x ∧ ψ x = ψ' x := by
  intro x hx
  have hp := mechOnly_plainX hown
  obtain ⟨a1, a2⟩ := (((shearImposedSpan_iffX hown F v ψ).1 h).bending hL hp).eq_line hL hp
  obtain ⟨b1, b2⟩ := (((shearImposedSpan_iffX hown F v' ψ').1 h').bending hL hp).eq_line hL hp
  have a1' := a1 x hx
  have a2' := a2 x hx
  have b1' := b1 x hx
  have b2' := b2 x hx
  simp only [e1, e2] at a1' a2'
  rw [← b1'] at a1'
  rw [← b2'] at a2'
  exact ⟨by linarith, by linarith⟩

/-! ### The beam -/

/-- Slender or shear-flexible prismatic members under loads that lie on their spans and imposed
curvatures of any degree; on each pinned-pinned member the exact fixed-end moments balance, and on
each other shear-flexible member the couples do. -/
structure BeamDef.UniformAny (b : BeamDef ℝ) (ls : List (SpanLoad ℝ)) : Prop where
  uniform : ∀ m ∈ b.members, m.Uniform
  loads : ∀ i (hi : i < b.members.length), ∀ l ∈ ls, l.iSpan = (i : ℤ) →
    (l.load.OnSpan b.members[i].L ∧ l.load.IsMechanical) ∨ ∃ k E, l.load = .ic k E
  pinned : ∀ i (hi : i < b.members.length), b.members[i].et = .PP → ∀ e, b.members[i].EI = .const e →
    (clampedSumX e b.members[i].L (ownLoads i ls)).Ma
      + (clampedSumX e b.members[i].L (ownLoads i ls)).Mb = 0
  couples : ∀ i (hi : i < b.members.length), b.members[i].et ≠ .PP → b.members[i].GAv ≠ none →
    coupleSum (ownLoads i ls) = 0

theorem BeamDef.UniformAny.own {b : BeamDef ℝ} {ls : List (SpanLoad ℝ)} (h : b.UniformAny ls)
    (hls : b.setLoads = .ok ls) (i : ℕ) (hi : i < b.members.length) :
    ∀ ld ∈ ownLoads i ls, ld.ImposableAny b.members[i].L := by
  intro ld hld
  simp only [ownLoads, List.mem_map, List.mem_filter, decide_eq_true_eq] at hld
  obtain ⟨l, ⟨h1, h2⟩, rfl⟩ := hld
  rcases h.loads i hi l h1 h2 with h3 | h3
  · exact .inl ⟨h3.1, h3.2, b.setLoads_no_mamb hls l h1⟩
  · exact .inr h3

/-- Exact fixed-end forces of slender and shear-flexible members. -/
noncomputable def BeamDef.exactRefS (b : BeamDef ℝ) (ls : List (SpanLoad ℝ)) (i : ℕ) : Vec4 ℝ :=
  if hi : i < b.members.length then
    (b.members[i].relT (clampedSumX b.members[i].EI.value b.members[i].L (ownLoads i ls))).vec
  else 0

theorem BeamDef.UniformAny.memberForces {b : BeamDef ℝ} {ls : List (SpanLoad ℝ)} (h : b.UniformAny ls)
    {s : System ℝ} (hs : b.system = .ok s) (i : ℕ) (hi : i < b.members.length) (e : ℝ)
    (he : b.members[i].EI = .const e) (d : ℕ → ℝ) (F : Vec4 ℝ) :
    F = (s.under (b.exactRefS ls) s.presc).endForces d i ↔ ∃ d' : Vec4 ℝ,
      (∀ p, p ∉ b.members[i].et.released → d' p = elemVec d i p) ∧
      (∀ r ∈ b.members[i].et.released, F r = 0) ∧
      F = kFF e b.members[i].L *ᵥ ![d' 0 - b.members[i].shearFlex * F 1, d' 1,
          d' 2 + b.members[i].shearFlex * (F 3 + coupleSum (ownLoads i ls)), d' 3]
        + (clampedSumX e b.members[i].L (ownLoads i ls)).vec := by
  obtain ⟨_, hk, _⟩ := BeamDef.system_ok hs
  have hF : (s.under (b.exactRefS ls) s.presc).endForces d i = s.kb i *ᵥ elemVec d i
      + (b.members[i].relT (clampedSumX e b.members[i].L (ownLoads i ls))).vec := by
    simp only [System.endForces, System.under, BeamDef.exactRefS, dif_pos hi, he, Rigidity.value]
  rw [hF, Member.relT_iff (h.uniform _ (List.getElem_mem hi)) he (hk i hi) _
    (coupleSum (ownLoads i ls)) (fun hpp => h.pinned i hi hpp e he) (fun hpp => ?_)]
  by_cases hG : b.members[i].GAv = none
  · simp only [Member.shearFlex, hG, zero_mul]
  · rw [h.couples i hi hpp hG, mul_zero]

/-- A solution of the stiffness equations gives lines of the continuous problem. -/
theorem shearImposedBeam_of_exact {b : BeamDef ℝ} {ls : List (SpanLoad ℝ)}
    (hls : b.setLoads = .ok ls) (hb : b.UniformAny ls)
    {s : System ℝ} (h1 : b.system = .ok s) {u : ℕ → ℝ} (hu : (s.under (b.exactRefS ls) s.presc).IsSolution u) :
    ∃ v ψ : ℕ → ℝ → ℝ, ShearImposedBeam b ls u ((s.under (b.exactRefS ls) s.presc).endForces u) v ψ := by
  obtain ⟨hn, hk, _, hr, hp, _, _⟩ := BeamDef.system_ok h1
  obtain ⟨hd, hf⟩ := hu
  have key : ∀ i, ∃ v ψ : ℝ → ℝ, ∀ hi : i < b.members.length,
      (∀ e, b.members[i].EI = .const e →
        ShearImposedSpan e b.members[i].shearFlex b.members[i].L (ownLoads i ls) ((s.under (b.exactRefS ls) s.presc).endForces u i) v ψ) ∧
      v 0 = u (2 * i) ∧ v b.members[i].L = u (2 * i + 2) ∧
      (if b.members[i].et.freeLeft then (s.under (b.exactRefS ls) s.presc).endForces u i 1 = 0 else ψ 0 = u (2 * i + 1)) ∧
      (if b.members[i].et.freeRight then (s.under (b.exactRefS ls) s.presc).endForces u i 3 = 0
        else ψ b.members[i].L = u (2 * i + 3)) := by
    intro i
    by_cases hi : i < b.members.length
    · obtain ⟨hL, ⟨e, he, hEI⟩, _⟩ := hb.uniform _ (List.getElem_mem hi)
      obtain ⟨d', g1, g2, g3⟩ := (hb.memberForces h1 i hi e hEI u ((s.under (b.exactRefS ls) s.presc).endForces u i)).1 rfl
      obtain ⟨v, ψ, k1, k2, k3, k4, k5⟩ := shearImposedSpan_of_stiffnessX (g := b.members[i].shearFlex)
        he.ne' hL (hb.own hls i hi) _ d' g3
      refine ⟨v, ψ, fun _ => ⟨fun e' he' => ?_, ?_, ?_, ?_, ?_⟩⟩
      · rw [hEI] at he'
        cases he'
        exact k1
      · rw [k2, g1 0 (released_defl _).1]; rfl
      · rw [k4, g1 2 (released_defl _).2]; rfl
      · split_ifs with hfree
        · exact g2 1 ((released_left _).2 hfree)
        · rw [k3, g1 1 fun h => hfree ((released_left _).1 h)]; rfl
      · split_ifs with hfree
        · exact g2 3 ((released_right _).2 hfree)
        · rw [k5, g1 3 fun h => hfree ((released_right _).1 h)]; rfl
    · exact ⟨0, 0, fun h => absurd h hi⟩
  choose v ψ hvψ using key
  refine ⟨v, ψ, ⟨fun i hi => (hvψ i hi).1, fun i hi => (hvψ i hi).2.1, fun i hi => (hvψ i hi).2.2.1,
    fun i hi => (hvψ i hi).2.2.2.1, fun i hi => (hvψ i hi).2.2.2.2, ?_, ?_, ?_⟩⟩
  · intro p hpN w hw
    exact hd p (by simp only [System.N, System.under, hn]; exact hpN) w (by simp only [System.constr, System.under, hp, hw])
  · intro p hpN hw hneg
    exact hd p (by simp only [System.N, System.under, hn]; exact hpN) 0 (by
      simp only [System.constr, System.under, hp, hw, hr, if_pos hneg])
  · intro j hj c hw hpos
    have hc := c.isLt
    rw [nodeSum_under h1 _ _ _ j hj c]
    exact hf _ (by simp only [System.N, System.under, hn]; omega) (by
      simp only [System.constr, System.under, hp, hw, hr, if_neg (not_lt.mpr hpos)])

/-- Lines of the continuous problem give a solution of the stiffness equations. -/
theorem ShearImposedBeam.exact {b : BeamDef ℝ} {ls : List (SpanLoad ℝ)}
    (hls : b.setLoads = .ok ls) (hb : b.UniformAny ls)
    {s : System ℝ} (hs : b.system = .ok s) {u : ℕ → ℝ} {F : ℕ → Vec4 ℝ} {v ψ : ℕ → ℝ → ℝ}
    (h : ShearImposedBeam b ls u F v ψ) :
    (∀ i < b.members.length, F i = (s.under (b.exactRefS ls) s.presc).endForces u i) ∧ (s.under (b.exactRefS ls) s.presc).IsSolution u := by
  obtain ⟨hn, hk, _, hr, hp, _, _⟩ := BeamDef.system_ok hs
  have hN : (s.under (b.exactRefS ls) s.presc).N = 2 * b.members.length + 2 := by simp only [System.N, System.under, hn]
  have hF : ∀ i < b.members.length, F i = (s.under (b.exactRefS ls) s.presc).endForces u i := by
    intro i hi
    obtain ⟨hL, ⟨e, he, hEI⟩, _⟩ := hb.uniform _ (List.getElem_mem hi)
    rw [hb.memberForces hs i hi e hEI u]
    have h1 := (h.span i hi e hEI).stiffnessX he.ne' hL (hb.own hls i hi)
    have hl := h.rotLeft i hi
    have hr := h.rotRight i hi
    refine ⟨![v i 0, ψ i 0, v i b.members[i].L, ψ i b.members[i].L], fun p hp => ?_,
      fun r hr' => ?_, h1⟩
    · fin_cases p
      · exact h.left i hi
      · rw [if_neg (fun hh => hp ((released_left _).2 hh))] at hl
        exact hl
      · exact h.right i hi
      · rw [if_neg (fun hh => hp ((released_right _).2 hh))] at hr
        exact hr
    · fin_cases r
      · exact absurd hr' (released_defl _).1
      · rw [if_pos ((released_left _).1 hr')] at hl
        exact hl
      · exact absurd hr' (released_defl _).2
      · rw [if_pos ((released_right _).1 hr')] at hr
        exact hr
  refine ⟨hF, fun p hpN w hw => ?_, fun p hpN hc => ?_⟩
  · simp only [System.constr, System.under, hp, hr] at hw
    rcases hq : b.presc.getD p none with _ | w'
    · rw [hq] at hw
      simp only at hw
      split_ifs at hw with hneg
      cases hw
      exact h.rigid p (by omega) hq hneg
    · rw [hq] at hw
      cases hw
      exact h.prescribed p (by omega) w hq
  · simp only [System.constr, System.under, hp, hr] at hc
    rcases hq : b.presc.getD p none with _ | w'
    · rw [hq] at hc
      simp only at hc
      split_ifs at hc with hneg
      have e : 2 * (p / 2) + ((⟨p % 2, Nat.mod_lt _ (by norm_num)⟩ : Fin 2) : ℕ) = p := by
        simp only; omega
      have := h.free (p / 2) (by omega) ⟨p % 2, Nat.mod_lt _ (by norm_num)⟩ (by rw [e]; exact hq)
        (by rw [e]; exact not_lt.mp hneg)
      have e2 := nodeSum_under hs (b.exactRefS ls) s.presc u (p / 2) (by omega) ⟨p % 2, Nat.mod_lt _ (by norm_num)⟩
      rw [e] at e2
      rw [← e2, ← this]
      simp only [nodeSum]
      congr 2
      · split_ifs with h0
        · rw [hF (p / 2 - 1) (by omega)]
        · rfl
      · split_ifs with h0
        · rw [hF (p / 2) h0]
        · rfl
    · rw [hq] at hc
      cases hc

/-- Two solutions of the continuous problem of a beam that is not a mechanism agree. -/
theorem shearImposedBeam_unique_any {b : BeamDef ℝ} {ls : List (SpanLoad ℝ)} (hls : b.setLoads = .ok ls)
    (hb : b.UniformAny ls) {s : System ℝ} (hs : b.system = .ok s)
    (hns : s.Nonsingular) {u u' : ℕ → ℝ} {F F' : ℕ → Vec4 ℝ} {v ψ v' ψ' : ℕ → ℝ → ℝ}
    (h : ShearImposedBeam b ls u F v ψ) (h' : ShearImposedBeam b ls u' F' v' ψ') :
    (∀ p < 2 * b.members.length + 2, u p = u' p) ∧
    (∀ i (hi : i < b.members.length), F i = F' i ∧
      ∀ x ∈ Icc 0 b.members[i].L, v i x = v' i x ∧ ψ i x = ψ' i x) := by
  obtain ⟨hn, hk, _, hr, hp, _, _⟩ := BeamDef.system_ok hs
  have hN : (s.under (b.exactRefS ls) s.presc).N = 2 * b.members.length + 2 := by simp only [System.N, System.under, hn]
  obtain ⟨hF, hsol⟩ := h.exact hls hb hs
  obtain ⟨hF', hsol'⟩ := h'.exact hls hb hs
  have hu : ∀ p < 2 * b.members.length + 2, u p = u' p := fun p hp' =>
    System.IsSolution.unique (hns.under (b.exactRefS ls) s.presc fun _ _ => rfl) hsol hsol' p (by omega)
  have hFF : ∀ i < b.members.length, F i = F' i := by
    intro i hi
    rw [hF i hi, hF' i hi]
    have : elemVec u i = elemVec u' i := by
      ext a
      exact hu _ (by have := a.isLt; omega)
    simp only [System.endForces, this]
  refine ⟨hu, fun i hi => ⟨hFF i hi, ?_⟩⟩
  obtain ⟨hL, ⟨e, he, hEI⟩, _⟩ := hb.uniform _ (List.getElem_mem hi)
  have hL0 := hL.ne'
  have hE0 := he.ne'
  have s1 := h.span i hi e hEI
  have s2 := h'.span i hi e hEI
  have f1 := s1.stiffnessX hE0 hL (hb.own hls i hi)
  have f2 := s2.stiffnessX hE0 hL (hb.own hls i hi)
  have ev : v i 0 = v' i 0 := by rw [h.left i hi, h'.left i hi, hu _ (by omega)]
  have evL : v i b.members[i].L = v' i b.members[i].L := by
    rw [h.right i hi, h'.right i hi, hu _ (by omega)]
  have et : ψ i 0 = ψ' i 0 := by
    rw [hFF i hi] at f1
    have f3 := f1.symm.trans f2
    rw [ev, evL] at f3
    generalize F' i = G at f3
    have g1 := congrFun f3 1
    have g3 := congrFun f3 3
    simp only [kFF_mulVec] at g1 g3
    simp only [Pi.add_apply, Matrix.cons_val] at g1 g3
    have g : 6 * e / b.members[i].L * (ψ i 0 - ψ' i 0) = 0 := by
      linear_combination 2 * g1 - g3
    have g' : 6 * e / b.members[i].L ≠ 0 := by positivity
    have := (mul_eq_zero.1 g).resolve_left g'
    linarith
  rw [hFF i hi] at s1
  exact s1.uniqueX hL (hb.own hls i hi) s2 ev et

/-- **C146, partial**: as `C146_any_degree_partial`, for slender and shear-flexible prismatic members
with any end releases: there is one constant `C` for the beam such that, whatever the loads, the
imposed curvatures (of any degree) and the prescribed values, the continuous problem has exactly one
solution, and the displacements and member end forces of a completed analysis are within `C ε` of
it.  Missing are tapered and foundation-supported members, and members on which the loads do not
balance as in C118 and C124. -/
theorem C146_shear_partial (b₀ : BeamDef ℝ) (s₀ : System ℝ) (h₀ : b₀.system = .ok s₀)
    (hns : s₀.Nonsingular) :
    ∃ C : ℝ, 0 < C ∧ ∀ (LM : List (Row ℝ)) (P : List (Option ℝ)),
      P.map Option.isSome = b₀.presc.map Option.isSome →
      ∀ (b : BeamDef ℝ), b = ⟨b₀.members, b₀.restraints, P, LM⟩ →
      ∀ (ls : List (SpanLoad ℝ)), b.setLoads = .ok ls → b.UniformAny ls →
      ∀ (stable : System ℝ → Bool) (solve : Solver ℝ), solve.Sound → ∀ res : Result ℝ,
      b.analyze stable solve = .ok res →
      ∃ (u : ℕ → ℝ) (F : ℕ → Vec4 ℝ) (v ψ : ℕ → ℝ → ℝ), ShearImposedBeam b ls u F v ψ ∧
        (∀ u' F' v' ψ', ShearImposedBeam b ls u' F' v' ψ' →
          (∀ p < 2 * b.members.length + 2, u' p = u p) ∧
          ∀ i (hi : i < b.members.length), F' i = F i ∧
            ∀ x ∈ Icc 0 b.members[i].L, v' i x = v i x ∧ ψ' i x = ψ i x) ∧
        ∀ ε : ℝ, 0 ≤ ε →
          (∀ i (hi : i < b.members.length), curvErr b.members[i].L (ownLoads i ls) ≤ ε) →
          (∀ p < 2 * b.members.length + 2, |res.d p - u p| ≤ C * ε) ∧
          ∀ i < b.members.length, ∀ q, |res.fmbr i q - F i q| ≤ C * ε := by
  obtain ⟨C, hC, hw⟩ := s₀.wellPosed hns
  obtain ⟨hn₀, _, _, hr₀, hp₀, _, _⟩ := BeamDef.system_ok h₀
  set D : ℝ := (b₀.members.map fun m => m.relNorm * |6 * m.EI.value / m.L + 12 * m.EI.value / m.L ^ 2|).sum with hD
  have hD0 : 0 ≤ D := List.sum_nonneg fun y hy => by
    obtain ⟨m, _, rfl⟩ := List.mem_map.1 hy
    exact mul_nonneg m.relNorm_nonneg (abs_nonneg _)
  refine ⟨C * (D + 1), by positivity, ?_⟩
  intro LM P hP b hb ls hls himp stable solve hso res ha
  have hbm : b.members = b₀.members := by rw [hb]
  have hbr : b.restraints = b₀.restraints := by rw [hb]
  have hbp : b.presc = P := by rw [hb]
  obtain ⟨s, h1, h2⟩ := BeamDef.analyze_ok ha
  obtain ⟨hn, _, ⟨l1, hl1, href⟩, hr, hp, _, _⟩ := BeamDef.system_ok h1
  rw [hls] at hl1; cases hl1
  have es : s = s₀.under s.ref s.presc := BeamDef.system_under (b := b₀) (b' := b) hbm hbr h₀ h1
  obtain ⟨a1, _, _, a4, _⟩ := System.analyze_ok hso h2
  have hsome : ∀ p, (s.presc p).isSome = (s₀.presc p).isSome := by
    intro p
    rw [hp₀, hp, hbp]
    have := congrArg (fun l => l.getD p false) hP
    have e : ∀ l : List (Option ℝ), (l.map Option.isSome).getD p false = (l.getD p none).isSome := by
      intro l
      rw [List.getD_eq_getElem?_getD, List.getD_eq_getElem?_getD, List.getElem?_map]
      cases l[p]? <;> rfl
    simp only [e] at this
    exact this
  have hns1 : s.Nonsingular := by
    rw [es]; exact hns.under _ _ fun p _ => hsome p
  obtain ⟨u, hu⟩ := System.exists_solution (hns1.under (b.exactRefS ls) s.presc fun _ _ => rfl)
  obtain ⟨v, ψ, hE⟩ := shearImposedBeam_of_exact hls himp h1 hu
  refine ⟨u, _, v, ψ, hE, fun u' F' v' ψ' h' => shearImposedBeam_unique_any hls himp h1 hns1 h' hE, ?_⟩
  intro ε hε hc
  have hx : s.under (b.exactRefS ls) s.presc = s₀.under (b.exactRefS ls) s.presc := by
    conv_lhs => rw [es]
    rfl
  rw [hx] at hu ⊢
  have hd : (s₀.under s.ref s.presc).IsSolution res.d := by rw [← es]; exact a1
  obtain ⟨w1, w2⟩ := hw s.ref (b.exactRefS ls) s.presc s.presc (fun p _ => hsome p)
    (fun p _ => hsome p) res.d u hd hu ((D + 1) * ε) (by positivity)
    (fun i hi q => by
      rw [hn₀, ← hbm] at hi
      obtain ⟨c, g1, g2⟩ := href i hi
      have hu' := himp.uniform _ (List.getElem_mem hi)
      obtain ⟨hL, ⟨e, he, hEI⟩, _⟩ := id hu'
      have hown := himp.own hls i hi
      have g3 := Member.refSum_relT hu' i ls (e := e) (fun l hl hli => by
        have hp : l.load.ImposableAny b.members[i].L := hown _ (by
          simp only [ownLoads, List.mem_map, List.mem_filter, decide_eq_true_eq]
          exact ⟨l, ⟨hl, hli⟩, rfl⟩)
        rcases hp with hp | ⟨k, E, hk⟩
        · have h1 := hp.2.1
          have h2 := hp.getCnl hL
          generalize l.load = ld at *
          cases ld <;> first | exact h1.elim | simp only [Member.cnl, h2, Load.clampedE]
        · rw [hk]
          simp only [Member.cnl, hEI, Load.clampedE]) c g1
      rw [g2, g3, BeamDef.exactRefS, dif_pos hi]
      have hv : b.members[i].EI.value = e := by rw [hEI]; rfl
      rw [hv]
      obtain ⟨t1, t2, t3, t4⟩ := clampedSum_err hL he (ownLoads i ls)
      have hq : 0 ≤ 6 * e / b.members[i].L := by positivity
      have hq2 : 0 ≤ 12 * e / b.members[i].L ^ 2 := by positivity
      have le1 : 6 * e / b.members[i].L * curvErr b.members[i].L (ownLoads i ls)
          ≤ |6 * e / b.members[i].L + 12 * e / b.members[i].L ^ 2| * ε := by
        rw [abs_of_nonneg (by positivity), add_mul]
        linarith [mul_le_mul_of_nonneg_left (hc i hi) hq, mul_nonneg hq2 hε]
      have le2 : 12 * e / b.members[i].L ^ 2 * curvErr b.members[i].L (ownLoads i ls)
          ≤ |6 * e / b.members[i].L + 12 * e / b.members[i].L ^ 2| * ε := by
        rw [abs_of_nonneg (by positivity), add_mul]
        linarith [mul_le_mul_of_nonneg_left (hc i hi) hq2, mul_nonneg hq hε]
      refine (Member.relT_err _ (mul_nonneg (abs_nonneg _) hε) (t3.trans le2) (t1.trans le1)
        (t4.trans le2) (t2.trans le1) q).trans ?_
      rw [← mul_assoc]
      refine mul_le_mul_of_nonneg_right ?_ hε
      have hmem : b.members[i].relNorm * |6 * e / b.members[i].L + 12 * e / b.members[i].L ^ 2| ∈
          b₀.members.map fun m => m.relNorm * |6 * m.EI.value / m.L + 12 * m.EI.value / m.L ^ 2| := by
        rw [← hbm]
        exact List.mem_map.2 ⟨b.members[i], List.getElem_mem hi, by rw [hv]⟩
      have := List.single_le_sum (fun y hy => by
        obtain ⟨m, _, rfl⟩ := List.mem_map.1 hy
        exact mul_nonneg m.relNorm_nonneg (abs_nonneg _)) _ hmem
      rw [← hD] at this
      linarith)
    (fun p _ v v' hv hv' => by
      rw [hv] at hv'
      cases hv'
      simp only [sub_self, abs_zero]
      positivity)
  rw [← es, ← a4] at w2
  have hN : s₀.N = 2 * b.members.length + 2 := by simp only [System.N, hn₀, hbm]
  rw [hN] at w1
  rw [hn₀, ← hbm] at w2
  rw [mul_assoc]
  exact ⟨w1, w2⟩

/-! ### A concrete case -/

/-- Two spans: a shear-flexible one under a cubic curvature and a point load, and a slender one under
a couple. -/
noncomputable def exCubicShear : BeamDef ℝ :=
  ⟨exThermalShear.members, exThermalShear.restraints, exThermalShear.presc,
    [⟨1, 6, [0, 0, 0, 4]⟩, ⟨1, 2, [9, 1]⟩, ⟨2, 4, [5, 1]⟩]⟩

/-- What acts on these spans. -/
noncomputable def exCubicShearLoads : List (SpanLoad ℝ) :=
  [⟨0, .ic [0, 0, 0, 4] none⟩, ⟨0, .pl 9 1⟩, ⟨1, .ml 5 1⟩]

theorem exCubicShear_loads : exCubicShear.setLoads = .ok exCubicShearLoads := by
  simp [BeamDef.setLoads, exCubicShear, exThermalShear, exCubicShearLoads, parseLM, parseRow]

theorem exCubicShear_any : exCubicShear.UniformAny exCubicShearLoads := by
  have hff : ∀ m ∈ exCubicShear.members, m.et = .FF := by
    intro m hm
    simp only [exCubicShear, exThermalShear, List.mem_cons, List.not_mem_nil, or_false] at hm
    rcases hm with rfl | rfl <;> rfl
  refine ⟨?_, ?_, fun i hi h => ?_, fun i hi _ hG => ?_⟩
  · intro m hm
    simp only [exCubicShear, exThermalShear, List.mem_cons, List.not_mem_nil, or_false] at hm
    rcases hm with rfl | rfl
    · exact ⟨by norm_num, ⟨6, by norm_num, rfl⟩, .inr ⟨3, by norm_num, rfl⟩⟩
    · exact ⟨by norm_num, ⟨6, by norm_num, rfl⟩, .inl rfl⟩
  · intro i hi l hl hli
    simp only [exCubicShear, exThermalShear, exCubicShearLoads, List.length_cons, List.length_nil,
      List.mem_cons, List.not_mem_nil, or_false] at hi hl
    rcases hl with rfl | rfl | rfl
    · exact .inr ⟨_, _, rfl⟩
    · left
      have : i = 0 := by simp only at hli; omega
      subst this
      simp [exCubicShear, exThermalShear, Load.OnSpan, Load.IsMechanical]
    · left
      have : i = 1 := by simp only at hli; omega
      subst this
      simp [exCubicShear, exThermalShear, Load.OnSpan, Load.IsMechanical]
  · rw [hff _ (List.getElem_mem hi)] at h
    cases h
  · simp only [exCubicShear, exThermalShear, List.length_cons, List.length_nil] at hi
    have : i = 0 ∨ i = 1 := by omega
    rcases this with rfl | rfl
    · simp [coupleSum, ownLoads, exCubicShearLoads, Load.couplesAt]
    · simp [exCubicShear, exThermalShear] at hG

theorem exCubicShear_analysis : ∃ s, exCubicShear.system = .ok s ∧ s.Nonsingular ∧
    ∃ (solve : Solver ℝ) (res : Result ℝ), solve.Sound ∧
      exCubicShear.analyze (fun _ => true) solve = .ok res := by
  obtain ⟨s, hs⟩ : ∃ s, exCubicShear.system = .ok s := by
    rw [BeamDef.system, exCubicShear_loads]
    simp [exCubicShear, exThermalShear, exCubicShearLoads, mapE, Member.spanK, Member.refSum, Member.ref,
      Member.cnl, Load.getCnl, condenseFor, releaseRef]
  have hns := C77_adequate_supports exCubicShear (fun m hm => ⟨(exCubicShear_any.uniform m hm).good, by
      simp only [exCubicShear, exThermalShear, List.mem_cons, List.not_mem_nil, or_false] at hm
      rcases hm with rfl | rfl <;> rfl⟩) s hs 0 1 (by simp)
    (by simp [exCubicShear, exThermalShear]) (by simp [exCubicShear, exThermalShear])
    (Or.inl (by simp [exCubicShear, exThermalShear]))
  obtain ⟨_, _, _, _, hp, _, _⟩ := BeamDef.system_ok hs
  obtain ⟨solve, hsd, res, hres⟩ := BeamDef.completes hs hns (by
    simp only [System.validate, hp]
    have : ∀ i : ℕ, exCubicShear.presc.getD i none = none := by
      intro i
      rcases i with _ | _ | _ | _ | _ | _ | i <;> simp [exCubicShear, exThermalShear]
    simp only [this]
    simp)
  exact ⟨s, hs, hns, solve, res, hsd, hres⟩

/-- C146 at this beam: the analysis completes, and its displacements and end forces are within
`C · 5.4e-13` of the solution of the continuous problem. -/
example : ∃ (C : ℝ) (solve : Solver ℝ) (res : Result ℝ) (u : ℕ → ℝ) (F : ℕ → Vec4 ℝ)
    (v ψ : ℕ → ℝ → ℝ), 0 < C ∧ solve.Sound ∧
    exCubicShear.analyze (fun _ => true) solve = .ok res ∧
    ShearImposedBeam exCubicShear exCubicShearLoads u F v ψ ∧
    |res.d 3 - u 3| ≤ C * (54 / 10 ^ 14) ∧ |res.fmbr 0 3 - F 0 3| ≤ C * (54 / 10 ^ 14) := by
  obtain ⟨s, hs, hns, solve, res, hsd, hres⟩ := exCubicShear_analysis
  obtain ⟨C, hC, h⟩ := C146_shear_partial exCubicShear s hs hns
  obtain ⟨u, F, v, ψ, hE, _, hb⟩ := h exCubicShear.LM exCubicShear.presc rfl exCubicShear rfl _
    exCubicShear_loads exCubicShear_any _ solve hsd res hres
  obtain ⟨h1, h2⟩ := hb (54 / 10 ^ 14) (by norm_num) (by
    intro i hi
    have hi2 : i < 2 := by simpa [exCubicShear, exThermalShear] using hi
    interval_cases i
    · norm_num [curvErr, ownLoads, icErr, List.range_succ, exCubicShear, exThermalShear, exCubicShearLoads]
    · norm_num [curvErr, ownLoads, icErr, List.range_succ, exCubicShear, exThermalShear, exCubicShearLoads])
  exact ⟨C, solve, res, u, F, v, ψ, hC, hsd, hres, hE, h1 3 (by simp [exCubicShear, exThermalShear]),
    h2 0 (by simp [exCubicShear, exThermalShear]) 3⟩

end PyCBA
