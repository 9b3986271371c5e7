import Verif.Exact.Shear
import Verif.Exact.ImposedConverge

set_option linter.unusedSectionVars false
set_option linter.unusedSimpArgs false

/-!
C124 for shear-flexible members: a completed analysis of a beam of slender and shear-flexible
prismatic members under loads and imposed curvatures of degree at most two is the solution of
the continuous problem in which the sections shear and the curvature is that of the bending
moment plus the imposed one, and the only one.
-/

namespace PyCBA

open MeasureTheory Set Matrix

/-! ### The continuous problem -/

/-- The elastic line of a span that also shears, under loads and imposed curvatures:
`v' = ψ - g V` away from point forces, `ψ' = M / EI + κ` away from couples. -/
structure ShearImposedSpan (EI g L : ℝ) (own : List (Load ℝ)) (F : Vec4 ℝ) (v ψ : ℝ → ℝ) :
    Prop where
  slope : ∀ x ∈ Ioo 0 L, (∀ ld ∈ own, ∀ p ∈ ld.forces, p.2 ≠ x) →
    HasDerivAt v (ψ x - g * cutV L own F x) x
  curvature : ∀ x ∈ Ioo 0 L, (∀ ld ∈ own, ∀ p ∈ ld.couplesAt, p.2 ≠ x) →
    HasDerivAt ψ (cutM L own F x / EI + imposedCurv own x) x
  contV : ContinuousOn v (Icc 0 L)
  contT : ContinuousOn ψ (Icc 0 L)
  force : F 0 + F 2 = (own.map fun ld => ld.total L).sum
  moment : F 1 + F 3 + F 2 * L = (own.map fun ld => ld.momentAboutLeft L).sum

/-- The solution of the continuous problem of a beam of slender and shear-flexible members with
imposed curvatures: as `ShearBeam`. -/
structure ShearImposedBeam (b : BeamDef ℝ) (ls : List (SpanLoad ℝ)) (u : ℕ → ℝ) (F : ℕ → Vec4 ℝ)
    (v ψ : ℕ → ℝ → ℝ) : Prop where
  span : ∀ i (hi : i < b.members.length), ∀ e, b.members[i].EI = .const e →
    ShearImposedSpan e b.members[i].shearFlex b.members[i].L (ownLoads i ls) (F i) (v i) (ψ i)
  left : ∀ i < b.members.length, v i 0 = u (2 * i)
  right : ∀ i (hi : i < b.members.length), v i b.members[i].L = u (2 * i + 2)
  rotLeft : ∀ i (hi : i < b.members.length),
    if b.members[i].et.freeLeft then F i 1 = 0 else ψ i 0 = u (2 * i + 1)
  rotRight : ∀ i (hi : i < b.members.length),
    if b.members[i].et.freeRight then F i 3 = 0 else ψ i b.members[i].L = u (2 * i + 3)
  prescribed : ∀ p < 2 * b.members.length + 2, ∀ w, b.presc.getD p none = some w → u p = w
  rigid : ∀ p < 2 * b.members.length + 2, b.presc.getD p none = none →
    b.restraints.getD p 0 < 0 → u p = 0
  free : ∀ j ≤ b.members.length, ∀ c : Fin 2, b.presc.getD (2 * j + c) none = none →
    0 ≤ b.restraints.getD (2 * j + c) 0 → nodeSum b u F j c = 0

/-- Slender or shear-flexible prismatic members under loads that lie on their spans and imposed
curvatures of degree at most two. -/
structure BeamDef.UniformImposed (b : BeamDef ℝ) (ls : List (SpanLoad ℝ)) : Prop where
  pos : ∀ m ∈ b.members, 0 < m.L
  prismatic : ∀ m ∈ b.members, (∃ e, 0 < e ∧ m.EI = .const e) ∧
    (m.GAv = none ∨ ∃ g, 0 < g ∧ m.GAv = some (.const g))
  loads : ∀ i (hi : i < b.members.length), ∀ l ∈ ls, l.iSpan = (i : ℤ) →
    (l.load.OnSpan b.members[i].L ∧ l.load.IsMechanical) ∨ ∃ k E, l.load = .ic k E ∧ k.length ≤ 3

/-- On each pinned-pinned member the fixed-end moments of what acts on it balance, and on each
other shear-flexible member the couples do. -/
def BeamDef.ShearImposedBalanced (b : BeamDef ℝ) (ls : List (SpanLoad ℝ)) : Prop :=
  ∀ i (hi : i < b.members.length),
    (b.members[i].et = .PP → ∀ e, b.members[i].EI = .const e →
      (clampedSumE e b.members[i].L (ownLoads i ls)).Ma
        + (clampedSumE e b.members[i].L (ownLoads i ls)).Mb = 0) ∧
    (b.members[i].et ≠ .PP → b.members[i].GAv ≠ none → coupleSum (ownLoads i ls) = 0)

theorem BeamDef.UniformImposed.own {b : BeamDef ℝ} {ls : List (SpanLoad ℝ)}
    (h : b.UniformImposed ls) (hls : b.setLoads = .ok ls) (i : ℕ) (hi : i < b.members.length) :
    ∀ ld ∈ ownLoads i ls, ld.Imposable b.members[i].L := by
  intro ld hld
  simp only [ownLoads, List.mem_map, List.mem_filter, decide_eq_true_eq] at hld
  obtain ⟨l, ⟨h1, h2⟩, rfl⟩ := hld
  rcases h.loads i hi l h1 h2 with h3 | h3
  · exact .inl ⟨h3.1, h3.2, b.setLoads_no_mamb hls l h1⟩
  · exact .inr h3

theorem BeamDef.UniformImposed.good {b : BeamDef ℝ} {ls : List (SpanLoad ℝ)}
    (h : b.UniformImposed ls) {m : Member ℝ} (hm : m ∈ b.members) : m.Good := by
  obtain ⟨⟨e, he, hEI⟩, hG⟩ := h.prismatic m hm
  refine ⟨h.pos m hm, by rw [hEI]; exact he, fun g hg => ?_⟩
  rcases hG with hG | ⟨g', hg', hG⟩
  · rw [hG] at hg; cases hg
  · rw [hG] at hg; cases hg; exact hg'

/-! ### One span -/

theorem cutV_mechOnly (L : ℝ) (own : List (Load ℝ)) (F : Vec4 ℝ) (x : ℝ) :
    cutV L (mechOnly own) F x = cutV L own F x := by
  simp only [cutV]
  rw [sum_mechOnly own (fun ld => ld.forceLeft L x) fun k E => by
    simp [Load.forceLeft, Load.intensity, Load.forces]]

theorem coupleSum_mechOnly (own : List (Load ℝ)) : coupleSum (mechOnly own) = coupleSum own :=
  sum_mechOnly own (fun ld => (ld.couplesAt.map Prod.fst).sum) fun _ _ => rfl

theorem mechOnly_forces (own : List (Load ℝ)) (x : ℝ) :
    (∀ ld ∈ mechOnly own, ∀ p ∈ ld.forces, p.2 ≠ x) ↔ ∀ ld ∈ own, ∀ p ∈ ld.forces, p.2 ≠ x := by
  constructor
  · intro h ld hld p hp
    refine h ld ?_ p hp
    simp only [mechOnly, List.mem_filter]
    refine ⟨hld, ?_⟩
    cases ld <;> simp [Load.forces, Load.isMech] at hp ⊢
  · intro h ld hld
    exact h ld (List.mem_of_mem_filter hld)

/-- Taking off the free shape of the imposed curvatures leaves the line of the loads. -/
theorem shearImposedSpan_iff {EI g L : ℝ} {own : List (Load ℝ)}
    (hown : ∀ ld ∈ own, ld.Imposable L) (F : Vec4 ℝ) (v ψ : ℝ → ℝ) :
    ShearImposedSpan EI g L own F v ψ ↔
    ShearSpan EI g L (mechOnly own) F (fun x => v x - imposedDefl own x)
      (fun x => ψ x - imposedRot own x) := by
  have cD : Continuous (imposedDefl own) :=
    continuous_iff_continuousAt.mpr fun x => (imposedDefl_deriv own x).continuousAt
  have cR : Continuous (imposedRot own) :=
    continuous_iff_continuousAt.mpr fun x => (imposedRot_deriv hown x).continuousAt
  have e1 : ((mechOnly own).map fun ld => ld.total L).sum = (own.map fun ld => ld.total L).sum :=
    sum_mechOnly own _ fun k E => by
      simp [Load.total, Load.intensity, Load.forces]
  have e2 : ((mechOnly own).map fun ld => ld.momentAboutLeft L).sum
      = (own.map fun ld => ld.momentAboutLeft L).sum :=
    sum_mechOnly own _ fun k E => by
      simp [Load.momentAboutLeft, Load.intensity, Load.forces, Load.couples]
  constructor
  · intro h
    refine ⟨fun x hx hf => ?_, fun x hx hc => ?_,
      h.contV.sub cD.continuousOn, h.contT.sub cR.continuousOn, by rw [e1]; exact h.force,
      by rw [e2]; exact h.moment⟩
    · refine ((h.slope x hx ((mechOnly_forces own x).1 hf)).sub
        (imposedDefl_deriv own x)).congr_deriv ?_
      rw [cutV_mechOnly]
      ring
    · refine ((h.curvature x hx ((mechOnly_couples own x).1 hc)).sub
        (imposedRot_deriv hown x)).congr_deriv ?_
      rw [cutM_mechOnly]
      ring
  · intro h
    have ev : v = fun x => (v x - imposedDefl own x) + imposedDefl own x := by ext x; ring
    have et : ψ = fun x => (ψ x - imposedRot own x) + imposedRot own x := by ext x; ring
    refine ⟨fun x hx hf => ?_, fun x hx hc => ?_, ?_, ?_, by rw [← e1]; exact h.force,
      by rw [← e2]; exact h.moment⟩
    · rw [ev]
      refine ((h.slope x hx ((mechOnly_forces own x).2 hf)).add
        (imposedDefl_deriv own x)).congr_deriv ?_
      rw [cutV_mechOnly]
      ring
    · rw [et]
      refine ((h.curvature x hx ((mechOnly_couples own x).2 hc)).add
        (imposedRot_deriv hown x)).congr_deriv ?_
      rw [cutM_mechOnly]
    · rw [ev]
      exact h.contV.add cD.continuousOn
    · rw [et]
      exact h.contT.add cR.continuousOn

/-- The end displacements and end forces of a shear-flexible span with imposed curvatures. -/
theorem ShearImposedSpan.stiffness {EI g L : ℝ} (hE : EI ≠ 0) (hL : 0 < L) {own : List (Load ℝ)}
    (hown : ∀ ld ∈ own, ld.Imposable L) {F : Vec4 ℝ} {v ψ : ℝ → ℝ}
    (h : ShearImposedSpan EI g L own F v ψ) :
    F = kFF EI L *ᵥ ![v 0 - g * F 1, ψ 0, v L + g * (F 3 + coupleSum own), ψ L]
      + (clampedSumE EI L own).vec := by
  have h1 := ((shearImposedSpan_iff hown F v ψ).1 h).stiffness hE hL (mechOnly_plain hown)
  obtain ⟨z1, z2⟩ := imposed_start own
  rw [clampedSumE_vec hL hown]
  rw [coupleSum_mechOnly] at h1
  have e : (![v 0 - imposedDefl own 0 - g * F 1, ψ 0 - imposedRot own 0,
      v L - imposedDefl own L + g * (F 3 + coupleSum own), ψ L - imposedRot own L] : Vec4 ℝ)
      = ![v 0 - g * F 1, ψ 0, v L + g * (F 3 + coupleSum own), ψ L]
        - ![0, 0, imposedDefl own L, imposedRot own L] := by
    ext p
    fin_cases p <;> simp [z1, z2]
    ring
  simp only [e, Matrix.mulVec_sub] at h1
  refine h1.trans ?_
  abel

theorem shearImposedSpan_of_stiffness {EI g L : ℝ} (hE : EI ≠ 0) (hL : 0 < L)
    {own : List (Load ℝ)} (hown : ∀ ld ∈ own, ld.Imposable L) (F d : Vec4 ℝ)
    (h : F = kFF EI L *ᵥ ![d 0 - g * F 1, d 1, d 2 + g * (F 3 + coupleSum own), d 3]
      + (clampedSumE EI L own).vec) :
    ∃ v ψ : ℝ → ℝ, ShearImposedSpan EI g L own F v ψ ∧ v 0 = d 0 ∧ ψ 0 = d 1 ∧ v L = d 2 ∧
      ψ L = d 3 := by
  obtain ⟨v, ψ, h1, h2, h3, h4, h5⟩ := shearSpan_of_stiffness (g := g) hE hL (mechOnly_plain hown) F
    (d - ![0, 0, imposedDefl own L, imposedRot own L]) (by
      rw [coupleSum_mechOnly]
      have e : (![(d - ![0, 0, imposedDefl own L, imposedRot own L]) 0 - g * F 1,
          (d - ![0, 0, imposedDefl own L, imposedRot own L]) 1,
          (d - ![0, 0, imposedDefl own L, imposedRot own L]) 2 + g * (F 3 + coupleSum own),
          (d - ![0, 0, imposedDefl own L, imposedRot own L]) 3] : Vec4 ℝ)
          = ![d 0 - g * F 1, d 1, d 2 + g * (F 3 + coupleSum own), d 3]
            - ![0, 0, imposedDefl own L, imposedRot own L] := by
        ext p
        fin_cases p <;> simp
        ring
      rw [e, Matrix.mulVec_sub]
      rw [clampedSumE_vec hL hown] at h
      refine h.trans ?_
      abel)
  obtain ⟨z1, z2⟩ := imposed_start own
  refine ⟨fun x => v x + imposedDefl own x, fun x => ψ x + imposedRot own x, ?_, ?_, ?_, ?_, ?_⟩
  · rw [shearImposedSpan_iff hown]
    simpa using h1
  · simp [h2, z2]
  · simp [h3, z1]
  · simp [h4]
  · simp [h5]

/-- Two lines with the same end forces and left end agree. -/
theorem ShearImposedSpan.unique {EI g L : ℝ} (hL : 0 < L) {own : List (Load ℝ)}
    (hown : ∀ ld ∈ own, ld.Imposable L) {F : Vec4 ℝ} {v ψ v' ψ' : ℝ → ℝ}
    (h : ShearImposedSpan EI g L own F v ψ) (h' : ShearImposedSpan EI g L own F v' ψ')
    (e1 : v 0 = v' 0) (e2 : ψ 0 = ψ' 0) : ∀ x ∈ Icc 0 L, v x = v' x ∧ ψ x = ψ' x := by
  intro x hx
  have hp := mechOnly_plain hown
  obtain ⟨a1, a2⟩ := (((shearImposedSpan_iff hown F v ψ).1 h).bending hL hp).eq_line hL hp
  obtain ⟨b1, b2⟩ := (((shearImposedSpan_iff hown F v' ψ').1 h').bending hL hp).eq_line hL hp
  have a1' := a1 x hx
  have a2' := a2 x hx
  have b1' := b1 x hx
  have b2' := b2 x hx
  simp only [e1, e2] at a1' a2'
  rw [← b1'] at a1'
  rw [← b2'] at a2'
  exact ⟨by linarith, by linarith⟩

/-! ### The beam -/

theorem Member.cnl_clampedE (m : Member ℝ) (hL : 0 < m.L) {e : ℝ} (hEI : m.EI = .const e)
    {ld : Load ℝ} (hp : ld.Imposable m.L) : m.cnl ld = .ok (ld.clampedE e m.L) := by
  rcases hp with hp | ⟨k, E, hk, _⟩
  · have h1 := hp.2.1
    have h2 := hp.getCnl hL
    cases ld <;> first | exact h1.elim | simp only [Member.cnl, h2, Load.clampedE]
  · rw [hk]
    simp only [Member.cnl, hEI, Load.clampedE]

theorem timo_sumE (e g L : ℝ) (own : List (Load ℝ)) :
    (⟨(own.map fun ld => (refTimoFF (ld.clampedE e L) e g L).Va).sum,
      (own.map fun ld => (refTimoFF (ld.clampedE e L) e g L).Ma).sum,
      (own.map fun ld => (refTimoFF (ld.clampedE e L) e g L).Vb).sum,
      (own.map fun ld => (refTimoFF (ld.clampedE e L) e g L).Mb).sum⟩ : CNL ℝ)
      = refTimoFF (clampedSumE e L own) e g L := by
  induction own with
  | nil => simp [clampedSumE, refTimoFF, refFF]
  | cons a l ih =>
    have h0 := congrArg CNL.Va ih
    have h1 := congrArg CNL.Ma ih
    have h2 := congrArg CNL.Vb ih
    have h3 := congrArg CNL.Mb ih
    simp only [List.map_cons, List.sum_cons, clampedSumE] at h0 h1 h2 h3 ⊢
    rw [h0, h1, h2, h3]
    ext <;> simp only [refTimoFF, refFF] <;> ring

/-- The forces of a member of a completed analysis, as forces of the clamped slender member
whose end deflections are the bending parts. -/
theorem BeamDef.UniformImposed.endForces {b : BeamDef ℝ} {ls : List (SpanLoad ℝ)} (h : b.UniformImposed ls)
    (hls : b.setLoads = .ok ls) {s : System ℝ} (hs : b.system = .ok s) (i : ℕ)
    (hi : i < b.members.length) (hpp : b.members[i].et ≠ .PP) (e : ℝ)
    (he : b.members[i].EI = .const e) (d : ℕ → ℝ) (F : Vec4 ℝ) :
    F = s.endForces d i ↔ ∃ d' : Vec4 ℝ,
      (∀ p, p ∉ b.members[i].et.released → d' p = elemVec d i p) ∧
      (∀ r ∈ b.members[i].et.released, F r = 0) ∧
      F = kFF e b.members[i].L *ᵥ ![d' 0 - b.members[i].shearFlex * F 1, d' 1,
          d' 2 + b.members[i].shearFlex * F 3, d' 3]
        + (clampedSumE e b.members[i].L (ownLoads i ls)).vec := by
  obtain ⟨_, hk, ⟨ls', hls', href⟩, _⟩ := BeamDef.system_ok hs
  rw [hls] at hls'
  cases hls'
  have hmem := List.getElem_mem hi
  have hgood := h.good hmem
  have hown := h.own hls i hi
  have hG := (h.prismatic _ hmem).2
  have h1 := hk i hi
  obtain ⟨c, hc1, hc2⟩ := href i hi
  generalize b.members[i] = m at *
  have hL := hgood.1
  have hepos : 0 < e := by have := hgood.2.1; rw [he] at this; exact this
  obtain ⟨kff, kr, f1, f2, f3, _⟩ := C14_release_is_condensation m hgood
  have hkr : s.kb i = kr := by
    rw [f2] at h1
    exact (Except.ok.inj h1).symm
  have hF : s.endForces d i = kr *ᵥ elemVec d i + c.vec := by
    simp only [System.endForces, hkr, hc2]
  have hcl : ∀ l ∈ ls, l.iSpan = (i : ℤ) → m.cnl l.load = .ok (l.load.clampedE e m.L) := by
    intro l hl hli
    have hp : l.load.Imposable m.L := hown _ (by
      simp only [ownLoads, List.mem_map, List.mem_filter, decide_eq_true_eq]
      exact ⟨l, ⟨hl, hli⟩, rfl⟩)
    exact m.cnl_clampedE hL he hp
  have hrel : ∀ l ∈ ls, l.iSpan = (i : ℤ) → ∀ c', m.ref l.load = .ok c' → ∃ c0,
      ({ m with et := .FF } : Member ℝ).ref l.load = .ok c0 ∧
      IsReleasedForce kff c0 c' m.et.released := by
    intro l hl hli c' hc'
    obtain ⟨kff', c0, c'', g1, g2, g3, g4⟩ := C04_member_release_partial m hgood hpp l.load _
      (hcl l hl hli)
    rw [f1] at g1
    rw [hc'] at g3
    cases g1
    cases g3
    exact ⟨c0, g2, g4⟩
  rw [hF]
  rcases hG with hG | ⟨g, hg, hG⟩
  · have hsum := refSum_released f3 i (fun ld => ld.clampedE e m.L) ls (by
      intro l hl hli c' hc'
      obtain ⟨c0, g2, g4⟩ := hrel l hl hli c' hc'
      have g5 := hcl l hl hli
      have : ({ m with et := .FF } : Member ℝ).cnl l.load = .ok (l.load.clampedE e m.L) := g5
      rw [hG, he] at this
      simp only [Member.ref, hG, he, this, releaseCnl, sub_zero, Except.ok.injEq] at g2
      rw [← g2] at g4
      exact g4) c hc1
    rw [released_iff f3 hsum]
    have hkff : kff = kFF e m.L := by
      simp only [Member.spanK, hG, he] at f1
      exact (Except.ok.inj f1).symm
    have hsf : m.shearFlex = 0 := by simp only [Member.shearFlex, hG]
    simp only [hsf, zero_mul, sub_zero, add_zero, hkff]
    refine exists_congr fun d' => ?_
    have : (![d' 0, d' 1, d' 2, d' 3] : Vec4 ℝ) = d' := by
      ext p
      fin_cases p <;> rfl
    rw [this]
    rfl
  · have hsum := refSum_released f3 i (fun ld => refTimoFF (ld.clampedE e m.L) e g m.L) ls (by
      intro l hl hli c' hc'
      obtain ⟨c0, g2, g4⟩ := hrel l hl hli c' hc'
      have g5 := hcl l hl hli
      have : ({ m with et := .FF } : Member ℝ).cnl l.load = .ok (l.load.clampedE e m.L) := g5
      rw [hG, he] at this
      simp only [Member.ref, hG, he, this, releaseRef, Except.ok.injEq] at g2
      rw [← g2] at g4
      exact g4) c hc1
    rw [timo_sumE] at hsum
    rw [released_iff f3 hsum]
    have hkff : kff = kFFtimo e g m.L := by
      simp only [Member.spanK, hG, he, condenseFor] at f1
      exact (Except.ok.inj f1).symm
    have hsf : m.shearFlex = 1 / g := by simp only [Member.shearFlex, hG]
    simp only [hsf, hkff]
    exact exists_congr fun d' => by rw [timo_iff hepos hg hL]

/-- The end forces of a pinned-pinned member do not depend on its displacements. -/
theorem BeamDef.UniformImposed.pinnedForces {b : BeamDef ℝ} {ls : List (SpanLoad ℝ)} (h : b.UniformImposed ls)
    (hls : b.setLoads = .ok ls) {s : System ℝ} (hs : b.system = .ok s) (i : ℕ)
    (hi : i < b.members.length) (hpp : b.members[i].et = .PP) (e : ℝ)
    (hEI : b.members[i].EI = .const e) : ∃ r : ℝ, 0 < r ∧ ∀ d : ℕ → ℝ, s.endForces d i =
      ![(clampedSumE e b.members[i].L (ownLoads i ls)).Va
          + (2 * r - 1) * (((clampedSumE e b.members[i].L (ownLoads i ls)).Ma
            + (clampedSumE e b.members[i].L (ownLoads i ls)).Mb) / b.members[i].L), 0,
        (clampedSumE e b.members[i].L (ownLoads i ls)).Vb
          - (2 * r - 1) * (((clampedSumE e b.members[i].L (ownLoads i ls)).Ma
            + (clampedSumE e b.members[i].L (ownLoads i ls)).Mb) / b.members[i].L), 0] := by
  obtain ⟨_, hk, ⟨ls', hls', href⟩, _⟩ := BeamDef.system_ok hs
  rw [hls] at hls'
  cases hls'
  have hmem := List.getElem_mem hi
  have hgood := h.good hmem
  have hown := h.own hls i hi
  obtain ⟨⟨e', he, hEI'⟩, hG⟩ := h.prismatic _ hmem
  have := hEI.symm.trans hEI'
  cases this
  have h1 := hk i hi
  obtain ⟨c, hc1, hc2⟩ := href i hi
  generalize b.members[i] = m at *
  have hL := hgood.1
  have hL0 := hL.ne'
  have hcl : ∀ l ∈ ls, l.iSpan = (i : ℤ) → m.cnl l.load = .ok (l.load.clampedE e m.L) := by
    intro l hl hli
    have hp : l.load.Imposable m.L := hown _ (by
      simp only [ownLoads, List.mem_map, List.mem_filter, decide_eq_true_eq]
      exact ⟨l, ⟨hl, hli⟩, rfl⟩)
    exact m.cnl_clampedE hL hEI hp
  obtain ⟨r, hr, hkz, href'⟩ : ∃ r : ℝ, 0 < r ∧ (∀ d, s.kb i *ᵥ d = 0) ∧
      ∀ l ∈ ls, l.iSpan = (i : ℤ) → ∀ c', m.ref l.load = .ok c' →
        c' = ⟨(l.load.clampedE e m.L).Va + (2 * r - 1) * (((l.load.clampedE e m.L).Ma
            + (l.load.clampedE e m.L).Mb) / m.L), 0,
          (l.load.clampedE e m.L).Vb - (2 * r - 1) * (((l.load.clampedE e m.L).Ma
            + (l.load.clampedE e m.L).Mb) / m.L), 0⟩ := by
    rcases hG with hG | ⟨g, hg, hG⟩
    · refine ⟨1, one_pos, fun d => ?_, fun l hl hli c' hc' => ?_⟩
      · simp only [Member.spanK, hG, hEI, hpp, Except.ok.injEq] at h1
        rw [← h1]
        ext p
        fin_cases p <;> simp [kOf, kPP, Matrix.mulVec, dotProduct, Fin.sum_univ_four]
      · have g5 := hcl l hl hli
        simp only [Member.ref, hG, hEI, hpp] at hc' g5
        simp only [g5, releaseCnl, sub_zero, Except.ok.injEq] at hc'
        rw [← hc']
        ext <;> simp <;> ring
    · have hd0 : 0 < g * m.L ^ 2 + 12 * e := by positivity
      refine ⟨g * m.L ^ 2 / (g * m.L ^ 2 + 12 * e), by positivity, fun d => ?_,
        fun l hl hli c' hc' => ?_⟩
      · obtain ⟨kff, kr, f1, f2, f3, _⟩ := C14_release_is_condensation m hgood
        have hkr : s.kb i = kr := by
          rw [f2] at h1
          exact (Except.ok.inj h1).symm
        have hkff : kff = kFFtimo e g m.L := by
          simp only [Member.spanK, hG, hEI, condenseFor] at f1
          exact (Except.ok.inj f1).symm
        obtain ⟨d', e1, e2⟩ := f3.1 d
        rw [hkr, f3.2 d d' e1 e2]
        have z1 := e2 1 (by simp [hpp, EType.released])
        have z3 := e2 3 (by simp [hpp, EType.released])
        have y0 : ∀ (y : Vec4 ℝ), (kFFtimo e g m.L *ᵥ y) 0
            = ((kFFtimo e g m.L *ᵥ y) 1 + (kFFtimo e g m.L *ᵥ y) 3) / m.L ∧
            (kFFtimo e g m.L *ᵥ y) 2
            = -((kFFtimo e g m.L *ᵥ y) 1 + (kFFtimo e g m.L *ᵥ y) 3) / m.L := by
          intro y
          simp only [mulVec4]
          simp [kFFtimo]
          constructor <;> field_simp <;> ring
        rw [hkff] at z1 z3 ⊢
        ext p
        fin_cases p
        · have := (y0 d').1
          rw [z1, z3] at this
          simpa using this
        · exact z1
        · have := (y0 d').2
          rw [z1, z3] at this
          simpa using this
        · exact z3
      · have g5 := hcl l hl hli
        simp only [Member.ref, hG, hEI, hpp] at hc' g5
        simp only [g5, releaseRef, Except.ok.injEq] at hc'
        rw [← hc']
        ext <;> simp only [refTimoFF, refFF] <;> field_simp <;> ring
  have hown' : ∀ f : Load ℝ → ℝ,
      ((ls.filter fun l => l.iSpan = (i : ℤ)).map fun l => f l.load) = (ownLoads i ls).map f := by
    intro f
    simp [ownLoads, List.map_map, Function.comp_def]
  have lin : ∀ (φ : CNL ℝ → ℝ) (_ : φ ⟨0, 0, 0, 0⟩ = 0)
      (_ : ∀ c t : CNL ℝ, φ ⟨c.Va + t.Va, c.Ma + t.Ma, c.Vb + t.Vb, c.Mb + t.Mb⟩ = φ c + φ t)
      (p q w z : ℝ) (_ : ∀ C : CNL ℝ, φ ⟨C.Va + (2 * r - 1) * ((C.Ma + C.Mb) / m.L), 0,
        C.Vb - (2 * r - 1) * ((C.Ma + C.Mb) / m.L), 0⟩
          = p * C.Va + q * C.Ma + w * C.Vb + z * C.Mb),
      φ c = p * (clampedSumE e m.L (ownLoads i ls)).Va + q * (clampedSumE e m.L (ownLoads i ls)).Ma
        + w * (clampedSumE e m.L (ownLoads i ls)).Vb + z * (clampedSumE e m.L (ownLoads i ls)).Mb := by
    intro φ h0 hadd p q w z hφ
    rw [m.refSum_lin i φ h0 hadd (fun l => p * (l.load.clampedE e m.L).Va
      + q * (l.load.clampedE e m.L).Ma + w * (l.load.clampedE e m.L).Vb
      + z * (l.load.clampedE e m.L).Mb) ls (fun l hl hli c' hc' => by
        rw [href' l hl hli c' hc', hφ]) c hc1,
      hown' (fun ld => p * (ld.clampedE e m.L).Va + q * (ld.clampedE e m.L).Ma
        + w * (ld.clampedE e m.L).Vb + z * (ld.clampedE e m.L).Mb)]
    exact sum_clampedE e m.L _ _ p q w z fun _ _ => rfl
  refine ⟨r, hr, fun d => ?_⟩
  have hF : s.endForces d i = s.kb i *ᵥ elemVec d i + c.vec := by
    simp only [System.endForces, hc2]
  rw [hF, hkz, zero_add]
  have a0 := lin (fun c => c.Va) rfl (fun _ _ => rfl) 1 ((2 * r - 1) / m.L) 0 ((2 * r - 1) / m.L)
    (fun C => by simp only; ring)
  have a1 := lin (fun c => c.Ma) rfl (fun _ _ => rfl) 0 0 0 0 (fun C => by simp)
  have a2 := lin (fun c => c.Vb) rfl (fun _ _ => rfl) 0 (-(2 * r - 1) / m.L) 1
    (-(2 * r - 1) / m.L) (fun C => by simp only; ring)
  have a3 := lin (fun c => c.Mb) rfl (fun _ _ => rfl) 0 0 0 0 (fun C => by simp)
  ext p
  fin_cases p <;> simp [CNL.vec, a0, a1, a2, a3] <;> ring

/-- The forces of a member of a balanced beam, as forces of the clamped slender member
whose end deflections are the bending parts of those of the member. -/
theorem BeamDef.UniformImposed.memberForces {b : BeamDef ℝ} {ls : List (SpanLoad ℝ)} (h : b.UniformImposed ls)
    (hls : b.setLoads = .ok ls) (hc : b.ShearImposedBalanced ls) {s : System ℝ} (hs : b.system = .ok s)
    (i : ℕ) (hi : i < b.members.length) (e : ℝ) (he : b.members[i].EI = .const e) (d : ℕ → ℝ)
    (F : Vec4 ℝ) :
    F = s.endForces d i ↔ ∃ d' : Vec4 ℝ,
      (∀ p, p ∉ b.members[i].et.released → d' p = elemVec d i p) ∧
      (∀ r ∈ b.members[i].et.released, F r = 0) ∧
      F = kFF e b.members[i].L *ᵥ ![d' 0 - b.members[i].shearFlex * F 1, d' 1,
          d' 2 + b.members[i].shearFlex * (F 3 + coupleSum (ownLoads i ls)), d' 3]
        + (clampedSumE e b.members[i].L (ownLoads i ls)).vec := by
  by_cases hpp : b.members[i].et = .PP
  · obtain ⟨⟨e', he', hEI⟩, _⟩ := h.prismatic _ (List.getElem_mem hi)
    rw [he] at hEI
    cases hEI
    obtain ⟨r, _, hF⟩ := h.pinnedForces hls hs i hi hpp e he
    have hbal := (hc i hi).1 hpp e he
    have key := release_iff he' (h.pos _ (List.getElem_mem hi)) .PP
      (clampedSumE e b.members[i].L (ownLoads i ls)) (fun _ => hbal) F
      ![elemVec d i 0, 0, elemVec d i 2 + b.members[i].shearFlex * coupleSum (ownLoads i ls), 0]
    have e1 : s.endForces d i = kOf e b.members[i].L .PP *ᵥ ![elemVec d i 0, 0,
        elemVec d i 2 + b.members[i].shearFlex * coupleSum (ownLoads i ls), 0]
        + (releaseCnl (clampedSumE e b.members[i].L (ownLoads i ls)) b.members[i].L .PP).vec := by
      rw [hF d, hbal]
      ext p
      fin_cases p <;>
        simp [kOf, kPP, Matrix.mulVec, dotProduct, Fin.sum_univ_four, releaseCnl, CNL.vec, hbal]
    rw [e1, key, hpp]
    simp only [EType.freeLeft, EType.freeRight, if_true, EType.released]
    constructor
    · rintro ⟨t1, t3, g, g1, g3⟩
      refine ⟨![elemVec d i 0, t1, elemVec d i 2, t3], fun p hp => ?_, fun q hq => ?_, ?_⟩
      · fin_cases p
        · rfl
        · exact absurd hp (by simp)
        · rfl
        · exact absurd hp (by simp)
      · simp only [List.mem_cons, List.not_mem_nil, or_false] at hq
        rcases hq with rfl | rfl
        · exact g1
        · exact g3
      · rw [g1, g3]
        simpa using g
    · rintro ⟨d', g1, g2, g3⟩
      have z1 := g2 1 (by simp)
      have z3 := g2 3 (by simp)
      refine ⟨d' 1, d' 3, ?_, z1, z3⟩
      rw [z1, z3, g1 0 (by simp), g1 2 (by simp)] at g3
      simpa using g3
  · rw [h.endForces hls hs i hi hpp e he d F]
    have h0 : b.members[i].shearFlex * coupleSum (ownLoads i ls) = 0 := by
      by_cases hG : b.members[i].GAv = none
      · simp only [Member.shearFlex, hG, zero_mul]
      · rw [(hc i hi).2 hpp hG, mul_zero]
    simp only [mul_add, h0, add_zero]

/-- A solution of the stiffness equations gives the lines of the continuous problem. -/
theorem shearImposedBeam_of_solution {b : BeamDef ℝ} {ls : List (SpanLoad ℝ)}
    (hls : b.setLoads = .ok ls) (hb : b.UniformImposed ls) (hc : b.ShearImposedBalanced ls)
    {s : System ℝ} (h1 : b.system = .ok s) {u : ℕ → ℝ} (hu : s.IsSolution u) :
    ∃ v ψ : ℕ → ℝ → ℝ, ShearImposedBeam b ls u (s.endForces u) v ψ := by
  obtain ⟨hn, hk, _, hr, hp, _, _⟩ := BeamDef.system_ok h1
  obtain ⟨hd, hf⟩ := hu
  have key : ∀ i, ∃ v ψ : ℝ → ℝ, ∀ hi : i < b.members.length,
      (∀ e, b.members[i].EI = .const e →
        ShearImposedSpan e b.members[i].shearFlex b.members[i].L (ownLoads i ls) (s.endForces u i) v ψ) ∧
      v 0 = u (2 * i) ∧ v b.members[i].L = u (2 * i + 2) ∧
      (if b.members[i].et.freeLeft then s.endForces u i 1 = 0 else ψ 0 = u (2 * i + 1)) ∧
      (if b.members[i].et.freeRight then s.endForces u i 3 = 0
        else ψ b.members[i].L = u (2 * i + 3)) := by
    intro i
    by_cases hi : i < b.members.length
    · obtain ⟨⟨e, he, hEI⟩, _⟩ := hb.prismatic _ (List.getElem_mem hi)
      have hL := hb.pos _ (List.getElem_mem hi)
      obtain ⟨d', g1, g2, g3⟩ := (hb.memberForces hls hc h1 i hi e hEI u
        (s.endForces u i)).1 rfl
      obtain ⟨v, ψ, k1, k2, k3, k4, k5⟩ := shearImposedSpan_of_stiffness (g := b.members[i].shearFlex)
        he.ne' hL (hb.own hls i hi) _ d' g3
      refine ⟨v, ψ, fun _ => ⟨fun e' he' => ?_, ?_, ?_, ?_, ?_⟩⟩
      · rw [hEI] at he'
        cases he'
        exact k1
      · rw [k2, g1 0 (released_defl _).1]; rfl
      · rw [k4, g1 2 (released_defl _).2]; rfl
      · split_ifs with hfree
        · exact g2 1 ((released_left _).2 hfree)
        · rw [k3, g1 1 fun h => hfree ((released_left _).1 h)]; rfl
      · split_ifs with hfree
        · exact g2 3 ((released_right _).2 hfree)
        · rw [k5, g1 3 fun h => hfree ((released_right _).1 h)]; rfl
    · exact ⟨0, 0, fun h => absurd h hi⟩
  choose v ψ hvψ using key
  refine ⟨v, ψ, ⟨fun i hi => (hvψ i hi).1, fun i hi => (hvψ i hi).2.1, fun i hi => (hvψ i hi).2.2.1,
    fun i hi => (hvψ i hi).2.2.2.1, fun i hi => (hvψ i hi).2.2.2.2, ?_, ?_, ?_⟩⟩
  · intro p hpN w hw
    exact hd p (by simp only [System.N, hn]; exact hpN) w (by simp only [System.constr, hp, hw])
  · intro p hpN hw hneg
    exact hd p (by simp only [System.N, hn]; exact hpN) 0 (by
      simp only [System.constr, hp, hw, hr, if_pos hneg])
  · intro j hj c hw hpos
    have hc := c.isLt
    rw [nodeSum_residual h1 _ j hj c]
    exact hf _ (by simp only [System.N, hn]; omega) (by
      simp only [System.constr, hp, hw, hr, if_neg (not_lt.mpr hpos)])

/-- Lines of the continuous problem give a solution of the stiffness equations, with its end
forces. -/
theorem ShearImposedBeam.solution {b : BeamDef ℝ} {ls : List (SpanLoad ℝ)}
    (hls : b.setLoads = .ok ls) (hb : b.UniformImposed ls) (hc : b.ShearImposedBalanced ls)
    {s : System ℝ} (hs : b.system = .ok s) {u : ℕ → ℝ} {F : ℕ → Vec4 ℝ} {v ψ : ℕ → ℝ → ℝ}
    (h : ShearImposedBeam b ls u F v ψ) :
    (∀ i < b.members.length, F i = s.endForces u i) ∧ s.IsSolution u := by
  obtain ⟨hn, hk, _, hr, hp, _, _⟩ := BeamDef.system_ok hs
  have hN : s.N = 2 * b.members.length + 2 := by simp only [System.N, hn]
  have hF : ∀ i < b.members.length, F i = s.endForces u i := by
    intro i hi
    obtain ⟨⟨e, he, hEI⟩, _⟩ := hb.prismatic _ (List.getElem_mem hi)
    have hL := hb.pos _ (List.getElem_mem hi)
    rw [hb.memberForces hls hc hs i hi e hEI u]
    have h1 := (h.span i hi e hEI).stiffness he.ne' hL (hb.own hls i hi)
    have hl := h.rotLeft i hi
    have hr := h.rotRight i hi
    refine ⟨![v i 0, ψ i 0, v i b.members[i].L, ψ i b.members[i].L], fun p hp => ?_,
      fun r hr' => ?_, h1⟩
    · fin_cases p
      · exact h.left i hi
      · rw [if_neg (fun hh => hp ((released_left _).2 hh))] at hl
        exact hl
      · exact h.right i hi
      · rw [if_neg (fun hh => hp ((released_right _).2 hh))] at hr
        exact hr
    · fin_cases r
      · exact absurd hr' (released_defl _).1
      · rw [if_pos ((released_left _).1 hr')] at hl
        exact hl
      · exact absurd hr' (released_defl _).2
      · rw [if_pos ((released_right _).1 hr')] at hr
        exact hr
  refine ⟨hF, fun p hpN w hw => ?_, fun p hpN hc => ?_⟩
  · simp only [System.constr, hp, hr] at hw
    rcases hq : b.presc.getD p none with _ | w'
    · rw [hq] at hw
      simp only at hw
      split_ifs at hw with hneg
      cases hw
      exact h.rigid p (by omega) hq hneg
    · rw [hq] at hw
      cases hw
      exact h.prescribed p (by omega) w hq
  · simp only [System.constr, hp, hr] at hc
    rcases hq : b.presc.getD p none with _ | w'
    · rw [hq] at hc
      simp only at hc
      split_ifs at hc with hneg
      have e : 2 * (p / 2) + ((⟨p % 2, Nat.mod_lt _ (by norm_num)⟩ : Fin 2) : ℕ) = p := by
        simp only; omega
      have := h.free (p / 2) (by omega) ⟨p % 2, Nat.mod_lt _ (by norm_num)⟩ (by rw [e]; exact hq)
        (by rw [e]; exact not_lt.mp hneg)
      have e2 := nodeSum_residual hs u (p / 2) (by omega) ⟨p % 2, Nat.mod_lt _ (by norm_num)⟩
      rw [e] at e2
      rw [← e2, ← this]
      simp only [nodeSum]
      congr 2
      · split_ifs with h0
        · rw [hF (p / 2 - 1) (by omega)]
        · rfl
      · split_ifs with h0
        · rw [hF (p / 2) h0]
        · rfl
    · rw [hq] at hc
      cases hc

/-- **C124, partial**: a completed analysis of a beam of slender and shear-flexible prismatic
members under loads and imposed curvatures of degree at most two is a solution of the continuous
problem: there are lines that fit the reported nodal displacements and member end forces.
Missing are curvatures of higher degree, members on which the loads do not balance and tapered
and foundation-supported members. -/
theorem C124_shear_exact_partial (b : BeamDef ℝ) (ls : List (SpanLoad ℝ))
    (hls : b.setLoads = .ok ls) (hb : b.UniformImposed ls) (hc : b.ShearImposedBalanced ls)
    (stable : System ℝ → Bool) (solve : Solver ℝ) (hs : solve.Sound) (res : Result ℝ)
    (h : b.analyze stable solve = .ok res) :
    ∃ v ψ : ℕ → ℝ → ℝ, ShearImposedBeam b ls res.d res.fmbr v ψ := by
  obtain ⟨s, h1, h2⟩ := BeamDef.analyze_ok h
  obtain ⟨hd, _, _, hfm, _⟩ := System.analyze_ok hs h2
  rw [hfm]
  exact shearImposedBeam_of_solution hls hb hc h1 hd

/-- **C124**: the continuous problem of a beam that is not a mechanism has at most one
solution. -/
theorem C124_shear_unique (b : BeamDef ℝ) (ls : List (SpanLoad ℝ)) (hls : b.setLoads = .ok ls)
    (hb : b.UniformImposed ls) (hc : b.ShearImposedBalanced ls) (s : System ℝ) (hs : b.system = .ok s)
    (hns : s.Nonsingular) (u u' : ℕ → ℝ) (F F' : ℕ → Vec4 ℝ) (v ψ v' ψ' : ℕ → ℝ → ℝ)
    (h : ShearImposedBeam b ls u F v ψ) (h' : ShearImposedBeam b ls u' F' v' ψ') :
    (∀ p < 2 * b.members.length + 2, u p = u' p) ∧
    (∀ i (hi : i < b.members.length), F i = F' i ∧
      ∀ x ∈ Icc 0 b.members[i].L, v i x = v' i x ∧ ψ i x = ψ' i x) := by
  obtain ⟨hn, hk, _, hr, hp, _, _⟩ := BeamDef.system_ok hs
  have hN : s.N = 2 * b.members.length + 2 := by simp only [System.N, hn]
  obtain ⟨hF, hsol⟩ := h.solution hls hb hc hs
  obtain ⟨hF', hsol'⟩ := h'.solution hls hb hc hs
  have hu : ∀ p < 2 * b.members.length + 2, u p = u' p := fun p hp' =>
    System.IsSolution.unique hns hsol hsol' p (by omega)
  have hFF : ∀ i < b.members.length, F i = F' i := by
    intro i hi
    rw [hF i hi, hF' i hi]
    have : elemVec u i = elemVec u' i := by
      ext a
      exact hu _ (by have := a.isLt; omega)
    simp only [System.endForces, this]
  refine ⟨hu, fun i hi => ⟨hFF i hi, ?_⟩⟩
  obtain ⟨⟨e, he, hEI⟩, _⟩ := hb.prismatic _ (List.getElem_mem hi)
  have hL := hb.pos _ (List.getElem_mem hi)
  have hL0 := hL.ne'
  have hE0 := he.ne'
  have s1 := h.span i hi e hEI
  have s2 := h'.span i hi e hEI
  have f1 := s1.stiffness hE0 hL (hb.own hls i hi)
  have f2 := s2.stiffness hE0 hL (hb.own hls i hi)
  have ev : v i 0 = v' i 0 := by rw [h.left i hi, h'.left i hi, hu _ (by omega)]
  have evL : v i b.members[i].L = v' i b.members[i].L := by
    rw [h.right i hi, h'.right i hi, hu _ (by omega)]
  have et : ψ i 0 = ψ' i 0 := by
    rw [hFF i hi] at f1
    have f3 := f1.symm.trans f2
    rw [ev, evL] at f3
    generalize F' i = G at f3
    have g1 := congrFun f3 1
    have g3 := congrFun f3 3
    simp only [kFF_mulVec] at g1 g3
    simp only [Pi.add_apply, Matrix.cons_val] at g1 g3
    have g : 6 * e / b.members[i].L * (ψ i 0 - ψ' i 0) = 0 := by
      linear_combination 2 * g1 - g3
    have g' : 6 * e / b.members[i].L ≠ 0 := by positivity
    have := (mul_eq_zero.1 g).resolve_left g'
    linarith
  rw [hFF i hi] at s1
  exact s1.unique hL (hb.own hls i hi) s2 ev et

/-- **C124**: if the beam carries imposed curvatures only, and a shape with these curvatures fits
the supports, then the analysis reports that shape's nodal displacements, and no forces at the
member ends, whatever the shear stiffness: imposed curvatures shear nothing. -/
theorem C124_shear_compatible (b : BeamDef ℝ) (ls : List (SpanLoad ℝ)) (hls : b.setLoads = .ok ls)
    (hb : b.UniformImposed ls) (hpp : b.ShearImposedBalanced ls)
    (honly : ∀ l ∈ ls, ∃ k E, l.load = .ic k E)
    (s : System ℝ) (hsys : b.system = .ok s) (hns : s.Nonsingular)
    (u : ℕ → ℝ) (v θ : ℕ → ℝ → ℝ) (hv : FreeShape b ls u v θ)
    (stable : System ℝ → Bool) (solve : Solver ℝ) (hs : solve.Sound) (res : Result ℝ)
    (h : b.analyze stable solve = .ok res) :
    (∀ p < 2 * b.members.length + 2, res.d p = u p) ∧
    (∀ i < b.members.length, res.fmbr i = 0) := by
  have hown : ∀ i, ∀ ld ∈ ownLoads i ls, ∃ k E, ld = .ic k E := by
    intro i ld hld
    simp only [ownLoads, List.mem_map, List.mem_filter, decide_eq_true_eq] at hld
    obtain ⟨l, ⟨h1, _⟩, rfl⟩ := hld
    exact honly l h1
  have hz : ∀ i (f : Load ℝ → ℝ), (∀ k E, f (.ic k E) = 0) → ((ownLoads i ls).map f).sum = 0 := by
    intro i f hf
    apply List.sum_eq_zero
    intro y hy
    obtain ⟨ld, hld, rfl⟩ := List.mem_map.1 hy
    obtain ⟨k, E, rfl⟩ := hown i ld hld
    exact hf k E
  have hI : ShearImposedBeam b ls u (fun _ => 0) v θ := by
    refine ⟨fun i hi e he => ⟨fun x hx _ => ?_, fun x hx _ => ?_, hv.contV i hi, hv.contT i hi, ?_, ?_⟩,
      hv.left, hv.right, fun i hi => ?_, fun i hi => ?_, hv.prescribed,
      fun p hp hq hr => hv.held p hp hq hr.ne, fun j hj c hq hr => ?_⟩
    · refine (hv.slope i hi x hx).congr_deriv ?_
      simp only [cutV]
      rw [hz i _ fun k E => by
        simp [Load.forceLeft, Load.intensity, Load.forces]]
      simp
    · refine (hv.curvature i hi x hx).congr_deriv ?_
      simp only [cutM]
      rw [hz i _ fun k E => by
        simp [Load.momentLeft, Load.intensity, Load.forces, Load.couplesAt]]
      simp
    · rw [hz i _ fun k E => by simp [Load.total, Load.intensity, Load.forces]]
      simp
    · rw [hz i _ fun k E => by
        simp [Load.momentAboutLeft, Load.intensity, Load.forces, Load.couples]]
      simp
    · by_cases hf : b.members[i].et.freeLeft
      · rw [if_pos hf]; rfl
      · rw [if_neg hf]; exact hv.rotLeft i hi hf
    · by_cases hf : b.members[i].et.freeRight
      · rw [if_pos hf]; rfl
      · rw [if_neg hf]; exact hv.rotRight i hi hf
    · simp only [nodeSum, Pi.zero_apply, ite_self, zero_add]
      rcases hr.lt_or_eq with hr | hr
      · rw [hv.held _ (by have := c.isLt; omega) hq hr.ne', mul_zero]
      · rw [← hr]; simp
  obtain ⟨v', θ', hE⟩ := C124_shear_exact_partial b ls hls hb hpp stable solve hs res h
  obtain ⟨h1, h2⟩ := C124_shear_unique b ls hls hb hpp s hsys hns _ _ _ _ _ _ _ _ hE hI
  exact ⟨h1, fun i hi => (h2 i hi).1⟩

/-- **C124**: at every station between the two padding stations of a member the reported shear
and bending moment are those of a free-body cut of the exact solution, the moment away from
applied couples: imposed curvatures enter through the end forces only. -/
theorem C124_shear_reported (b : BeamDef ℝ) (ls : List (SpanLoad ℝ)) (hls : b.setLoads = .ok ls)
    (hb : b.UniformImposed ls) (hpp : b.ShearImposedBalanced ls) (stable : System ℝ → Bool)
    (solve : Solver ℝ) (hs : solve.Sound) (res : Result ℝ)
    (h : b.analyze stable solve = .ok res) (npts : ℕ) (hn : 0 < npts) (sp : ℕ → List ℝ)
    (rs : List (MRes ℝ)) (hr : b.memberResults res npts sp = .ok rs) (i : ℕ)
    (hi : i < b.members.length) (hi' : i < rs.length) (k : ℕ) (hk : 0 < k)
    (hk' : k + 1 < rs[i].n) :
    rs[i].V k = cutV b.members[i].L (ownLoads i ls) (res.fmbr i) (rs[i].x k - b.nodeX i) ∧
    ((∀ ld ∈ ownLoads i ls, ∀ p ∈ ld.couplesAt, p.2 ≠ rs[i].x k - b.nodeX i) →
      rs[i].M k
        = cutM b.members[i].L (ownLoads i ls) (res.fmbr i) (rs[i].x k - b.nodeX i)) := by
  obtain ⟨v, θ, hE⟩ := C124_shear_exact_partial b ls hls hb hpp stable solve hs res h
  obtain ⟨ls', kk, t, c, hls', _, _, _, m1, m2, m3, m4, m5, m6, hc⟩ :=
    BeamDef.results_member hs h hr i hi hi'
  rw [hls] at hls'
  cases hls'
  obtain ⟨⟨e, he, hEI⟩, _⟩ := hb.prismatic _ (List.getElem_mem hi)
  have hL := hb.pos _ (List.getElem_mem hi)
  have hown := hb.own hls i hi
  have hpl := mechOnly_plain hown
  obtain ⟨x1, x2, x3, x4, x5, x6⟩ := c.x_spec (by rw [m1]; exact hL) (by rw [m5]; exact hn)
  have hst := (((shearImposedSpan_iff hown _ _ _).1 (hE.span i hi e hEI)).bending hL hpl).start hL hpl
  rw [hc] at hk' ⊢
  simp only [MCtx.result] at hk' ⊢
  have hx : c.x k + b.nodeX i - b.nodeX i = c.x k := by ring
  rw [hx]
  have hIs : ¬ c.IsEnd k := by simp only [MCtx.IsEnd]; omega
  have hxI : c.x k ∈ Icc 0 b.members[i].L := by
    rw [m1] at x5
    exact ⟨x2 ▸ x6 0 k (by omega) (by omega), x5 ▸ x6 k (c.n - 1) (by omega) (by omega)⟩
  constructor
  · have e1 : cutV b.members[i].L (ownLoads i ls) (res.fmbr i) (c.x k)
        = cutV b.members[i].L (mechOnly (ownLoads i ls)) (res.fmbr i) (c.x k) := by
      simp only [cutV]
      rw [sum_mechOnly _ (fun ld => ld.forceLeft b.members[i].L (c.x k)) fun k E => by
        simp [Load.forceLeft, Load.intensity, Load.forces]]
    rw [e1, cutV_eq hL hpl _ hxI, MCtx.V, if_neg hIs, m1, m2, m3, hst]
    rw [← sum_mechOnly (ownLoads i ls) (fun l => l.ssV b.members[i].L (c.x k)) fun k E => rfl]
    simp only [ssV_eq, mambStn]
    ring
  · intro hcp
    rw [← cutM_mechOnly, cutM_eq hL hpl _ hxI ((mechOnly_couples _ _).2 hcp), MCtx.M, if_neg hIs, m1,
      m2, m3, hst, list_sum_sub, list_sum_mul]
    rw [← sum_mechOnly (ownLoads i ls) (fun l => l.ssM b.members[i].L (c.x k)) fun k E => rfl]
    simp only [ssM_eq, mambStn]
    ring

/-- If the curvature used by the code is that of a function `f` whose integral `T` and double
integral `W`, with the shear strain `S`, the trapezium rule finds, then the rotations and deflections converge to `T` and
`W`. -/
theorem shear_converge {c : MCtx ℝ} {L : ℝ} (hL : 0 < L) {f T S W Φ Ψ : ℝ → ℝ}
    (q2 : Quad L f T Φ) (q4 : Quad L (fun x => T x + S x) W Ψ) (m1 : c.m.L = L) (hn : 0 < c.npts)
    (hgam : ∀ j, j + 2 < c.n → c.gamma j = S (c.x (j + 1)))
    (hcurv : ∀ j, 0 < j → j + 1 < c.n → c.curv j = f (c.x j)) (hd0 : c.d 0 = W 0)
    (hd2 : c.d 2 = W L) (hpsi : c.psi0 = T 0 ∨ c.psi0 = c.psiBc) (k : ℕ) (hk : 0 < k)
    (hk' : k + 1 < c.n) :
    |c.R k - T (c.x k)| ≤ (L * (Φ L - Φ 0) + (L * (Φ L - Φ 0) * L + L * (Ψ L - Ψ 0)) / L
      + 2 * (L * (Φ L - Φ 0) * L + L * (Ψ L - Ψ 0))) / c.npts ∧
    |c.D k - W (c.x k)| ≤ (L * (Φ L - Φ 0) + (L * (Φ L - Φ 0) * L + L * (Ψ L - Ψ 0)) / L
      + 2 * (L * (Φ L - Φ 0) * L + L * (Ψ L - Ψ 0))) / c.npts := by
  have hL0 : L ≠ 0 := hL.ne'
  obtain ⟨x1, x2, x3, x4, x5, x6⟩ := c.x_spec (by rw [m1]; exact hL) hn
  have hΦ : Φ 0 ≤ Φ L := (q2 0 L le_rfl hL.le le_rfl).2
  have hΨ : Ψ 0 ≤ Ψ L := (q4 0 L le_rfl hL.le le_rfl).2
  set A := Φ L - Φ 0 with hA
  set B := Ψ L - Ψ 0 with hB
  have hA0 : 0 ≤ A := by linarith
  have hB0 : 0 ≤ B := by linarith
  set t0 := T 0 with ht0
  have hn0 : (0 : ℝ) < c.npts := by exact_mod_cast hn
  have q5 := q4.add (quad_linear L (-t0) 0 0)
  set X : ℕ → ℝ := fun j => c.x (j + 1) with hX
  have hXI : ∀ j ≤ c.n - 3, X j ∈ Icc 0 L := by
    intro j hj
    have g1 := x6 0 (j + 1) (by omega) (by omega)
    have g2 := x6 (j + 1) (c.n - 1) (by omega) (by omega)
    rw [x2] at g1
    rw [x5, m1] at g2
    exact ⟨g1, g2⟩
  have hh : ∀ j < c.n - 3, c.h j = X (j + 1) - X j ∧ 0 ≤ c.h j ∧ c.h j ≤ L / c.npts := by
    intro j hj
    obtain ⟨g1, g2⟩ := c.h_eq (by rw [m1]; exact hL) hn j (by omega)
    refine ⟨g1, ?_, ?_⟩
    · rw [g1]
      have := x6 (j + 1) (j + 2) (by omega) (by omega)
      linarith
    · rw [m1] at g2
      exact g2
  have hX0 : X 0 = 0 := x3
  have hIs : ¬ c.IsEnd k := by simp only [MCtx.IsEnd]; omega
  have hcong : ∀ (y z : ℕ → ℝ) (k : ℕ), (∀ j ≤ k, y j = z j) → cumTrap c.h y k = cumTrap c.h z k := by
    intro y z k
    induction k with
    | zero => intro _; rfl
    | succ k ih =>
      intro hyz
      rw [cumTrap, cumTrap, ih fun j hj => hyz j (by omega), hyz k (by omega), hyz (k + 1) le_rfl]
  have hsum : ∀ j ≤ c.n - 3, ∑ q ∈ Finset.range j, c.h q = X j := by
    intro j hj
    rw [Finset.sum_congr rfl fun q hq => (hh q (by have := Finset.mem_range.1 hq; omega)).1,
      Finset.sum_range_sub, hX0, sub_zero]
  have hδ : 0 ≤ L / c.npts := by positivity
  have hrot : ∀ j ≤ c.n - 3, |c.psiProv j - (T (X j) - t0)| ≤ L / c.npts * A := by
    intro j hj
    have g := q2.cumTrap X c.h (L / c.npts) (c.n - 3) hXI hh j hj
    rw [hX0] at g
    have e1 : c.psiProv j = cumTrap c.h (fun j => f (X j)) j := by
      simp only [MCtx.psiProv]
      rw [hcong _ (fun j => f (X j)) j fun q hq => hcurv (q + 1) (by omega) (by omega)]
    rw [e1]
    refine g.trans (mul_le_mul_of_nonneg_left ?_ hδ)
    have := (q2 (X j) L (hXI j hj).1 (hXI j hj).2 le_rfl).2
    linarith
  have hD : ∀ j ≤ c.n - 3, |c.Dprov j - (W (X j) - W 0 - t0 * X j)|
      ≤ L / c.npts * A * L + L / c.npts * B := by
    intro j hj
    have g := q5.cumTrap X c.h (L / c.npts) (c.n - 3) hXI hh j hj
    have g2 := cumTrap_close c.h (fun j => c.psiProv j + c.gamma j)
      (fun j => T (X j) + S (X j) + (-t0 + 0 * X j))
      (L / c.npts * A) j (fun q hq => (hh q (by omega)).2.1) (fun q hq => by
        rw [hgam q (by omega)]
        have := hrot q (by omega)
        rw [show c.psiProv q + S (X q) - (T (X q) + S (X q) + (-t0 + 0 * X q))
          = c.psiProv q - (T (X q) - t0) by ring]
        exact this)
    rw [hsum j hj] at g2
    rw [hX0] at g
    have e1 : c.Dprov j - (W (X j) - W 0 - t0 * X j)
        = (cumTrap c.h (fun j => c.psiProv j + c.gamma j) j
          - cumTrap c.h (fun j => T (X j) + S (X j) + (-t0 + 0 * X j)) j)
          + (cumTrap c.h (fun j => T (X j) + S (X j) + (-t0 + 0 * X j)) j
          - (W (X j) + (0 + -t0 * X j + 0 * X j ^ 2 / 2)
            - (W 0 + (0 + -t0 * 0 + 0 * 0 ^ 2 / 2)))) := by
      rw [MCtx.Dprov]
      ring
    rw [e1]
    refine (abs_add_le _ _).trans (add_le_add (g2.trans ?_) (g.trans ?_))
    · exact mul_le_mul_of_nonneg_left (hXI j hj).2 (mul_nonneg hδ hA0)
    · apply mul_le_mul_of_nonneg_left _ hδ
      have g4 := (q4 (X j) L (hXI j hj).1 (hXI j hj).2 le_rfl).2
      simp only [hB]
      linarith
  have hXn : X (c.n - 3) = L := by
    have h3 : 3 ≤ c.n := by omega
    simp only [hX]
    rw [show c.n - 3 + 1 = c.n - 2 by omega, x4, m1]
  set δ := L / c.npts * A * L + L / c.npts * B with hδd
  have hδ0 : 0 ≤ δ := by positivity
  have hpsi0 : |c.psi0 - t0| ≤ δ / L := by
    rcases hpsi with h | h
    · rw [h, sub_self, abs_zero]
      positivity
    · have g := hD (c.n - 3) le_rfl
      rw [hXn] at g
      have e1 : c.psi0 - t0 = -((c.Dprov (c.n - 3) - (W L - W 0 - t0 * L)) / L) := by
        rw [h, MCtx.psiBc, hd0, hd2, m1]
        field_simp
        ring
      rw [e1, abs_neg, abs_div, abs_of_pos hL]
      exact div_le_div_of_nonneg_right g hL.le
  have hk3 : k - 1 ≤ c.n - 3 := by omega
  have hxk : c.x k = X (k - 1) := by simp only [hX]; rw [show k - 1 + 1 = k by omega]
  have e0 : (L * A + (L * A * L + L * B) / L + 2 * (L * A * L + L * B)) / c.npts
      = L / c.npts * A + δ / L + 2 * δ := by
    rw [hδd]
    field_simp
  have p1 : 0 ≤ L / c.npts * A := mul_nonneg hδ hA0
  have p2 : 0 ≤ δ / L := by positivity
  rw [e0]
  constructor
  · rw [MCtx.R, if_neg hIs, hxk, MCtx.psi]
    have g1 := hrot (k - 1) hk3
    have e1 : c.psiProv (k - 1) + c.psi0 - T (X (k - 1))
        = (c.psiProv (k - 1) - (T (X (k - 1)) - t0)) + (c.psi0 - t0) := by ring
    rw [e1]
    refine (abs_add_le _ _).trans ?_
    linarith
  · have g1 := hD (k - 1) hk3
    have e1 : c.defl (k - 1) - W (X (k - 1))
        = (c.Dprov (k - 1) - (W (X (k - 1)) - W 0 - t0 * X (k - 1)))
          + (c.psi0 - t0) * X (k - 1) := by
      have : cumTrap c.h (fun k => c.psi k + c.gamma k) (k - 1)
          = c.Dprov (k - 1) + c.psi0 * X (k - 1) := by
        rw [← hsum _ hk3, ← cumTrap_fixed, MCtx.Dprov, ← cumTrap_add]
        congr 1
        funext j
        rw [MCtx.psi]
        ring
      rw [MCtx.defl, this, hd0]
      ring
    rw [MCtx.D, if_neg hIs, hxk, e1]
    refine (abs_add_le _ _).trans ?_
    have g2 : |(c.psi0 - t0) * X (k - 1)| ≤ δ := by
      rw [abs_mul, abs_of_nonneg (hXI _ hk3).1]
      calc |c.psi0 - t0| * X (k - 1) ≤ δ / L * L :=
            mul_le_mul hpsi0 (hXI _ hk3).2 (hXI _ hk3).1 p2
        _ = δ := by field_simp
    linarith

/-- **C124, partial**: the reported rotations and deflections of slender and shear-flexible
members converge to the lines of the exact solution with the reported displacements and end
forces (which exists by `C124_shear_exact_partial`) as the number of stations grows, at every
station between the padding stations and whatever the shear points are. -/
theorem C124_shear_convergence_partial (b : BeamDef ℝ) (ls : List (SpanLoad ℝ))
    (hls : b.setLoads = .ok ls)
    (hb : b.UniformImposed ls) (res : Result ℝ)
    (v ψ : ℕ → ℝ → ℝ)
    (hE : ShearImposedBeam b ls res.d res.fmbr v ψ) (i : ℕ) (hi : i < b.members.length) :
    ∃ C : ℝ, ∀ (npts : ℕ) (sp : ℕ → List ℝ) (rs : List (MRes ℝ)), 0 < npts →
      b.memberResults res npts sp = .ok rs → ∀ (hi' : i < rs.length) (k : ℕ), 0 < k →
      k + 1 < rs[i].n →
      |rs[i].R k - ψ i (rs[i].x k - b.nodeX i)| ≤ C / npts ∧
      |rs[i].D k - v i (rs[i].x k - b.nodeX i)| ≤ C / npts := by
  obtain ⟨⟨e, he, hEI⟩, hGG⟩ := hb.prismatic _ (List.getElem_mem hi)
  have hL := hb.pos _ (List.getElem_mem hi)
  have hown := hb.own hls i hi
  have hpl := mechOnly_plain hown
  have hsp := hE.span i hi e hEI
  have hstiff := hsp.stiffness he.ne' hL hown
  have hss := (shearImposedSpan_iff hown _ _ _).1 hsp
  have hel := hss.bending hL hpl
  have hst := hel.start hL hpl
  have hv0 := hE.left i hi
  have hvL := hE.right i hi
  have hr0 := hE.rotLeft i hi
  obtain ⟨l2, l1⟩ := hel.eq_line hL hpl
  obtain ⟨z1, z2⟩ := imposed_start (ownLoads i ls)
  obtain ⟨⟨Φ1, p1⟩, ⟨Ψ1, p2⟩⟩ := imposed_quads hown
  generalize hm : b.members[i] = m at *
  generalize ho : ownLoads i ls = own at *
  set F := res.fmbr i with hF
  set L := m.L with hLd
  set γ := m.shearFlex with hγ
  set w0 := v i 0 - imposedDefl own 0 + γ * smoothN L (mechOnly own) F 0 with hw0
  obtain ⟨Ψ0, q4⟩ := shear_quad γ hL hpl F hst
  obtain ⟨Φ, Bt, hBt0, q2, q3⟩ := line_quads he hL hpl F hst w0
    (ψ i 0 - imposedRot own 0)
  obtain ⟨Φ2, Q2⟩ : ∃ Φ2, Quad L (fun x => momentLine e L (mechOnly own) F x + imposedCurv own x)
      (fun x => exLineT e L (mechOnly own) F (ψ i 0 - imposedRot own 0) x + imposedRot own x) Φ2 :=
    ⟨_, q2.add p1⟩
  obtain ⟨Ψ2, Q3⟩ : ∃ Ψ2, Quad L
      (fun x => exLineT e L (mechOnly own) F (ψ i 0 - imposedRot own 0) x + imposedRot own x
        + -γ * shearLine L (mechOnly own) F x)
      (fun x => exLineV e L (mechOnly own) F w0 (ψ i 0 - imposedRot own 0) x
        + imposedDefl own x + -γ * smoothN L (mechOnly own) F x) Ψ2 := ⟨_, (q3.add p2).add q4⟩
  have hT : ∀ x ∈ Icc 0 L, exLineT e L (mechOnly own) F (ψ i 0 - imposedRot own 0) x
      + imposedRot own x = ψ i x := fun x hx => by
    rw [← l2 x hx]; ring
  have hW : ∀ x ∈ Icc 0 L, exLineV e L (mechOnly own) F w0 (ψ i 0 - imposedRot own 0) x
      + imposedDefl own x + -γ * smoothN L (mechOnly own) F x = v i x := fun x hx => by
    rw [← l1 x hx]; ring
  have h0 : (0 : ℝ) ∈ Icc 0 L := ⟨le_rfl, hL.le⟩
  have h1 : L ∈ Icc 0 L := ⟨hL.le, le_rfl⟩
  refine ⟨L * (Φ2 L - Φ2 0) + (L * (Φ2 L - Φ2 0) * L + L * (Ψ2 L - Ψ2 0)) / L
    + 2 * (L * (Φ2 L - Φ2 0) * L + L * (Ψ2 L - Ψ2 0)), ?_⟩
  intro npts sp rs hn hr hi' k hk hk'
  obtain ⟨_, ls', hls', hc'⟩ := BeamDef.memberResults_ok hr
  rw [hls] at hls'
  cases hls'
  obtain ⟨c, hc1, hc⟩ := hc' i hi hi'
  obtain ⟨m1, m2, m3, m4, m5, m6, cnls, n1, n2, n3⟩ := Member.ctx_ok hc1
  rw [ho] at m2 n1
  rw [hm] at m1 n1
  obtain ⟨x1, x2, x3, x4, x5, x6⟩ := c.x_spec (by rw [m1]; exact hL) (by rw [m5]; exact hn)
  rw [hc] at hk' ⊢
  simp only [MCtx.result] at hk' ⊢
  rw [show c.x k + b.nodeX i - b.nodeX i = c.x k by ring]
  have hcl : c.Ma = (clampedSumE e L own).Ma ∧ c.Mb = (clampedSumE e L own).Mb := by
    have hcn : ∀ ld ∈ own, m.cnl ld = .ok (ld.clampedE e L) := by
      intro ld hld
      rcases hown ld hld with hp | ⟨k, E, rfl, _⟩
      · have g1 := hp.2.1
        have g2 := hp.getCnl hL
        cases ld <;> first | exact g1.elim | (simp only [Member.cnl, Load.clampedE]; rw [g2])
      · simp only [Member.cnl, hEI, Load.clampedE]
        rfl
    have : cnls = own.map fun ld => ld.clampedE e L := by
      obtain ⟨p1, p2⟩ := mapE_ok n1
      apply List.ext_getElem
      · simp [p1]
      · intro j hj1 hj2
        have := p2 j (by simpa using hj2) hj1
        rw [hcn _ (List.getElem_mem _)] at this
        rw [List.getElem_map]
        exact (Except.ok.inj this).symm
    rw [n2, n3, this]
    simp only [List.map_map, Function.comp_def, clampedSumE, and_self]
  have hxk : c.x k ∈ Icc 0 L := by
    rw [m1, ← hLd] at x5
    exact ⟨x2 ▸ x6 0 k (by omega) (by omega), x5 ▸ x6 k (c.n - 1) (by omega) (by omega)⟩
  have hd0 : c.d 0 = v i 0 := by rw [hv0, m4]; rfl
  have hd2 : c.d 2 = v i L := by rw [hvL, m4]; rfl
  have key := shear_converge (c := c) (S := fun x => -γ * shearLine L (mechOnly own) F x) hL Q2 Q3
    (by rw [m1]) (by rw [m5]; exact hn)
    (fun j hj => by
      have hIs : ¬ c.IsEnd (j + 1) := by simp only [MCtx.IsEnd]; omega
      rcases hGG with hG | ⟨g, hg, hG⟩
      · simp only [MCtx.gamma, m1, hG, hγ, Member.shearFlex]
        ring
      · simp only [MCtx.gamma, m1, hG, hγ, Member.shearFlex, MCtx.V, if_neg hIs, m2, m3,
          mambStn, Rigidity.eval, shearLine]
        rw [← sum_mechOnly own (fun l => l.ssV m.L (c.x (j + 1))) fun _ _ => rfl]
        simp only [ssV_eq]
        rw [← hLd]
        ring)
    (fun j hj hj' => by
      have hIs : ¬ c.IsEnd j := by simp only [MCtx.IsEnd]; omega
      simp only [MCtx.curv, MCtx.kappa, MCtx.M, if_neg hIs, m1, m2, m3, hEI, momentLine, mambStn,
        Rigidity.eval, imposedCurv]
      rw [← sum_mechOnly own (fun l => l.ssM m.L (c.x j)) fun _ _ => rfl]
      simp only [ssM_eq]
      rw [← hLd]
      ring)
    (by rw [hW 0 h0, hd0]) (by rw [hW L h1, hd2]) (by
      rw [hT 0 h0]
      simp only [MCtx.psi0]
      split_ifs with t1 t2
      · left
        rw [m1] at t1
        rw [t1] at hr0
        simp only [EType.freeLeft, Bool.false_eq_true, if_false] at hr0
        rw [m4]
        exact hr0.symm
      · exact .inr rfl
      · left
        have hG : m.GAv = none := by
          rcases hGG with hG | ⟨g, hg, hG⟩
          · exact hG
          · exfalso
            apply t2
            simp [MCtx.useBc, m1, hG]
        have hγ0 : γ = 0 := by simp only [hγ, Member.shearFlex, hG]
        rw [m1, hEI]
        simp only [MCtx.psiClosed]
        rw [hcl.1, hcl.2, m1, m3, ← hLd, hd0, hd2, ← hF]
        have g1 := congrFun hstiff 1
        have g3 := congrFun hstiff 3
        rw [hγ0] at g1 g3
        simp only [kFF_mulVec, Pi.add_apply, CNL.vec, Matrix.cons_val, zero_mul, sub_zero,
          add_zero] at g1 g3
        rw [g1, g3]
        have := hL.ne'
        have := he.ne'
        field_simp
        ring) k hk hk'
  simp only [hT _ hxk, hW _ hxk, m5] at key
  exact key

/-! ### Concrete cases -/

/-- Two spans: a shear-flexible one under a thermal curvature and a point load, and a slender one
under a parabolic curvature and a couple. -/
noncomputable def exThermalShear : BeamDef ℝ :=
  ⟨[⟨.const 6, 2, .FF, some (.const 3)⟩, ⟨.const 6, 3, .FF, none⟩], [-1, -1, -1, 0, -1, 0],
    [none, none, none, none, none, none],
    [⟨1, 6, [5]⟩, ⟨1, 2, [9, 1]⟩, ⟨2, 6, [1, 0, 2]⟩, ⟨2, 4, [5, 1]⟩]⟩

/-- What acts on these spans. -/
noncomputable def exThermalShearLoads : List (SpanLoad ℝ) :=
  [⟨0, .ic [5] none⟩, ⟨0, .pl 9 1⟩, ⟨1, .ic [1, 0, 2] none⟩, ⟨1, .ml 5 1⟩]

theorem exThermalShear_loads : exThermalShear.setLoads = .ok exThermalShearLoads := by
  simp [BeamDef.setLoads, exThermalShear, exThermalShearLoads, parseLM, parseRow]

theorem exThermalShear_uniform : exThermalShear.UniformImposed exThermalShearLoads := by
  refine ⟨by simp [exThermalShear], ?_, ?_⟩
  · intro m hm
    simp only [exThermalShear, List.mem_cons, List.not_mem_nil, or_false] at hm
    rcases hm with rfl | rfl
    · exact ⟨⟨6, by norm_num, rfl⟩, .inr ⟨3, by norm_num, rfl⟩⟩
    · exact ⟨⟨6, by norm_num, rfl⟩, .inl rfl⟩
  · intro i hi l hl hli
    simp only [exThermalShear, exThermalShearLoads, List.length_cons, List.length_nil,
      List.mem_cons, List.not_mem_nil, or_false] at hi hl
    rcases hl with rfl | rfl | rfl | rfl
    · exact .inr ⟨_, _, rfl, by simp⟩
    · left
      have : i = 0 := by simp only at hli; omega
      subst this
      simp [exThermalShear, Load.OnSpan, Load.IsMechanical]
    · exact .inr ⟨_, _, rfl, by simp⟩
    · left
      have : i = 1 := by simp only at hli; omega
      subst this
      simp [exThermalShear, Load.OnSpan, Load.IsMechanical]

/-- C124 at this beam: the analysis completes, its lines solve the continuous problem, that
problem has no other solution, and the reported deflections of the shear-flexible span converge. -/
example : ∃ (solve : Solver ℝ) (res : Result ℝ) (v ψ : ℕ → ℝ → ℝ) (C : ℝ),
    solve.Sound ∧ exThermalShear.analyze (fun _ => true) solve = .ok res ∧
    ShearImposedBeam exThermalShear exThermalShearLoads res.d res.fmbr v ψ ∧
    (∀ u F v' ψ', ShearImposedBeam exThermalShear exThermalShearLoads u F v' ψ' →
      v' 0 1 = v 0 1 ∧ ψ' 1 2 = ψ 1 2) ∧
    ∀ npts : ℕ, 0 < npts → ∃ rs : List (MRes ℝ), ∃ hi : 0 < rs.length,
      exThermalShear.memberResults res npts (fun _ => []) = .ok rs ∧
      ∀ k, 0 < k → k + 1 < rs[0].n →
        |rs[0].D k - v 0 (rs[0].x k - exThermalShear.nodeX 0)| ≤ C / npts := by
  obtain ⟨s, hs⟩ : ∃ s, exThermalShear.system = .ok s := by
    rw [BeamDef.system, exThermalShear_loads]
    simp [exThermalShear, exThermalShearLoads, mapE, Member.spanK, Member.refSum, Member.ref,
      Member.cnl, Load.getCnl, condenseFor, releaseRef]
  have hff : ∀ m ∈ exThermalShear.members, m.et = .FF := by
    intro m hm
    simp only [exThermalShear, List.mem_cons, List.not_mem_nil, or_false] at hm
    rcases hm with rfl | rfl <;> rfl
  have hns := C77_adequate_supports exThermalShear
    (fun m hm => ⟨exThermalShear_uniform.good hm, hff m hm⟩) s hs
    0 1 (by simp) (by simp [exThermalShear]) (by simp [exThermalShear])
    (Or.inl (by simp [exThermalShear]))
  obtain ⟨hn, hk, _, hr, hp, _, _⟩ := BeamDef.system_ok hs
  obtain ⟨solve, hsd, res, hres⟩ := BeamDef.completes hs hns (by
    simp only [System.validate, hp]
    have : ∀ i : ℕ, exThermalShear.presc.getD i none = none := by
      intro i
      rcases i with _ | _ | _ | _ | _ | _ | i <;> simp [exThermalShear]
    simp only [this]
    simp)
  have hbal : exThermalShear.ShearImposedBalanced exThermalShearLoads := by
    intro i hi
    refine ⟨fun h => ?_, fun _ hG => ?_⟩
    · rw [hff _ (List.getElem_mem hi)] at h
      cases h
    · simp only [exThermalShear, List.length_cons, List.length_nil] at hi
      have : i = 0 ∨ i = 1 := by omega
      rcases this with rfl | rfl
      · simp [coupleSum, ownLoads, exThermalShearLoads, Load.couplesAt]
      · simp [exThermalShear] at hG
  obtain ⟨v, ψ, hE⟩ := C124_shear_exact_partial exThermalShear _ exThermalShear_loads
    exThermalShear_uniform hbal _ solve hsd res hres
  obtain ⟨C, hC⟩ := C124_shear_convergence_partial exThermalShear _ exThermalShear_loads
    exThermalShear_uniform res v ψ hE 0 (by simp [exThermalShear])
  refine ⟨solve, res, v, ψ, C, hsd, hres, hE, fun u F v' ψ' h' => ?_, fun npts hn => ?_⟩
  · have := (C124_shear_unique exThermalShear _ exThermalShear_loads exThermalShear_uniform
      hbal s hs hns _ _ _ _ _ _ _ _ h' hE).2
    exact ⟨((this 0 (by simp [exThermalShear])).2 1 (by simp [exThermalShear])).1,
      ((this 1 (by simp [exThermalShear])).2 2 (by simp [exThermalShear]; norm_num)).2⟩
  · obtain ⟨rs, hrs⟩ : ∃ rs, exThermalShear.memberResults res npts (fun _ => []) = .ok rs := by
      rw [BeamDef.memberResults, exThermalShear_loads]
      simp [exThermalShear, exThermalShearLoads, mapE, Member.values, Member.ctx, ownLoads,
        Member.cnl, Load.getCnl]
    obtain ⟨hl, _⟩ := BeamDef.memberResults_ok hrs
    have hi : 0 < rs.length := by rw [hl]; simp [exThermalShear]
    exact ⟨rs, hi, hrs, fun k h1 h2 => (hC npts _ rs hn hrs hi k h1 h2).2⟩

/-- A simply supported shear-flexible span under a linear curvature. -/
noncomputable def exWarmShear : BeamDef ℝ :=
  ⟨[⟨.const 6, 2, .FF, some (.const 3)⟩], [-1, 0, -1, 0], [none, none, none, none],
    [⟨1, 6, [3, 6]⟩]⟩

/-- C124 at a simply supported shear-flexible span: it takes the free shape, without forces. -/
example : ∃ (solve : Solver ℝ) (res : Result ℝ), solve.Sound ∧
    exWarmShear.analyze (fun _ => true) solve = .ok res ∧ res.fmbr 0 = 0 ∧ res.d 1 = -7 := by
  have hls : exWarmShear.setLoads = .ok [⟨0, .ic [3, 6] none⟩] := by
    simp [BeamDef.setLoads, exWarmShear, parseLM, parseRow]
  have hb : exWarmShear.UniformImposed [⟨0, .ic [3, 6] none⟩] := by
    refine ⟨by simp [exWarmShear], ?_, ?_⟩
    · intro m hm
      simp only [exWarmShear, List.mem_cons, List.not_mem_nil, or_false] at hm
      rcases hm with rfl
      exact ⟨⟨6, by norm_num, rfl⟩, .inr ⟨3, by norm_num, rfl⟩⟩
    · intro i hi l hl hli
      simp only [List.mem_cons, List.not_mem_nil, or_false] at hl
      rcases hl with rfl
      exact .inr ⟨_, _, rfl, by simp⟩
  obtain ⟨s, hs⟩ : ∃ s, exWarmShear.system = .ok s := by
    rw [BeamDef.system, hls]
    simp [exWarmShear, mapE, Member.spanK, Member.refSum, Member.ref, Member.cnl, Load.getCnl,
      condenseFor, releaseRef]
  have hff : ∀ m ∈ exWarmShear.members, m.et = .FF := by
    intro m hm
    simp only [exWarmShear, List.mem_cons, List.not_mem_nil, or_false] at hm
    rcases hm with rfl
    rfl
  have hns := C77_adequate_supports exWarmShear (by
    intro m hm
    refine ⟨?_, hff m hm⟩
    simp only [exWarmShear, List.mem_cons, List.not_mem_nil, or_false] at hm
    rcases hm with rfl
    simp [Member.Good, Rigidity.Good]) s hs 0 1 (by simp)
    (by simp [exWarmShear]) (by simp [exWarmShear]) (Or.inl (by simp [exWarmShear]))
  have hpn : ∀ i : ℕ, exWarmShear.presc.getD i none = none := by
    intro i
    rcases i with _ | _ | _ | _ | i <;> simp [exWarmShear]
  obtain ⟨hn, hk, _, hr, hp, _, _⟩ := BeamDef.system_ok hs
  obtain ⟨solve, hsd, res, hres⟩ := BeamDef.completes hs hns (by
    simp only [System.validate, hp]
    simp only [hpn]
    simp)
  have hpp : exWarmShear.ShearImposedBalanced [⟨0, .ic [3, 6] none⟩] := by
    intro i hi
    refine ⟨fun h => ?_, fun _ _ => ?_⟩
    · rw [hff _ (List.getElem_mem hi)] at h
      cases h
    · have hi0 : i = 0 := by simpa [exWarmShear] using hi
      subst hi0
      simp [coupleSum, ownLoads, Load.couplesAt]
  have d1 : ∀ x : ℝ, HasDerivAt (fun x : ℝ => 3 / 2 * x ^ 2 + x ^ 3 - 7 * x)
      (3 * x + 3 * x ^ 2 - 7) x := by
    intro x
    refine ((((hasDerivAt_pow 2 x).const_mul (3 / 2 : ℝ)).add (hasDerivAt_pow 3 x)).sub
      ((hasDerivAt_id x).const_mul 7)).congr_deriv ?_
    simp only [Nat.cast_ofNat, Nat.add_one_sub_one, pow_one]
    ring
  have d2 : ∀ x : ℝ, HasDerivAt (fun x : ℝ => 3 * x + 3 * x ^ 2 - 7) (3 + 6 * x) x := by
    intro x
    refine ((((hasDerivAt_id x).const_mul 3).add ((hasDerivAt_pow 2 x).const_mul 3)).sub_const
      7).congr_deriv ?_
    simp only [Nat.cast_ofNat, Nat.add_one_sub_one, pow_one]
    ring
  have hv : FreeShape exWarmShear [⟨0, .ic [3, 6] none⟩]
      (fun p => if p = 1 then -7 else if p = 3 then 11 else 0)
      (fun _ x => 3 / 2 * x ^ 2 + x ^ 3 - 7 * x) (fun _ x => 3 * x + 3 * x ^ 2 - 7) := by
    refine ⟨fun i hi x hx => d1 x, fun i hi x hx => ?_, fun i hi => by fun_prop,
      fun i hi => by fun_prop, fun i hi => ?_, fun i hi => ?_, fun i hi _ => ?_, fun i hi _ => ?_,
      fun p _ w hw => ?_, fun p hp' _ hr' => ?_⟩
    · have hi0 : i = 0 := by simpa [exWarmShear] using hi
      subst hi0
      have e : imposedCurv (ownLoads 0 [⟨0, .ic [3, 6] none⟩]) x = 3 + 6 * x := by
        simp [imposedCurv, ownLoads, Load.kappaImp, polyInc]
        ring
      rw [e]
      exact d2 x
    · have hi0 : i = 0 := by simpa [exWarmShear] using hi
      subst hi0
      norm_num
    · have hi0 : i = 0 := by simpa [exWarmShear] using hi
      subst hi0
      norm_num [exWarmShear]
    · have hi0 : i = 0 := by simpa [exWarmShear] using hi
      subst hi0
      norm_num
    · have hi0 : i = 0 := by simpa [exWarmShear] using hi
      subst hi0
      norm_num [exWarmShear]
    · rw [hpn] at hw
      cases hw
    · have h4 : p < 4 := by simpa [exWarmShear] using hp'
      interval_cases p <;> simp [exWarmShear] at hr' ⊢
  obtain ⟨g1, g2⟩ := C124_shear_compatible exWarmShear _ hls hb hpp (by
    intro l hl
    simp only [List.mem_cons, List.not_mem_nil, or_false] at hl
    rcases hl with rfl
    exact ⟨_, _, rfl⟩) s hs hns _ _ _ hv _ solve hsd res hres
  exact ⟨solve, res, hsd, hres, g2 0 (by simp [exWarmShear]), by
    rw [g1 1 (by simp [exWarmShear])]
    simp⟩

end PyCBA
