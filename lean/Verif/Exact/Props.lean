import Verif.Exact.Span
import Verif.Analysis.Stability

set_option linter.unusedSectionVars false
set_option linter.unusedSimpArgs false

/-!
C91: a completed analysis of a slender prismatic beam is the solution of the continuous
beam problem (`Exact/Spec.lean`), and the only one.
-/

namespace PyCBA

open MeasureTheory Set Matrix

/-! ### Members with releases -/

/-- Stiffness of a slender prismatic member. -/
noncomputable def kOf (EI L : ℝ) : EType → Mat4 ℝ
  | .FF => kFF EI L
  | .FP => kFP EI L
  | .PF => kPF EI L
  | .PP => kPP

theorem kFP_mulVec (EI L : ℝ) (d : Vec4 ℝ) : kFP EI L *ᵥ d
    = ![3 * EI / L ^ 3 * (d 0 - d 2) + 3 * EI / L ^ 2 * d 1,
        3 * EI / L ^ 2 * (d 0 - d 2) + 3 * EI / L * d 1,
        -(3 * EI / L ^ 3 * (d 0 - d 2) + 3 * EI / L ^ 2 * d 1), 0] := by
  ext p
  fin_cases p <;> simp [kFP, Matrix.mulVec, dotProduct, Fin.sum_univ_four] <;> ring

theorem kPF_mulVec (EI L : ℝ) (d : Vec4 ℝ) : kPF EI L *ᵥ d
    = ![3 * EI / L ^ 3 * (d 0 - d 2) + 3 * EI / L ^ 2 * d 3, 0,
        -(3 * EI / L ^ 3 * (d 0 - d 2) + 3 * EI / L ^ 2 * d 3),
        3 * EI / L ^ 2 * (d 0 - d 2) + 3 * EI / L * d 3] := by
  ext p
  fin_cases p <;> simp [kPF, Matrix.mulVec, dotProduct, Fin.sum_univ_four] <;> ring

/-- The stiffness equation of a member with releases is that of the clamped member with some
rotation at the released ends and no moment there; for two releases if the clamped end moments
of the loads cancel. -/
theorem release_iff {EI L : ℝ} (hE : 0 < EI) (hL : 0 < L) (et : EType) (C : CNL ℝ)
    (het : et = .PP → C.Ma + C.Mb = 0) (F d : Vec4 ℝ) :
    F = kOf EI L et *ᵥ d + (releaseCnl C L et).vec ↔
    ∃ t1 t3, F = kFF EI L *ᵥ ![d 0, t1, d 2, t3] + C.vec ∧
      (if et.freeLeft then F 1 = 0 else t1 = d 1) ∧
      (if et.freeRight then F 3 = 0 else t3 = d 3) := by
  have hE0 := hE.ne'
  have hL0 := hL.ne'
  cases et with
  | PP =>
    have hM : C.Mb = -C.Ma := by linarith [het rfl]
    have hk : kOf EI L .PP *ᵥ d = 0 := by
      ext p
      fin_cases p <;> simp [kOf, kPP, Matrix.mulVec, dotProduct, Fin.sum_univ_four]
    rw [hk, zero_add]
    simp only [EType.freeLeft, EType.freeRight, if_true]
    have e0 : (releaseCnl C L .PP).vec = ![C.Va, 0, C.Vb, 0] := by
      ext p
      fin_cases p <;> simp [releaseCnl, CNL.vec, hM]
    rw [e0]
    constructor
    · intro h
      refine ⟨-(d 0 - d 2) / L - L / (2 * EI) * C.Ma, -(d 0 - d 2) / L + L / (2 * EI) * C.Ma, ?_,
        by rw [h]; rfl, by rw [h]; rfl⟩
      rw [h, kFF_mulVec]
      ext p
      fin_cases p <;> simp [CNL.vec, hM] <;> field_simp <;> ring
    · rintro ⟨t1, t3, h, h1, h3⟩
      have g1 : t1 = -(d 0 - d 2) / L - L / (2 * EI) * C.Ma := by
        rw [h, kFF_mulVec] at h1 h3
        simp [CNL.vec, hM] at h1 h3
        field_simp at h1 h3 ⊢
        linear_combination (2 * h1 - h3) / 3
      have g3 : t3 = -(d 0 - d 2) / L + L / (2 * EI) * C.Ma := by
        rw [h, kFF_mulVec] at h1 h3
        simp [CNL.vec, hM] at h1 h3
        field_simp at h1 h3 ⊢
        linear_combination (2 * h3 - h1) / 3
      rw [h, kFF_mulVec]
      ext p
      fin_cases p <;> simp [CNL.vec, g1, g3, hM] <;> field_simp <;> ring
  | FF =>
    simp only [kOf, EType.freeLeft, EType.freeRight, Bool.false_eq_true, if_false]
    have e1 : (releaseCnl C L .FF).vec = C.vec := by simp [releaseCnl, CNL.vec]
    have e2 : ![d 0, d 1, d 2, d 3] = d := by ext p; fin_cases p <;> rfl
    rw [e1]
    constructor
    · intro h
      exact ⟨d 1, d 3, by rw [e2]; exact h, rfl, rfl⟩
    · rintro ⟨t1, t3, h, rfl, rfl⟩
      rw [e2] at h
      exact h
  | FP =>
    simp only [kOf, EType.freeLeft, EType.freeRight, Bool.false_eq_true, if_false, if_true]
    constructor
    · intro h
      refine ⟨d 1, -(L / (4 * EI)) * (6 * EI / L ^ 2 * (d 0 - d 2) + 2 * EI / L * d 1 + C.Mb), ?_,
        rfl, ?_⟩
      · rw [h, kFP_mulVec, kFF_mulVec]
        ext p
        fin_cases p <;> simp [releaseCnl, CNL.vec] <;> field_simp <;> ring
      · rw [h, kFP_mulVec]
        simp [releaseCnl, CNL.vec]
    · rintro ⟨t1, t3, h, rfl, h3⟩
      have h4 : t3 = -(L / (4 * EI)) * (6 * EI / L ^ 2 * (d 0 - d 2) + 2 * EI / L * d 1 + C.Mb) := by
        rw [h, kFF_mulVec] at h3
        simp [CNL.vec] at h3
        field_simp at h3 ⊢
        linear_combination h3
      rw [h, kFP_mulVec, kFF_mulVec]
      ext p
      fin_cases p <;> simp [releaseCnl, CNL.vec, h4] <;> field_simp <;> ring
  | PF =>
    simp only [kOf, EType.freeLeft, EType.freeRight, Bool.false_eq_true, if_false, if_true]
    constructor
    · intro h
      refine ⟨-(L / (4 * EI)) * (6 * EI / L ^ 2 * (d 0 - d 2) + 2 * EI / L * d 3 + C.Ma), d 3, ?_,
        ?_, rfl⟩
      · rw [h, kPF_mulVec, kFF_mulVec]
        ext p
        fin_cases p <;> simp [releaseCnl, CNL.vec] <;> field_simp <;> ring
      · rw [h, kPF_mulVec]
        simp [releaseCnl, CNL.vec]
    · rintro ⟨t1, t3, h, h3, rfl⟩
      have h4 : t1 = -(L / (4 * EI)) * (6 * EI / L ^ 2 * (d 0 - d 2) + 2 * EI / L * d 3 + C.Ma) := by
        rw [h, kFF_mulVec] at h3
        simp [CNL.vec] at h3
        field_simp at h3 ⊢
        linear_combination h3
      rw [h, kPF_mulVec, kFF_mulVec]
      ext p
      fin_cases p <;> simp [releaseCnl, CNL.vec, h4] <;> field_simp <;> ring

/-! ### The beam -/

/-- Slender prismatic members, and mechanical loads that lie on their spans. -/
structure BeamDef.Slender (b : BeamDef ℝ) (ls : List (SpanLoad ℝ)) : Prop where
  pos : ∀ m ∈ b.members, 0 < m.L
  prismatic : ∀ m ∈ b.members, m.GAv = none ∧ ∃ e, 0 < e ∧ m.EI = .const e
  loads : ∀ i (hi : i < b.members.length), ∀ l ∈ ls, l.iSpan = (i : ℤ) →
    l.load.OnSpan b.members[i].L ∧ l.load.IsMechanical

theorem BeamDef.Slender.own {b : BeamDef ℝ} {ls : List (SpanLoad ℝ)} (h : b.Slender ls)
    (hls : b.setLoads = .ok ls) (i : ℕ) (hi : i < b.members.length) :
    ∀ ld ∈ ownLoads i ls, ld.Plain b.members[i].L := by
  intro ld hld
  simp only [ownLoads, List.mem_map, List.mem_filter, decide_eq_true_eq] at hld
  obtain ⟨l, ⟨h1, h2⟩, rfl⟩ := hld
  exact ⟨(h.loads i hi l h1 h2).1, (h.loads i hi l h1 h2).2, b.setLoads_no_mamb hls l h1⟩

/-- The clamped end moments of the loads on every pinned-pinned member cancel. -/
def BeamDef.PinsBalanced (b : BeamDef ℝ) (ls : List (SpanLoad ℝ)) : Prop :=
  ∀ i (hi : i < b.members.length), b.members[i].et = .PP →
    (clampedSum b.members[i].L (ownLoads i ls)).Ma
      + (clampedSum b.members[i].L (ownLoads i ls)).Mb = 0

theorem BeamDef.pinsBalanced_of {b : BeamDef ℝ} (h : ∀ m ∈ b.members, m.et ≠ .PP)
    (ls : List (SpanLoad ℝ)) : b.PinsBalanced ls :=
  fun _ hi hp => absurd hp (h _ (List.getElem_mem hi))

theorem BeamDef.pinsBalanced_nil (b : BeamDef ℝ) : b.PinsBalanced [] :=
  fun _ _ _ => by simp [ownLoads, clampedSum]

/-- The released end forces of the loads of a slender prismatic member. -/
theorem refSum_clamped {m : Member ℝ} (hL : 0 < m.L) {e : ℝ} (hEI : m.EI = .const e)
    (hG : m.GAv = none) (i : ℕ) (ls : List (SpanLoad ℝ))
    (hown : ∀ ld ∈ ownLoads i ls, ld.Plain m.L) (t : CNL ℝ) (ht : m.refSum i ls = .ok t) :
    t = releaseCnl (clampedSum m.L (ownLoads i ls)) m.L m.et := by
  have href : ∀ l ∈ ls, l.iSpan = (i : ℤ) → ∀ c, m.ref l.load = .ok c →
      c = releaseCnl (l.load.clamped m.L) m.L m.et := by
    intro l hl hli c hc
    have hp : l.load.Plain m.L := hown _ (by
      simp only [ownLoads, List.mem_map, List.mem_filter, decide_eq_true_eq]
      exact ⟨l, ⟨hl, hli⟩, rfl⟩)
    have hcn : m.cnl l.load = .ok (l.load.clamped m.L) := by
      have h1 := hp.2.1
      have h2 := hp.getCnl hL
      generalize l.load = ld at *
      cases ld <;> first | exact h1.elim | simp only [Member.cnl, h2]
    simp only [Member.ref, hcn, hG, hEI] at hc
    exact (Except.ok.inj hc).symm
  have key : ∀ (φ : CNL ℝ → ℝ) (h0 : φ ⟨0, 0, 0, 0⟩ = 0)
      (hadd : ∀ c t : CNL ℝ, φ ⟨c.Va + t.Va, c.Ma + t.Ma, c.Vb + t.Vb, c.Mb + t.Mb⟩ = φ c + φ t)
      (p q r s : ℝ) (hφ : ∀ c : CNL ℝ, φ (releaseCnl c m.L m.et)
        = p * c.Va + q * c.Ma + r * c.Vb + s * c.Mb),
      φ t = φ (releaseCnl (clampedSum m.L (ownLoads i ls)) m.L m.et) := by
    intro φ h0 hadd p q r s hφ
    rw [m.refSum_lin i φ h0 hadd (fun l => φ (releaseCnl (l.load.clamped m.L) m.L m.et)) ls
      (fun l hl hli c hc => by rw [href l hl hli c hc]) t ht, hφ,
      ← sum_clamped m.L (ownLoads i ls) (fun ld => φ (releaseCnl (ld.clamped m.L) m.L m.et)) p q r s
        (fun ld _ => hφ _)]
    simp only [ownLoads, List.map_map, Function.comp_def]
  generalize clampedSum m.L (ownLoads i ls) = C at *
  generalize m.et = et at *
  cases et
  · ext
    · exact key CNL.Va rfl (fun _ _ => rfl) 1 0 0 0 (fun c => by simp only [releaseCnl]; ring)
    · exact key CNL.Ma rfl (fun _ _ => rfl) 0 1 0 0 (fun c => by simp only [releaseCnl]; ring)
    · exact key CNL.Vb rfl (fun _ _ => rfl) 0 0 1 0 (fun c => by simp only [releaseCnl]; ring)
    · exact key CNL.Mb rfl (fun _ _ => rfl) 0 0 0 1 (fun c => by simp only [releaseCnl]; ring)
  · ext
    · exact key CNL.Va rfl (fun _ _ => rfl) 1 0 0 (-(6 / (4 * m.L))) (fun c => by simp only [releaseCnl]; ring)
    · exact key CNL.Ma rfl (fun _ _ => rfl) 0 1 0 (-1 / 2) (fun c => by simp only [releaseCnl]; ring)
    · exact key CNL.Vb rfl (fun _ _ => rfl) 0 0 1 (6 / (4 * m.L)) (fun c => by simp only [releaseCnl]; ring)
    · exact key CNL.Mb rfl (fun _ _ => rfl) 0 0 0 0 (fun c => by simp only [releaseCnl]; ring)
  · ext
    · exact key CNL.Va rfl (fun _ _ => rfl) 1 (-(6 / (4 * m.L))) 0 0 (fun c => by simp only [releaseCnl]; ring)
    · exact key CNL.Ma rfl (fun _ _ => rfl) 0 0 0 0 (fun c => by simp only [releaseCnl]; ring)
    · exact key CNL.Vb rfl (fun _ _ => rfl) 0 (6 / (4 * m.L)) 1 0 (fun c => by simp only [releaseCnl]; ring)
    · exact key CNL.Mb rfl (fun _ _ => rfl) 0 (-1 / 2) 0 1 (fun c => by simp only [releaseCnl]; ring)
  · ext
    · exact key CNL.Va rfl (fun _ _ => rfl) 1 (1 / m.L) 0 (1 / m.L) (fun c => by simp only [releaseCnl]; ring)
    · exact key CNL.Ma rfl (fun _ _ => rfl) 0 0 0 0 (fun c => by simp only [releaseCnl]; ring)
    · exact key CNL.Vb rfl (fun _ _ => rfl) 0 (-1 / m.L) 1 (-1 / m.L) (fun c => by simp only [releaseCnl]; ring)
    · exact key CNL.Mb rfl (fun _ _ => rfl) 0 0 0 0 (fun c => by simp only [releaseCnl]; ring)

theorem spanK_kOf {m : Member ℝ} {e : ℝ} (hEI : m.EI = .const e) (hG : m.GAv = none) :
    m.spanK = .ok (kOf e m.L m.et) := by
  simp only [Member.spanK, hG, hEI]
  cases m.et <;> rfl

/-- The system of a slender beam: every member has the stiffness and the released end
forces of the clamped loads. -/
theorem BeamDef.Slender.endForces {b : BeamDef ℝ} {ls : List (SpanLoad ℝ)} (h : b.Slender ls)
    (hls : b.setLoads = .ok ls) {s : System ℝ} (hs : b.system = .ok s) (i : ℕ)
    (hi : i < b.members.length) (e : ℝ) (he : b.members[i].EI = .const e) (d : ℕ → ℝ) :
    s.endForces d i = kOf e b.members[i].L b.members[i].et *ᵥ elemVec d i
      + (releaseCnl (clampedSum b.members[i].L (ownLoads i ls)) b.members[i].L
          b.members[i].et).vec := by
  obtain ⟨_, hk, ⟨ls', hls', href⟩, _⟩ := BeamDef.system_ok hs
  rw [hls] at hls'
  cases hls'
  have hG := (h.prismatic _ (List.getElem_mem hi)).1
  have h1 := hk i hi
  rw [spanK_kOf he hG] at h1
  obtain ⟨c, hc1, hc2⟩ := href i hi
  rw [refSum_clamped (h.pos _ (List.getElem_mem hi)) he hG i ls (h.own hls i hi) c hc1] at hc2
  simp only [System.endForces, ← Except.ok.inj h1, hc2]

/-- What the supports must supply at a node is the residual of the analysis. -/
theorem nodeSum_residual {b : BeamDef ℝ} {s : System ℝ} (hs : b.system = .ok s) (d : ℕ → ℝ)
    (j : ℕ) (hj : j ≤ b.members.length) (c : Fin 2) :
    nodeSum b d (s.endForces d) j c = s.residual d (2 * j + c) := by
  obtain ⟨hn, _, _, hr, _⟩ := BeamDef.system_ok hs
  rw [s.residual_node d j (by omega) c, nodeSum, hn]
  congr 1
  simp only [System.spring, hr]
  rcases lt_or_ge 0 (b.restraints.getD (2 * j + c) 0) with h | h
  · rw [if_pos h, max_eq_left h.le]
  · rw [if_neg (not_lt.mpr h), max_eq_right h]

/-- A solution of the stiffness equations gives elastic lines. -/
theorem elasticBeam_of_solution {b : BeamDef ℝ} {ls : List (SpanLoad ℝ)}
    (hls : b.setLoads = .ok ls) (hb : b.Slender ls) (hpp : b.PinsBalanced ls)
    {s : System ℝ} (h1 : b.system = .ok s) {u : ℕ → ℝ} (hu : s.IsSolution u) :
    ∃ v θ : ℕ → ℝ → ℝ, ElasticBeam b ls u (s.endForces u) v θ := by
  obtain ⟨hn, hk, _, hr, hp, _, _⟩ := BeamDef.system_ok h1
  obtain ⟨hd, hf⟩ := hu
  have key : ∀ i, ∃ v θ : ℝ → ℝ, ∀ hi : i < b.members.length,
      (∀ e, b.members[i].EI = .const e →
        ElasticSpan e b.members[i].L (ownLoads i ls) (s.endForces u i) v θ) ∧
      v 0 = u (2 * i) ∧ v b.members[i].L = u (2 * i + 2) ∧
      (if b.members[i].et.freeLeft then s.endForces u i 1 = 0 else θ 0 = u (2 * i + 1)) ∧
      (if b.members[i].et.freeRight then s.endForces u i 3 = 0
        else θ b.members[i].L = u (2 * i + 3)) := by
    intro i
    by_cases hi : i < b.members.length
    · obtain ⟨_, e, he, hEI⟩ := hb.prismatic _ (List.getElem_mem hi)
      have hL := hb.pos _ (List.getElem_mem hi)
      have hF := hb.endForces hls h1 i hi e hEI u
      obtain ⟨t1, t3, g1, g2, g3⟩ :=
        (release_iff he hL _ _ (hpp i hi) _ _).1 hF
      obtain ⟨v, θ, k1, k2, k3, k4, k5⟩ :=
        elasticSpan_of_stiffness he.ne' hL (hb.own hls i hi) _ _ g1
      refine ⟨v, θ, fun _ => ⟨fun e' he' => ?_, ?_, ?_, ?_, ?_⟩⟩
      · rw [hEI] at he'
        cases he'
        exact k1
      · rw [k2]; rfl
      · rw [k4]; rfl
      · rw [k3]; exact g2
      · rw [k5]; exact g3
    · exact ⟨0, 0, fun h => absurd h hi⟩
  choose v θ hvθ using key
  refine ⟨v, θ, ⟨fun i hi => (hvθ i hi).1, fun i hi => (hvθ i hi).2.1, fun i hi => (hvθ i hi).2.2.1,
    fun i hi => (hvθ i hi).2.2.2.1, fun i hi => (hvθ i hi).2.2.2.2, ?_, ?_, ?_⟩⟩
  · intro p hpN w hw
    exact hd p (by simp only [System.N, hn]; exact hpN) w (by simp only [System.constr, hp, hw])
  · intro p hpN hw hneg
    exact hd p (by simp only [System.N, hn]; exact hpN) 0 (by
      simp only [System.constr, hp, hw, hr, if_pos hneg])
  · intro j hj c hw hpos
    have hc := c.isLt
    rw [nodeSum_residual h1 _ j hj c]
    exact hf _ (by simp only [System.N, hn]; omega) (by
      simp only [System.constr, hp, hw, hr, if_neg (not_lt.mpr hpos)])

/-- Elastic lines give a solution of the stiffness equations, with its end forces. -/
theorem ElasticBeam.solution {b : BeamDef ℝ} {ls : List (SpanLoad ℝ)}
    (hls : b.setLoads = .ok ls) (hb : b.Slender ls) (hpp : b.PinsBalanced ls)
    {s : System ℝ} (hs : b.system = .ok s) {u : ℕ → ℝ} {F : ℕ → Vec4 ℝ} {v θ : ℕ → ℝ → ℝ}
    (h : ElasticBeam b ls u F v θ) :
    (∀ i < b.members.length, F i = s.endForces u i) ∧ s.IsSolution u := by
  obtain ⟨hn, hk, _, hr, hp, _, _⟩ := BeamDef.system_ok hs
  have hN : s.N = 2 * b.members.length + 2 := by simp only [System.N, hn]
  have hF : ∀ i < b.members.length, F i = s.endForces u i := by
    intro i hi
    obtain ⟨_, e, he, hEI⟩ := hb.prismatic _ (List.getElem_mem hi)
    have hL := hb.pos _ (List.getElem_mem hi)
    rw [hb.endForces hls hs i hi e hEI u,
      release_iff he hL _ _ (hpp i hi)]
    have h1 := (h.span i hi e hEI).stiffness he.ne' hL (hb.own hls i hi)
    refine ⟨θ i 0, θ i b.members[i].L, ?_, h.rotLeft i hi, h.rotRight i hi⟩
    rw [h.left i hi, h.right i hi] at h1
    exact h1
  refine ⟨hF, fun p hpN w hw => ?_, fun p hpN hc => ?_⟩
  · simp only [System.constr, hp, hr] at hw
    rcases hq : b.presc.getD p none with _ | w'
    · rw [hq] at hw
      simp only at hw
      split_ifs at hw with hneg
      cases hw
      exact h.rigid p (by omega) hq hneg
    · rw [hq] at hw
      cases hw
      exact h.prescribed p (by omega) w hq
  · simp only [System.constr, hp, hr] at hc
    rcases hq : b.presc.getD p none with _ | w'
    · rw [hq] at hc
      simp only at hc
      split_ifs at hc with hneg
      have e : 2 * (p / 2) + ((⟨p % 2, Nat.mod_lt _ (by norm_num)⟩ : Fin 2) : ℕ) = p := by
        simp only; omega
      have := h.free (p / 2) (by omega) ⟨p % 2, Nat.mod_lt _ (by norm_num)⟩ (by rw [e]; exact hq)
        (by rw [e]; exact not_lt.mp hneg)
      have e2 := nodeSum_residual hs u (p / 2) (by omega) ⟨p % 2, Nat.mod_lt _ (by norm_num)⟩
      rw [e] at e2
      rw [← e2, ← this]
      simp only [nodeSum]
      congr 2
      · split_ifs with h0
        · rw [hF (p / 2 - 1) (by omega)]
        · rfl
      · split_ifs with h0
        · rw [hF (p / 2) h0]
        · rfl
    · rw [hq] at hc
      cases hc

/-- **C91, partial**: a completed analysis of a beam of slender prismatic members is a
solution of the continuous beam problem: there are elastic lines that fit the reported nodal
displacements and member end forces.  What is missing are pinned-pinned members whose loads
have unbalanced clamped end moments, for which it is false (`C91_pinned_pinned_violation`);
shear-flexible members (C117), tapered and foundation-supported members. -/
theorem C91_exact_partial (b : BeamDef ℝ) (ls : List (SpanLoad ℝ)) (hls : b.setLoads = .ok ls)
    (hb : b.Slender ls) (hpp : b.PinsBalanced ls) (stable : System ℝ → Bool)
    (solve : Solver ℝ) (hs : solve.Sound) (res : Result ℝ)
    (h : b.analyze stable solve = .ok res) :
    ∃ v θ : ℕ → ℝ → ℝ, ElasticBeam b ls res.d res.fmbr v θ := by
  obtain ⟨s, h1, h2⟩ := BeamDef.analyze_ok h
  obtain ⟨hd, _, _, hfm, _⟩ := System.analyze_ok hs h2
  rw [hfm]
  exact elasticBeam_of_solution hls hb hpp h1 hd

/-- **C91**: the reported reactions of the rigid supports are what the supports must supply
for the node to be in equilibrium; those of the springs are minus stiffness times
displacement. -/
theorem C91_reactions (b : BeamDef ℝ) (stable : System ℝ → Bool) (solve : Solver ℝ)
    (hs : solve.Sound) (res : Result ℝ) (h : b.analyze stable solve = .ok res)
    (p : ℕ) (R : ℝ) (hR : (p, R) ∈ b.reported res) :
    (b.restraints.getD p 0 < 0 ∧
      R = nodeSum b res.d res.fmbr (p / 2) ⟨p % 2, Nat.mod_lt _ (by norm_num)⟩) ∨
    (0 < b.restraints.getD p 0 ∧ R = -(b.restraints.getD p 0 * res.d p)) := by
  obtain ⟨s, h1, h2⟩ := BeamDef.analyze_ok h
  obtain ⟨hn, hk, _, hr, hp, _, _⟩ := BeamDef.system_ok h1
  obtain ⟨_, hr1, hr2, hfm, _⟩ := System.analyze_ok hs h2
  have hzip : ∀ (l : List ℕ) (f : ℕ → ℝ), (p, R) ∈ l.zip (l.map f) → p ∈ l ∧ R = f p := by
    intro l f
    induction l with
    | nil => simp
    | cons a l ih =>
      simp only [List.map_cons, List.zip_cons_cons, List.mem_cons, Prod.mk.injEq]
      rintro (⟨rfl, rfl⟩ | h')
      · exact ⟨.inl rfl, rfl⟩
      · exact ⟨.inr (ih h').1, (ih h').2⟩
  simp only [BeamDef.reported, List.mem_append] at hR
  have hN : s.N = 2 * b.members.length + 2 := by simp only [System.N, hn]
  rcases hR with hR | hR
  · left
    rw [hr1, System.reactions] at hR
    simp only [hN, hr] at hR
    obtain ⟨g1, g2⟩ := hzip _ _ hR
    simp only [List.mem_filter, List.mem_range, decide_eq_true_eq] at g1
    refine ⟨g1.2, ?_⟩
    rw [g2, hfm, nodeSum_residual h1 _ _ (by omega)]
    congr 1
    simp only
    omega
  · right
    rw [hr2, System.springForces] at hR
    simp only [hN, hr] at hR
    obtain ⟨g1, g2⟩ := hzip _ _ hR
    simp only [List.mem_filter, List.mem_range, decide_eq_true_eq] at g1
    exact ⟨g1.2, by rw [g2]; ring⟩

/-- **C91**: the continuous beam problem of a beam that is not a mechanism has at most one
solution. -/
theorem C91_unique (b : BeamDef ℝ) (ls : List (SpanLoad ℝ)) (hls : b.setLoads = .ok ls)
    (hb : b.Slender ls) (hpp : b.PinsBalanced ls) (s : System ℝ) (hs : b.system = .ok s)
    (hns : s.Nonsingular) (u u' : ℕ → ℝ) (F F' : ℕ → Vec4 ℝ) (v θ v' θ' : ℕ → ℝ → ℝ)
    (h : ElasticBeam b ls u F v θ) (h' : ElasticBeam b ls u' F' v' θ') :
    (∀ p < 2 * b.members.length + 2, u p = u' p) ∧
    (∀ i (hi : i < b.members.length), F i = F' i ∧
      ∀ x ∈ Icc 0 b.members[i].L, v i x = v' i x ∧ θ i x = θ' i x) := by
  obtain ⟨hn, hk, _, hr, hp, _, _⟩ := BeamDef.system_ok hs
  have hN : s.N = 2 * b.members.length + 2 := by simp only [System.N, hn]
  obtain ⟨hF, hsol⟩ := h.solution hls hb hpp hs
  obtain ⟨hF', hsol'⟩ := h'.solution hls hb hpp hs
  have hu : ∀ p < 2 * b.members.length + 2, u p = u' p := fun p hp' =>
    System.IsSolution.unique hns hsol hsol' p (by omega)
  have hFF : ∀ i < b.members.length, F i = F' i := by
    intro i hi
    rw [hF i hi, hF' i hi]
    have : elemVec u i = elemVec u' i := by
      ext a
      exact hu _ (by have := a.isLt; omega)
    simp only [System.endForces, this]
  refine ⟨hu, fun i hi => ⟨hFF i hi, ?_⟩⟩
  obtain ⟨_, e, he, hEI⟩ := hb.prismatic _ (List.getElem_mem hi)
  have hL := hb.pos _ (List.getElem_mem hi)
  have hL0 := hL.ne'
  have hE0 := he.ne'
  have s1 := h.span i hi e hEI
  have s2 := h'.span i hi e hEI
  have f1 := s1.stiffness hE0 hL (hb.own hls i hi)
  have f2 := s2.stiffness hE0 hL (hb.own hls i hi)
  obtain ⟨l1, l2⟩ := s1.eq_line hL (hb.own hls i hi)
  obtain ⟨l3, l4⟩ := s2.eq_line hL (hb.own hls i hi)
  have ev : v i 0 = v' i 0 := by rw [h.left i hi, h'.left i hi, hu _ (by omega)]
  have evL : v i b.members[i].L = v' i b.members[i].L := by
    rw [h.right i hi, h'.right i hi, hu _ (by omega)]
  have et : θ i 0 = θ' i 0 := by
    rw [hFF i hi] at f1
    rw [f2] at f1
    have g1 := congrFun f1 1
    have g3 := congrFun f1 3
    simp only [kFF_mulVec] at g1 g3
    simp only [Pi.add_apply, Matrix.cons_val] at g1 g3
    rw [ev, evL] at g1 g3
    have g : 6 * e / b.members[i].L * (θ i 0 - θ' i 0) = 0 := by
      linear_combination g3 - 2 * g1
    have g' : 6 * e / b.members[i].L ≠ 0 := by positivity
    have := (mul_eq_zero.1 g).resolve_left g'
    linarith
  intro x hx
  rw [l1 x hx, l2 x hx, l3 x hx, l4 x hx, ev, et, hFF i hi]
  exact ⟨rfl, rfl⟩

/-- **C91**: a beam of slender members without releases, with a rigid vertical support and
either a second one or a clamp, has exactly one solution of the continuous beam problem, so
what the analysis reports is the exact solution. -/
theorem C91_well_posed (b : BeamDef ℝ) (ls : List (SpanLoad ℝ)) (hls : b.setLoads = .ok ls)
    (hb : b.Slender ls) (hff : ∀ m ∈ b.members, m.et = .FF) (s : System ℝ)
    (hs : b.system = .ok s) (i j : ℕ) (hil : i ≤ b.members.length) (hj : j ≤ b.members.length)
    (hi : b.restraints.getD (2 * i) 0 < 0)
    (hsup : (i < j ∧ b.restraints.getD (2 * j) 0 < 0) ∨ b.restraints.getD (2 * j + 1) 0 < 0) :
    (∃ u F v θ, ElasticBeam b ls u F v θ) ∧
    ∀ u u' F F' v v' θ θ', ElasticBeam b ls u F v θ → ElasticBeam b ls u' F' v' θ' →
      (∀ p < 2 * b.members.length + 2, u p = u' p) ∧
      (∀ i (hi : i < b.members.length), F i = F' i ∧
        ∀ x ∈ Icc 0 b.members[i].L, v i x = v' i x ∧ θ i x = θ' i x) := by
  have hgood : ∀ m ∈ b.members, m.Good ∧ m.et = .FF := by
    intro m hm
    obtain ⟨hG, e, he, hEI⟩ := hb.prismatic m hm
    refine ⟨⟨hb.pos m hm, ?_, ?_⟩, hff m hm⟩
    · rw [hEI]; exact he
    · rw [hG]; simp
  have hpp := b.pinsBalanced_of (fun m hm => by rw [hff m hm]; simp) ls
  have hns := C77_adequate_supports b hgood s hs i j hil hj hi hsup
  obtain ⟨d, hd⟩ := System.exists_solution hns
  obtain ⟨v, θ, h⟩ := elasticBeam_of_solution hls hb hpp hs hd
  exact ⟨⟨_, _, v, θ, h⟩, fun u u' F F' v v' θ θ' h h' =>
    C91_unique b ls hls hb hpp s hs hns u u' F F' v θ v' θ' h h'⟩

/-- **C91, violated** by pinned-pinned members: if the clamped end moments of the loads on
such a member do not cancel, no elastic line fits the reported end forces. -/
theorem C91_pinned_pinned_violation (b : BeamDef ℝ) (ls : List (SpanLoad ℝ))
    (hls : b.setLoads = .ok ls) (hb : b.Slender ls) (stable : System ℝ → Bool)
    (solve : Solver ℝ) (hs : solve.Sound) (res : Result ℝ)
    (h : b.analyze stable solve = .ok res) (i : ℕ) (hi : i < b.members.length)
    (hpp : b.members[i].et = .PP)
    (hM : (clampedSum b.members[i].L (ownLoads i ls)).Ma
      + (clampedSum b.members[i].L (ownLoads i ls)).Mb ≠ 0) :
    ¬ ∃ v θ : ℕ → ℝ → ℝ, ElasticBeam b ls res.d res.fmbr v θ := by
  rintro ⟨v, θ, hE⟩
  obtain ⟨s, h1, h2⟩ := BeamDef.analyze_ok h
  obtain ⟨_, _, _, hfm, _⟩ := System.analyze_ok hs h2
  obtain ⟨_, e, he, hEI⟩ := hb.prismatic _ (List.getElem_mem hi)
  have hL := hb.pos _ (List.getElem_mem hi)
  have hL0 := hL.ne'
  have hF := hb.endForces hls h1 i hi e hEI res.d
  have hm := (hE.span i hi e hEI).moment
  rw [(clampedSum_balance hL (hb.own hls i hi)).2, hfm, hF, hpp] at hm
  generalize clampedSum b.members[i].L (ownLoads i ls) = C at *
  have e1 : kOf e b.members[i].L .PP *ᵥ elemVec res.d i = 0 := by
    ext p
    fin_cases p <;> simp [kOf, kPP, Matrix.mulVec, dotProduct, Fin.sum_univ_four]
  rw [e1] at hm
  simp [releaseCnl, CNL.vec] at hm
  field_simp at hm
  apply hM
  linarith

/-- **C91**, both sides together: the reported displacements and end forces of a completed
analysis belong to elastic lines exactly if the clamped end moments of the loads on every
pinned-pinned member cancel. -/
theorem C91_exact_iff (b : BeamDef ℝ) (ls : List (SpanLoad ℝ)) (hls : b.setLoads = .ok ls)
    (hb : b.Slender ls) (stable : System ℝ → Bool) (solve : Solver ℝ) (hs : solve.Sound)
    (res : Result ℝ) (h : b.analyze stable solve = .ok res) :
    (∃ v θ : ℕ → ℝ → ℝ, ElasticBeam b ls res.d res.fmbr v θ) ↔ b.PinsBalanced ls := by
  constructor
  · intro hE i hi hp
    by_contra hM
    exact C91_pinned_pinned_violation b ls hls hb stable solve hs res h i hi hp hM hE
  · intro hpp
    exact C91_exact_partial b ls hls hb hpp stable solve hs res h

end PyCBA
