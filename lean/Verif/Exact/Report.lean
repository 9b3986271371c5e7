import Verif.Exact.Props
import Verif.Results.Props

set_option linter.unusedSectionVars false
set_option linter.unusedSimpArgs false

/-!
C91: the reported diagrams are those of the exact solution; concrete cases.
-/

namespace PyCBA

open MeasureTheory Set Matrix

theorem ssV_eq (ld : Load ℝ) (L x : ℝ) : ld.ssV L x = (ld.ss L x).V := by
  simp only [Load.ssV, Load.ss]
  cases ld.stn L x <;> rfl

theorem ssM_eq (ld : Load ℝ) (L x : ℝ) : ld.ssM L x = (ld.ss L x).M := by
  simp only [Load.ssM, Load.ss]
  cases ld.stn L x <;> rfl

theorem list_sum_sub {α : Type*} (l : List α) (f g : α → ℝ) :
    (l.map fun a => f a - g a).sum = (l.map f).sum - (l.map g).sum := by
  induction l with
  | nil => simp
  | cons a l ih =>
    simp only [List.map_cons, List.sum_cons, ih]
    ring

theorem list_sum_mul {α : Type*} (l : List α) (f : α → ℝ) (c : ℝ) :
    (l.map fun a => f a * c).sum = (l.map f).sum * c := by
  induction l with
  | nil => simp
  | cons a l ih =>
    simp only [List.map_cons, List.sum_cons, ih]
    ring

/-- The end force of an elastic span from its end moments and its loads. -/
theorem ElasticSpan.start {EI L : ℝ} (hL : 0 < L) {own : List (Load ℝ)}
    (hown : ∀ ld ∈ own, ld.Plain L) {F : Vec4 ℝ} {v θ : ℝ → ℝ}
    (h : ElasticSpan EI L own F v θ) :
    F 0 = (F 1 + F 3) / L + (own.map fun ld => (ld.ss L 0).V).sum := by
  have h1 := h.force
  have h2 := h.moment
  rw [(clampedSum_balance hL hown).1] at h1
  rw [(clampedSum_balance hL hown).2] at h2
  rw [sum_clamped L own _ 1 (-1 / L) 0 (-1 / L) fun ld hld => by
    rw [((hown ld hld).start hL).1]; ring]
  field_simp
  linear_combination L * h1 - h2

theorem cutV_eq {L : ℝ} (hL : 0 < L) {own : List (Load ℝ)} (hown : ∀ ld ∈ own, ld.Plain L)
    (F : Vec4 ℝ) {x : ℝ} (hx : x ∈ Icc 0 L) :
    cutV L own F x = F 0 + ((own.map fun ld => (ld.ss L x).V).sum
      - (own.map fun ld => (ld.ss L 0).V).sum) := by
  rw [← list_sum_sub, cutV, sub_eq_add_neg]
  congr 1
  rw [← neg_one_mul, mul_comm, ← list_sum_mul]
  congr 1
  apply List.map_congr_left
  intro ld hld
  obtain ⟨a, b, c⟩ := hown ld hld
  rw [(ld.cut L hL a b c x hx).1]
  ring

/-- **C91**: at every station between the two padding stations of a member the reported
shear and bending moment are those of a free-body cut of the exact solution, the moment
away from applied couples. -/
theorem C91_reported (b : BeamDef ℝ) (ls : List (SpanLoad ℝ)) (hls : b.setLoads = .ok ls)
    (hb : b.Slender ls) (hpp : b.PinsBalanced ls) (stable : System ℝ → Bool)
    (solve : Solver ℝ) (hs : solve.Sound) (res : Result ℝ)
    (h : b.analyze stable solve = .ok res) (npts : ℕ) (hn : 0 < npts) (sp : ℕ → List ℝ)
    (rs : List (MRes ℝ)) (hr : b.memberResults res npts sp = .ok rs) (i : ℕ)
    (hi : i < b.members.length) (hi' : i < rs.length) (k : ℕ) (hk : 0 < k)
    (hk' : k + 1 < rs[i].n) :
    rs[i].V k = cutV b.members[i].L (ownLoads i ls) (res.fmbr i) (rs[i].x k - b.nodeX i) ∧
    ((∀ ld ∈ ownLoads i ls, ∀ p ∈ ld.couplesAt, p.2 ≠ rs[i].x k - b.nodeX i) →
      rs[i].M k
        = cutM b.members[i].L (ownLoads i ls) (res.fmbr i) (rs[i].x k - b.nodeX i)) := by
  obtain ⟨v, θ, hE⟩ := C91_exact_partial b ls hls hb hpp stable solve hs res h
  obtain ⟨ls', kk, t, c, hls', _, _, _, m1, m2, m3, m4, m5, m6, hc⟩ :=
    BeamDef.results_member hs h hr i hi hi'
  rw [hls] at hls'
  cases hls'
  obtain ⟨_, e, he, hEI⟩ := hb.prismatic _ (List.getElem_mem hi)
  have hL := hb.pos _ (List.getElem_mem hi)
  have hown := hb.own hls i hi
  obtain ⟨x1, x2, x3, x4, x5, x6⟩ := c.x_spec (by rw [m1]; exact hL) (by rw [m5]; exact hn)
  have hst := (hE.span i hi e hEI).start hL hown
  rw [hc] at hk' ⊢
  simp only [MCtx.result] at hk' ⊢
  have hx : c.x k + b.nodeX i - b.nodeX i = c.x k := by ring
  rw [hx]
  have hIs : ¬ c.IsEnd k := by simp only [MCtx.IsEnd]; omega
  have hxI : c.x k ∈ Icc 0 b.members[i].L := by
    rw [m1] at x5
    exact ⟨x2 ▸ x6 0 k (by omega) (by omega), x5 ▸ x6 k (c.n - 1) (by omega) (by omega)⟩
  constructor
  · rw [cutV_eq hL hown _ hxI, MCtx.V, if_neg hIs, m1, m2, m3, hst]
    simp only [ssV_eq, mambStn]
    ring
  · intro hcp
    rw [cutM_eq hL hown _ hxI hcp, MCtx.M, if_neg hIs, m1, m2, m3, hst, list_sum_sub, list_sum_mul]
    simp only [ssM_eq, mambStn]
    ring

/-! ### Concrete cases -/

/-- A regular system with admissible loads is analysed by some sound solver. -/
theorem BeamDef.completes {b : BeamDef ℝ} {s : System ℝ} (hs : b.system = .ok s)
    (hns : s.Nonsingular) (hv : s.validate s.forces = true) :
    ∃ solve : Solver ℝ, solve.Sound ∧ ∃ res, b.analyze (fun _ => true) solve = .ok res := by
  obtain ⟨d, hd⟩ := System.exists_solution hns
  refine ⟨trySolver d, trySolver_sound d, ⟨d, s.reactions d, s.springForces d, s.endForces d⟩, ?_⟩
  simp only [BeamDef.analyze, hs, not_true_eq_false, and_false, if_false]
  exact s.analyze_try d hv hd.1 hd.2

/-- Two spans over three supports, with a uniform load and a couple. -/
noncomputable def exTwoSpan : BeamDef ℝ :=
  ⟨[⟨.const 6, 2, .FF, none⟩, ⟨.const 6, 3, .FF, none⟩], [-1, 0, -1, 0, -1, 0],
    [none, none, none, none, none, none], [⟨1, 1, [3]⟩, ⟨2, 4, [5, 1]⟩]⟩

theorem exTwoSpan_loads : exTwoSpan.setLoads = .ok [⟨0, .udl 3⟩, ⟨1, .ml 5 1⟩] := by
  simp [BeamDef.setLoads, exTwoSpan, parseLM, parseRow]

theorem exTwoSpan_slender : exTwoSpan.Slender [⟨0, .udl 3⟩, ⟨1, .ml 5 1⟩] := by
  refine ⟨?_, ?_, ?_⟩
  · simp [exTwoSpan]
  · intro m hm
    simp only [exTwoSpan, List.mem_cons, List.not_mem_nil, or_false] at hm
    rcases hm with rfl | rfl <;> exact ⟨rfl, 6, by norm_num, rfl⟩
  · intro i hi l hl hli
    simp only [exTwoSpan, List.length_cons, List.length_nil, List.mem_cons, List.not_mem_nil,
      or_false] at hi hl
    rcases hl with rfl | rfl
    · exact ⟨trivial, trivial⟩
    · have : i = 1 := by simp only at hli; omega
      subst this
      simp [exTwoSpan, Load.OnSpan, Load.IsMechanical]

/-- C91 at two spans: the analysis completes, its lines solve the continuous problem, and
that problem has no other solution. -/
theorem exTwoSpan_analysed : ∃ (solve : Solver ℝ) (res : Result ℝ) (v θ : ℕ → ℝ → ℝ),
    solve.Sound ∧ exTwoSpan.analyze (fun _ => true) solve = .ok res ∧
    ElasticBeam exTwoSpan [⟨0, .udl 3⟩, ⟨1, .ml 5 1⟩] res.d res.fmbr v θ ∧
    ∀ u F v' θ', ElasticBeam exTwoSpan [⟨0, .udl 3⟩, ⟨1, .ml 5 1⟩] u F v' θ' →
      v' 0 1 = v 0 1 ∧ θ' 1 2 = θ 1 2 := by
  obtain ⟨s, hs⟩ : ∃ s, exTwoSpan.system = .ok s := by
    rw [BeamDef.system, exTwoSpan_loads]
    simp [exTwoSpan, mapE, Member.spanK, Member.refSum, Member.ref, Member.cnl, Load.getCnl]
  have hff : ∀ m ∈ exTwoSpan.members, m.et = .FF := by
    intro m hm
    simp only [exTwoSpan, List.mem_cons, List.not_mem_nil, or_false] at hm
    rcases hm with rfl | rfl <;> rfl
  have hns := C77_adequate_supports exTwoSpan (by
    intro m hm
    refine ⟨?_, hff m hm⟩
    simp only [exTwoSpan, List.mem_cons, List.not_mem_nil, or_false] at hm
    rcases hm with rfl | rfl <;> simp [Member.Good, Rigidity.Good]) s hs 0 1 (by simp)
    (by simp [exTwoSpan]) (by simp [exTwoSpan]) (Or.inl (by simp [exTwoSpan]))
  obtain ⟨hn, hk, _, hr, hp, _, _⟩ := BeamDef.system_ok hs
  obtain ⟨solve, hsd, res, hres⟩ := BeamDef.completes hs hns (by
    simp only [System.validate, hp]
    have : ∀ i : ℕ, exTwoSpan.presc.getD i none = none := by
      intro i
      rcases i with _ | _ | _ | _ | _ | _ | i <;> simp [exTwoSpan]
    simp only [this]
    simp)
  have hpp := exTwoSpan.pinsBalanced_of (fun m hm => by rw [hff m hm]; simp)
    [⟨0, .udl 3⟩, ⟨1, .ml 5 1⟩]
  obtain ⟨v, θ, hE⟩ := C91_exact_partial exTwoSpan _ exTwoSpan_loads exTwoSpan_slender hpp _ solve
    hsd res hres
  refine ⟨solve, res, v, θ, hsd, hres, hE, fun u F v' θ' h' => ?_⟩
  have := (C91_unique exTwoSpan _ exTwoSpan_loads exTwoSpan_slender hpp s hs hns _ _ _ _ _ _ _ _
    h' hE).2
  exact ⟨((this 0 (by simp [exTwoSpan])).2 1 (by simp [exTwoSpan])).1,
    ((this 1 (by simp [exTwoSpan])).2 2 (by simp [exTwoSpan]; norm_num)).2⟩

/-- A pinned-pinned member with a point load off its middle, between clamps. -/
noncomputable def exPinnedReal : BeamDef ℝ :=
  ⟨[⟨.const 6, 3, .PP, none⟩], [-1, -1, -1, -1], [none, none, none, none], [⟨1, 2, [9, 1]⟩]⟩

/-- C91 violated: this beam is analysed but the result is not an elastic line. -/
example : ∃ (solve : Solver ℝ) (res : Result ℝ), solve.Sound ∧
    exPinnedReal.analyze (fun _ => true) solve = .ok res ∧
    ¬ ∃ v θ : ℕ → ℝ → ℝ, ElasticBeam exPinnedReal [⟨0, .pl 9 1⟩] res.d res.fmbr v θ := by
  have hls : exPinnedReal.setLoads = .ok [⟨0, .pl 9 1⟩] := by
    simp [BeamDef.setLoads, exPinnedReal, parseLM, parseRow]
  have hb : exPinnedReal.Slender [⟨0, .pl 9 1⟩] := by
    refine ⟨by simp [exPinnedReal], ?_, ?_⟩
    · intro m hm
      simp only [exPinnedReal, List.mem_cons, List.not_mem_nil, or_false] at hm
      rcases hm with rfl
      exact ⟨rfl, 6, by norm_num, rfl⟩
    · intro i hi l hl hli
      simp only [exPinnedReal, List.length_cons, List.length_nil, List.mem_cons,
        List.not_mem_nil, or_false] at hi hl
      rcases hl with rfl
      have : i = 0 := by omega
      subst this
      simp [exPinnedReal, Load.OnSpan, Load.IsMechanical]
  obtain ⟨s, hs⟩ : ∃ s, exPinnedReal.system = .ok s := by
    rw [BeamDef.system, hls]
    simp [exPinnedReal, mapE, Member.spanK, Member.refSum, Member.ref, Member.cnl, Load.getCnl]
  obtain ⟨hn, hk, _, hr, hp, _, _⟩ := BeamDef.system_ok hs
  have hpn : ∀ i : ℕ, exPinnedReal.presc.getD i none = none := by
    intro i
    rcases i with _ | _ | _ | _ | i <;> simp [exPinnedReal]
  have hns : s.Nonsingular := by
    intro x hx _ p hp'
    refine hx p hp' ?_
    have h4 : p < 4 := by simpa [System.N, hn, exPinnedReal] using hp'
    simp only [System.constr, hp, hpn, hr]
    interval_cases p <;> simp [exPinnedReal]
  obtain ⟨solve, hsd, res, hres⟩ := BeamDef.completes hs hns (by
    simp only [System.validate, hp]
    simp only [hpn]
    simp)
  refine ⟨solve, res, hsd, hres, C91_pinned_pinned_violation exPinnedReal _ hls hb _ solve hsd res
    hres 0 (by simp [exPinnedReal]) rfl ?_⟩
  simp [exPinnedReal, ownLoads, clampedSum, Load.clamped, Load.getCnl, plCnl]
  norm_num

/-- A suspended span, pinned at both ends and loaded symmetrically, between the tip of a
cantilever and an abutment. -/
noncomputable def exGerber : BeamDef ℝ :=
  ⟨[⟨.const 10, 2, .FF, none⟩, ⟨.const 5, 4, .PP, none⟩], [-1, -1, 0, 0, -1, -1],
    [none, none, none, none, none, none], [⟨2, 1, [3]⟩, ⟨2, 2, [8, 2]⟩]⟩

/-- C91 at a beam with a pinned-pinned member: the analysis completes and is an elastic line. -/
example : ∃ (solve : Solver ℝ) (res : Result ℝ) (v θ : ℕ → ℝ → ℝ), solve.Sound ∧
    exGerber.analyze (fun _ => true) solve = .ok res ∧
    ElasticBeam exGerber [⟨1, .udl 3⟩, ⟨1, .pl 8 2⟩] res.d res.fmbr v θ := by
  have hls : exGerber.setLoads = .ok [⟨1, .udl 3⟩, ⟨1, .pl 8 2⟩] := by
    simp [BeamDef.setLoads, exGerber, parseLM, parseRow]
  have hb : exGerber.Slender [⟨1, .udl 3⟩, ⟨1, .pl 8 2⟩] := by
    refine ⟨by simp [exGerber], ?_, ?_⟩
    · intro m hm
      simp only [exGerber, List.mem_cons, List.not_mem_nil, or_false] at hm
      rcases hm with rfl | rfl
      · exact ⟨rfl, 10, by norm_num, rfl⟩
      · exact ⟨rfl, 5, by norm_num, rfl⟩
    · intro i hi l hl hli
      simp only [exGerber, List.length_cons, List.length_nil, List.mem_cons,
        List.not_mem_nil, or_false] at hi hl
      have : i = 1 := by rcases hl with rfl | rfl <;> (simp only at hli; omega)
      subst this
      rcases hl with rfl | rfl <;> norm_num [exGerber, Load.OnSpan, Load.IsMechanical]
  obtain ⟨s, hs⟩ : ∃ s, exGerber.system = .ok s := by
    rw [BeamDef.system, hls]
    simp [exGerber, mapE, Member.spanK, Member.refSum, Member.ref, Member.cnl, Load.getCnl]
  obtain ⟨hn, hk, _, hr, hp, _, _⟩ := BeamDef.system_ok hs
  have hpn : ∀ i : ℕ, exGerber.presc.getD i none = none := by
    intro i
    rcases i with _ | _ | _ | _ | _ | _ | i <;> simp [exGerber]
  have hns : s.Nonsingular := by
    have hn1 : s.n = 2 := hn
    have hN : s.N = 6 := by simp [System.N, hn1]
    have hk0 : s.kb 0 = kFF 10 2 := by
      have := hk 0 (by simp [exGerber])
      simp [exGerber, Member.spanK] at this
      exact this.symm
    have hk1 : s.kb 1 = kPP := by
      have := hk 1 (by simp [exGerber])
      simp [exGerber, Member.spanK] at this
      exact this.symm
    have cc : ∀ p : ℕ, p = 0 ∨ p = 1 ∨ p = 4 ∨ p = 5 → (s.constr p).isSome := by
      intro p h
      simp only [System.constr, hp, hpn, hr]
      rcases h with rfl | rfl | rfl | rfl <;> simp [exGerber]
    have cn : ∀ p : ℕ, p = 2 ∨ p = 3 → s.constr p = none := by
      intro p h
      simp only [System.constr, hp, hpn, hr]
      rcases h with rfl | rfl <;> simp [exGerber]
    intro x hx hf
    have x0 := hx 0 (by omega) (cc 0 (by simp))
    have x1 := hx 1 (by omega) (cc 1 (by simp))
    have x4 := hx 4 (by omega) (cc 4 (by simp))
    have x5 := hx 5 (by omega) (cc 5 (by simp))
    have f2 := hf 2 (by omega) (cn 2 (by simp))
    have f3 := hf 3 (by omega) (cn 3 (by simp))
    rw [s.mulN_assemble _ _ (by omega), hn1] at f2 f3
    simp [Finset.sum_range_succ, hk0, hk1, kPP, blockVec, mulVec4, elemVec, kFF, x0, x1,
      System.spring, hr, exGerber] at f2 f3
    norm_num at f2 f3
    have x2 : x 2 = 0 := by linarith
    have x3 : x 3 = 0 := by linarith
    intro p hp
    rw [hN] at hp
    interval_cases p <;> assumption
  obtain ⟨solve, hsd, res, hres⟩ := BeamDef.completes hs hns (by
    simp only [System.validate, hp]
    simp only [hpn]
    simp)
  obtain ⟨v, θ, hE⟩ := (C91_exact_iff exGerber _ hls hb _ solve hsd res hres).2 (by
    intro i hi het
    simp only [exGerber, List.length_cons, List.length_nil] at hi
    have : i = 1 := by
      interval_cases i
      · simp [exGerber] at het
      · rfl
    subst this
    simp [exGerber, ownLoads, clampedSum, Load.clamped, Load.getCnl, plCnl, udlCnl]
    norm_num)
  exact ⟨solve, res, v, θ, hsd, hres, hE⟩

end PyCBA
