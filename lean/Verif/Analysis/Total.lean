import Verif.Results.Props
import Verif.Bridge.Run
import Verif.Exact.Mueller

/-!
C136: when an analysis completes.

`BeamAnalysis.analyze` (`src/pycba/analysis.py` 447-466), `parse_LM` (`load.py` 1061-1119) and the
member results (`results.py` 133-148), as modelled in `Verif/Analysis/Model.lean`,
`Verif/Load/Model.lean` and `Verif/Results/Model.lean`: the inputs for which none of them raises.
-/

set_option linter.unusedSectionVars false
set_option linter.unusedSimpArgs false

namespace PyCBA

variable {K : Type*} [Field K] [LinearOrder K] [IsStrictOrderedRing K]

/-! ### What the words mean -/

/-- A linear solver that raises for singular matrices only. -/
def Solver.Complete (solve : Solver K) : Prop :=
  ∀ N A b, (∀ x : ℕ → K, (∀ p < N, mulN N A x p = 0) → ∀ p < N, x p = 0) → ∃ x, solve N A b = .ok x

/-- The number of values that a load of a type needs after span and type; the others are
ignored. -/
def argsNeeded (t : ℤ) : ℕ :=
  if t = 1 then 1 else if t = 2 then 2 else if t = 3 then 3 else if t = 4 then 2
  else if t = 5 then 2 else 0

/-- A row of a load matrix that the members `ms` accept: it has its values, a partial uniform load
(type 3) does not start beyond the end of its span, and imposed curvatures (type 6) are on a
member, counted from either end as Python does. -/
structure Row.Accepted (ms : List (Member K)) (r : Row K) : Prop where
  args : argsNeeded r.ltype ≤ r.args.length
  start : r.ltype = 3 → ∀ i (hi : i < ms.length), r.span = (i : ℤ) + 1 → r.args.getD 1 0 ≤ ms[i].L
  curv : r.ltype = 6 → -(ms.length : ℤ) ≤ r.span - 1 ∧ r.span - 1 < ms.length

/-! ### Reading the loads -/

theorem parseRow_iff (r : Row K) : (∃ o, parseRow r = .ok o) ↔ argsNeeded r.ltype ≤ r.args.length := by
  obtain ⟨sp, t, args⟩ := r
  unfold parseRow argsNeeded
  simp only
  by_cases h1 : t = 1
  · simp only [h1, if_true]
    rcases args with _ | ⟨a, l⟩ <;> simp
  simp only [h1, if_false]
  by_cases h2 : t = 2
  · simp only [h2, if_true]
    rcases args with _ | ⟨a, _ | ⟨c, l⟩⟩ <;> simp
  simp only [h2, if_false]
  by_cases h3 : t = 3
  · simp only [h3, if_true]
    rcases args with _ | ⟨a, _ | ⟨c, _ | ⟨d, l⟩⟩⟩ <;> simp
  simp only [h3, if_false]
  by_cases h4 : t = 4
  · simp only [h4, if_true]
    rcases args with _ | ⟨a, _ | ⟨c, l⟩⟩ <;> simp
  simp only [h4, if_false]
  by_cases h5 : t = 5
  · simp only [h5, if_true]
    rcases args with _ | ⟨a, _ | ⟨c, _ | ⟨d, _ | ⟨e, l⟩⟩⟩⟩ <;> simp
  simp only [h5, if_false]
  by_cases h6 : t = 6
  · simp [h6]
  · simp [h6]

theorem parseLM_iff (LM : List (Row K)) :
    (∃ ls, parseLM LM = .ok ls) ↔ ∀ r ∈ LM, argsNeeded r.ltype ≤ r.args.length := by
  induction LM with
  | nil => simp [parseLM]
  | cons r LM ih =>
    simp only [List.mem_cons, forall_eq_or_imp, ← ih, ← parseRow_iff r, parseLM]
    constructor
    · rintro ⟨ls, h⟩
      split at h
      · cases h
      · rename_i o ho
        split at h
        · cases h
        · rename_i ls' hls'
          exact ⟨⟨o, ho⟩, ls', hls'⟩
    · rintro ⟨⟨o, ho⟩, ls, hls⟩
      rw [ho, hls]
      exact ⟨_, rfl⟩

/-- The loads that were read, and the rows they came from. -/
theorem parseLM_mem_iff {LM : List (Row K)} {ls : List (SpanLoad K)} (h : parseLM LM = .ok ls)
    (l : SpanLoad K) : l ∈ ls ↔ ∃ r ∈ LM, parseRow r = .ok (some l) := by
  induction LM generalizing ls with
  | nil => cases h; simp
  | cons r LM ih =>
    simp only [parseLM] at h
    split at h
    · cases h
    · rename_i o ho
      split at h
      · cases h
      · rename_i ls' hls'
        cases h
        simp only [List.mem_cons, exists_eq_or_imp, ← ih hls', ho, Except.ok.injEq]
        cases o with
        | none => simp
        | some l' => simp [eq_comm]

theorem parseRow_pudl {r : Row K} {i : ℤ} {w a c : K} (h : parseRow r = .ok (some ⟨i, .pudl w a c⟩)) :
    r.ltype = 3 ∧ r.span = i + 1 ∧ r.args.getD 1 0 = a := by
  obtain ⟨sp, t, args⟩ := r
  unfold parseRow at h
  simp only at h
  split_ifs at h with h1 h2 h3 h4 h5 h6
  · split at h <;> simp at h
  · split at h <;> simp at h
  · split at h
    · simp only [Except.ok.injEq, Option.some.injEq, SpanLoad.mk.injEq, Load.pudl.injEq] at h
      obtain ⟨e1, e2, rfl, e4⟩ := h
      exact ⟨h3, by simp only; omega, rfl⟩
    · cases h
  · split at h <;> simp at h
  · split at h <;> simp at h
  · simp at h
  · simp at h

theorem parseRow_of_three {r : Row K} (h3 : r.ltype = 3) (h : argsNeeded r.ltype ≤ r.args.length) :
    ∃ w c, parseRow r = .ok (some ⟨r.span - 1, .pudl w (r.args.getD 1 0) c⟩) := by
  obtain ⟨sp, t, args⟩ := r
  simp only at h3
  subst h3
  rcases args with _ | ⟨a, _ | ⟨c, _ | ⟨d, l⟩⟩⟩ <;> simp [argsNeeded] at h
  exact ⟨a, d, rfl⟩

theorem parseRow_ic {r : Row K} {i : ℤ} {k : List K} {E : Option K}
    (h : parseRow r = .ok (some ⟨i, .ic k E⟩)) : r.ltype = 6 ∧ r.span - 1 = i := by
  obtain ⟨sp, t, args⟩ := r
  unfold parseRow at h
  simp only at h
  split_ifs at h with h1 h2 h3 h4 h5 h6
  · split at h <;> simp at h
  · split at h <;> simp at h
  · split at h <;> simp at h
  · split at h <;> simp at h
  · split at h <;> simp at h
  · simp only [Except.ok.injEq, Option.some.injEq, SpanLoad.mk.injEq] at h
    exact ⟨h6, h.1⟩
  · simp at h

/-! ### End forces -/

theorem Member.cnl_iff (m : Member K) (hm : m.Good) (ld : Load K) :
    (∃ c, m.cnl ld = .ok c) ↔ ∀ w a c, ld = .pudl w a c → a ≤ m.L := by
  obtain ⟨EI, L, et, GAv⟩ := m
  obtain ⟨hL, hE, hG⟩ := hm
  cases ld with
  | ic k E =>
    simp only [reduceCtorEq, false_implies, implies_true, iff_true]
    cases EI with
    | const e => exact ⟨_, rfl⟩
    | «section» s =>
      obtain ⟨i, hi, _⟩ := (flexibility_PD2 s.nodes hE L hL).inv
      simp only [Member.cnl, icCnlSection, hi]
      exact ⟨_, rfl⟩
  | pudl w a c =>
    simp only [Load.pudl.injEq, Member.cnl, Load.getCnl]
    by_cases h : L < a
    · simp only [h, if_true]
      constructor
      · rintro ⟨c, hc⟩
        cases EI <;> cases hc
      · intro h'
        exact absurd (h' w a c ⟨rfl, rfl, rfl⟩) (not_le.2 h)
    · simp only [h, if_false]
      constructor
      · rintro - w' a' c' ⟨rfl, rfl, rfl⟩
        exact not_lt.1 h
      · intro _
        cases EI <;> exact ⟨_, rfl⟩
  | trapez w1 w2 a c =>
    simp only [reduceCtorEq, false_implies, implies_true, iff_true, Member.cnl, Load.getCnl]
    by_cases h : (resolveTrapez w1 w2 a c L).2.2.2.2 ≤ 0
    · simp only [h, if_true]
      cases EI <;> exact ⟨_, rfl⟩
    · simp only [h, if_false]
      cases EI <;> exact ⟨_, rfl⟩
  | _ =>
    simp only [reduceCtorEq, false_implies, implies_true, iff_true, Member.cnl, Load.getCnl]
    cases EI <;> exact ⟨_, rfl⟩

theorem Member.ref_iff (m : Member K) (hm : m.Good) (ld : Load K) :
    (∃ c, m.ref ld = .ok c) ↔ ∃ c, m.cnl ld = .ok c := by
  constructor
  · rintro ⟨c, h⟩
    unfold Member.ref at h
    split at h
    · cases h
    · exact ⟨_, by assumption⟩
  · rintro ⟨c, hc⟩
    by_cases het : m.et = .PP
    · obtain ⟨EI, L, et, GAv⟩ := m
      obtain ⟨hL, hE, hG⟩ := hm
      simp only at het
      subst het
      cases GAv with
      | none =>
        cases EI with
        | const e => simp only [Member.ref, hc]; exact ⟨_, rfl⟩
        | «section» s =>
          obtain ⟨i, hi, _⟩ := (flexibility_PD2 s.nodes hE L hL).inv
          simp only [Member.ref, hc, hi, releaseRef]
          exact ⟨_, rfl⟩
      | some g =>
        have hg := hG g rfl
        cases EI with
        | const e =>
          cases g with
          | const g => simp only [Member.ref, hc, releaseRef]; exact ⟨_, rfl⟩
          | «section» gs =>
            obtain ⟨i, hi, _⟩ := (timoFlexibility_PD2 (.const e) (.section gs) hE hg L hL).inv
            simp only [Member.ref, hc, hi, releaseRef]
            exact ⟨_, rfl⟩
        | «section» s =>
          obtain ⟨i, hi, _⟩ := (timoFlexibility_PD2 (.section s) g hE hg L hL).inv
          cases g <;> simp only [Member.ref, hc, hi, releaseRef] <;> exact ⟨_, rfl⟩
    · obtain ⟨_, _, c', _, _, h, _⟩ := C04_member_release_partial m hm het ld c hc
      exact ⟨c', h⟩

theorem Member.refSum_iff (m : Member K) (hm : m.Good) (i : ℕ) (ls : List (SpanLoad K)) :
    (∃ c, m.refSum i ls = .ok c) ↔ ∀ l ∈ ls, l.iSpan = i → ∃ c, m.cnl l.load = .ok c := by
  induction ls with
  | nil => simp [Member.refSum]
  | cons l ls ih =>
    simp only [Member.refSum, List.mem_cons, forall_eq_or_imp]
    by_cases h : l.iSpan = i
    · simp only [h, if_true, true_implies, ← ih]
      rw [← m.ref_iff hm]
      constructor
      · rintro ⟨c, hc⟩
        split at hc
        · cases hc
        · rename_i c' hc'
          split at hc
          · cases hc
          · rename_i t ht
            exact ⟨⟨_, hc'⟩, _, ht⟩
      · rintro ⟨⟨c, hc⟩, t, ht⟩
        rw [hc, ht]
        exact ⟨_, rfl⟩
    · simp only [h, if_false, false_implies, true_and, ih]

theorem mapE_iff {α β : Type*} (f : α → Except PyErr β) (l : List α) :
    (∃ r, mapE f l = .ok r) ↔ ∀ a ∈ l, ∃ b, f a = .ok b := by
  induction l with
  | nil => simp [mapE]
  | cons a l ih =>
    simp only [mapE, List.mem_cons, forall_eq_or_imp, ← ih]
    constructor
    · rintro ⟨r, h⟩
      split at h
      · cases h
      · rename_i b hb
        split at h
        · cases h
        · rename_i bs hbs
          exact ⟨⟨b, hb⟩, bs, hbs⟩
    · rintro ⟨⟨b, hb⟩, bs, hbs⟩
      rw [hb, hbs]
      exact ⟨_, rfl⟩

theorem BeamDef.setLoads_iff (b : BeamDef K) :
    (∃ ls, b.setLoads = .ok ls) ↔ (∀ r ∈ b.LM, argsNeeded r.ltype ≤ r.args.length) ∧
      ∀ r ∈ b.LM, r.ltype = 6 →
        -(b.members.length : ℤ) ≤ r.span - 1 ∧ r.span - 1 < b.members.length := by
  rw [← parseLM_iff]
  have key : ∀ ls, parseLM b.LM = .ok ls →
      ((ls.all fun l => match l.load with
        | .ic _ _ => decide (-(b.members.length : ℤ) ≤ l.iSpan ∧ l.iSpan < b.members.length)
        | _ => true) = true ↔ ∀ r ∈ b.LM, r.ltype = 6 →
          -(b.members.length : ℤ) ≤ r.span - 1 ∧ r.span - 1 < b.members.length) := by
    intro ls hls
    rw [List.all_eq_true]
    constructor
    · intro h r hr h6
      have hp : parseRow r = .ok (some ⟨r.span - 1, .ic r.args none⟩) := by
        simp [parseRow, h6]
      have := h _ ((parseLM_mem_iff hls _).2 ⟨r, hr, hp⟩)
      simpa using this
    · intro h l hl
      obtain ⟨r, hr, hp⟩ := (parseLM_mem_iff hls l).1 hl
      obtain ⟨i, ld⟩ := l
      cases ld with
      | ic k E =>
        obtain ⟨h6, hi⟩ := parseRow_ic hp
        have := h r hr h6
        rw [hi] at this
        simpa using this
      | _ => rfl
  unfold BeamDef.setLoads
  cases hp : parseLM b.LM with
  | error e => simp
  | ok ls =>
    simp only [Except.ok.injEq, exists_eq', true_and]
    rw [← key ls hp]
    split <;> rename_i h
    · exact ⟨fun _ => h, fun _ => ⟨_, rfl⟩⟩
    · exact ⟨fun ⟨_, h'⟩ => (nomatch h'), fun h' => absurd h' h⟩

/-! ## C136 -/

/-- **C136** (equations): the equations of a beam of usable members with enough restraints can be
set up exactly when its members accept every row of the load matrix. -/
theorem C136_system (b : BeamDef K) (hgood : ∀ m ∈ b.members, m.Good)
    (hr : 2 * b.members.length + 2 ≤ b.restraints.length)
    (hp : 2 * b.members.length + 2 ≤ b.presc.length) :
    (∃ s, b.system = .ok s) ↔ ∀ r ∈ b.LM, r.Accepted b.members := by
  have hks : ∃ ks, mapE Member.spanK b.members = .ok ks := by
    rw [mapE_iff]
    intro m hm
    obtain ⟨k, hk, _⟩ := C13_energy_nonneg m (hgood m hm)
    exact ⟨k, hk⟩
  obtain ⟨ks, hks⟩ := hks
  have hrefs : ∀ ls, b.setLoads = .ok ls →
      ((∃ refs, mapE (fun mi : Member K × ℕ => mi.1.refSum mi.2 ls) b.members.zipIdx = .ok refs) ↔
        ∀ r ∈ b.LM, r.ltype = 3 → ∀ i (hi : i < b.members.length), r.span = (i : ℤ) + 1 →
          r.args.getD 1 0 ≤ b.members[i].L) := by
    intro ls hls
    have hargs := ((b.setLoads_iff).1 ⟨ls, hls⟩).1
    have hpl : parseLM b.LM = .ok ls := by
      unfold BeamDef.setLoads at hls
      split at hls
      · cases hls
      · rename_i ls' h
        split at hls
        · cases hls; exact h
        · cases hls
    rw [mapE_iff]
    constructor
    · intro h r hrm h3 i hi hspan
      obtain ⟨c, hc⟩ := h (b.members[i], i) (by
        rw [List.mem_zipIdx_iff_getElem?]
        simp [hi])
      obtain ⟨w, d, hpr⟩ := parseRow_of_three h3 (hargs r hrm)
      have h1 := (Member.refSum_iff _ (hgood _ (List.getElem_mem hi)) i ls).1 ⟨c, hc⟩ _
        ((parseLM_mem_iff hpl _).2 ⟨r, hrm, hpr⟩) (by simp [hspan])
      exact (Member.cnl_iff _ (hgood _ (List.getElem_mem hi)) _).1 h1 _ _ _ rfl
    · rintro h ⟨m, i⟩ hmi
      rw [List.mem_zipIdx_iff_getElem?] at hmi
      dsimp only at hmi
      obtain ⟨hi, rfl⟩ := List.getElem?_eq_some_iff.1 hmi
      refine (Member.refSum_iff _ (hgood _ (List.getElem_mem hi)) i ls).2 fun l hl hli => ?_
      rw [Member.cnl_iff _ (hgood _ (List.getElem_mem hi))]
      rintro w a c rfl'
      obtain ⟨r, hrm, hpr⟩ := (parseLM_mem_iff hpl l).1 hl
      obtain ⟨j, ld⟩ := l
      simp only at rfl' hli
      subst rfl' hli
      obtain ⟨h3, hspan, ha⟩ := parseRow_pudl hpr
      rw [← ha]
      exact h r hrm h3 i hi hspan
  constructor
  · rintro ⟨s, hs⟩ r hrm
    obtain ⟨_, _, ⟨ls, hls, href⟩, _⟩ := BeamDef.system_ok hs
    have h1 := (b.setLoads_iff).1 ⟨ls, hls⟩
    refine ⟨h1.1 r hrm, (hrefs ls hls).1 ?_ r hrm, h1.2 r hrm⟩
    unfold BeamDef.system at hs
    rw [hls] at hs
    simp only at hs
    split at hs
    · cases hs
    · exact ⟨_, by assumption⟩
  · intro h
    obtain ⟨ls, hls⟩ := (b.setLoads_iff).2
      ⟨fun r hrm => (h r hrm).args, fun r hrm => (h r hrm).curv⟩
    obtain ⟨refs, hrf⟩ := (hrefs ls hls).2 fun r hrm => (h r hrm).start
    unfold BeamDef.system
    rw [hls]
    simp only [hrf, hks]
    rw [if_neg (by omega)]
    exact ⟨_, rfl⟩

theorem System.reduced_nonsingular {s : System K} (hns : s.Nonsingular) (f : ℕ → K) (x : ℕ → K)
    (h : ∀ p < s.N, mulN s.N (s.applyBC (s.assemble, f)).1 x p = 0) : ∀ p < s.N, x p = 0 := by
  have hrow : ∀ p < s.N, (s.constr p).isSome →
      mulN s.N (s.applyBC (s.assemble, f)).1 x p = x p := by
    intro p hp hc
    obtain ⟨v, hv⟩ := Option.isSome_iff_exists.1 hc
    obtain ⟨h1, h2⟩ := s.applyBC_eq s.assemble f p hp
    simp only [mulN]
    rw [Finset.sum_eq_single p]
    · rw [h1 p hp, hv]; simp
    · intro q hq hqp
      rw [h1 q (Finset.mem_range.1 hq), hv]
      simp [hqp.symm, Ne.symm hqp]
    · intro hn
      exact absurd (Finset.mem_range.2 hp) hn
  have hx0 : ∀ p < s.N, (s.constr p).isSome → x p = 0 := by
    intro p hp hc
    rw [← hrow p hp hc]
    exact h p hp
  refine hns x hx0 fun p hp hc => ?_
  rw [← h p hp]
  obtain ⟨h1, h2⟩ := s.applyBC_eq s.assemble f p hp
  simp only [mulN]
  refine Finset.sum_congr rfl fun q hq => ?_
  have hq := Finset.mem_range.1 hq
  rw [h1 q hq, hc]
  rcases hcq : s.constr q with _ | v
  · simp [hcq]
  · rw [hx0 q hq (by rw [hcq]; rfl)]
    simp

/-- **C136** (analysis): let the members be usable, the restraints enough in number, every accepted
load give a nonsingular system that the stability check accepts, and the solver raise for singular
matrices only.  Then an analysis completes exactly when the members accept every row of the load
matrix and no degree of freedom with both a spring and a prescribed displacement carries a load; and
then the member results can be evaluated at any number of stations. -/
theorem C136_analyze (b : BeamDef K) (hgood : ∀ m ∈ b.members, m.Good)
    (hr : 2 * b.members.length + 2 ≤ b.restraints.length)
    (hp : 2 * b.members.length + 2 ≤ b.presc.length) (stable : System K → Bool) (solve : Solver K)
    (hsol : solve.Complete) (hns : ∀ s, b.system = .ok s → s.Nonsingular ∧ stable s = true) :
    ((∃ res, b.analyze stable solve = .ok res) ↔ (∀ r ∈ b.LM, r.Accepted b.members) ∧
      ∀ s, b.system = .ok s → ∀ p < 2 * b.members.length + 2, 0 < b.restraints.getD p 0 →
        (b.presc.getD p none).isSome → s.forces p = 0) ∧
    ∀ res, b.analyze stable solve = .ok res → ∀ npts sp, ∃ rs,
      b.memberResults res npts sp = .ok rs := by
  constructor
  · rw [← C136_system b hgood hr hp]
    have hval : ∀ s, b.system = .ok s → (s.validate s.forces = true ↔
        ∀ p < 2 * b.members.length + 2, 0 < b.restraints.getD p 0 →
          (b.presc.getD p none).isSome → s.forces p = 0) := by
      intro s hs
      obtain ⟨hn, _, _, er, ep, _, _⟩ := BeamDef.system_ok hs
      have hN : s.N = 2 * b.members.length + 2 := by simp [System.N, hn]
      simp only [System.validate, List.all_eq_true, List.mem_range, hN, er, ep, decide_eq_true_eq]
      constructor
      · intro h p hp h1 h2
        by_contra h3
        exact h p hp ⟨h1, h2, h3⟩
      · rintro h p hp ⟨h1, h2, h3⟩
        exact h3 (h p hp h1 h2)
    constructor
    · rintro ⟨res, h⟩
      obtain ⟨s, hs, h2⟩ := BeamDef.analyze_ok h
      refine ⟨⟨s, hs⟩, fun s' hs' => ?_⟩
      rw [hs] at hs'
      cases hs'
      rw [← hval s hs]
      unfold System.analyze at h2
      simp only at h2
      split at h2
      · assumption
      · cases h2
    · rintro ⟨⟨s, hs⟩, hv⟩
      have hv := (hval s hs).2 (hv s hs)
      obtain ⟨hn, hst⟩ := hns s hs
      obtain ⟨d, hd⟩ := hsol s.N (s.applyBC (s.assemble, s.forces)).1
        (s.applyBC (s.assemble, s.forces)).2 (System.reduced_nonsingular hn _)
      simp only [BeamDef.analyze, hs, hst, not_true_eq_false, and_false, if_false, System.analyze,
        hv, if_true, hd]
      exact ⟨_, rfl⟩
  · intro res h npts sp
    obtain ⟨s, hs, -⟩ := BeamDef.analyze_ok h
    obtain ⟨_, _, ⟨ls, hls, href⟩, _⟩ := BeamDef.system_ok hs
    unfold BeamDef.memberResults
    rw [hls]
    simp only
    rw [mapE_iff]
    rintro ⟨m, i⟩ hmi
    rw [List.mem_zipIdx_iff_getElem?] at hmi
    dsimp only at hmi
    obtain ⟨hi, rfl⟩ := List.getElem?_eq_some_iff.1 hmi
    obtain ⟨c, hc, _⟩ := href i hi
    have h1 := (Member.refSum_iff _ (hgood _ (List.getElem_mem hi)) i ls).1 ⟨c, hc⟩
    obtain ⟨cn, hcn⟩ : ∃ cn, mapE b.members[i].cnl (ownLoads i ls) = .ok cn := by
      rw [mapE_iff]
      intro ld hld
      simp only [ownLoads, List.mem_map, List.mem_filter, decide_eq_true_eq] at hld
      obtain ⟨l, ⟨h2, h3⟩, rfl⟩ := hld
      exact h1 l h2 h3
    simp only [Member.values, Member.ctx, hcn]
    exact ⟨_, rfl⟩

/-- One load case of a beam without springs at prescribed displacements, with a system that is
never singular, completes exactly when the members accept the rows. -/
theorem runCase_iff (b : BeamDef K) (hgood : ∀ m ∈ b.members, m.Good)
    (hr : 2 * b.members.length + 2 ≤ b.restraints.length)
    (hp : 2 * b.members.length + 2 ≤ b.presc.length)
    (hsp : ∀ p, 0 < b.restraints.getD p 0 → b.presc.getD p none = none)
    (stable : System K → Bool) (solve : Solver K) (hsol : solve.Complete)
    (hns : ∀ LM s, ({ b with LM := LM } : BeamDef K).system = .ok s → s.Nonsingular ∧ stable s = true)
    (npts : ℕ) (LM : List (Row K)) :
    (∃ q, runCase b stable solve npts LM = .ok q) ↔ ∀ r ∈ LM, r.Accepted b.members := by
  obtain ⟨h1, h2⟩ := C136_analyze ({ b with LM := LM } : BeamDef K) hgood hr hp stable solve hsol
    (hns LM)
  constructor
  · rintro ⟨q, hq⟩
    exact (h1.1 ⟨_, (runCase_ok hq).1⟩).1
  · intro h
    obtain ⟨res, hres⟩ := h1.2 ⟨h, fun s _ p _ h3 h4 => by
      have := hsp p h3
      simp only at h4
      rw [this] at h4
      cases h4⟩
    obtain ⟨rs, hrs⟩ := h2 res hres npts (fun _ => [])
    refine ⟨(res, rs), ?_⟩
    simp only [runCase, hres, hrs]

theorem pyRound_nonneg_iff [FloorRing K] (q : K) : 0 ≤ pyRound q ↔ -(1 / 2) ≤ q := by
  unfold pyRound
  have h1 := Int.floor_le q
  have h2 := Int.lt_floor_add_one q
  have h0 : ∀ z : ℤ, 0 ≤ z ↔ (0 : K) ≤ (z : K) := fun z => by exact_mod_cast Iff.rfl
  have hm : ∀ z : ℤ, z < 0 → (z : K) ≤ -1 := fun z hz => by exact_mod_cast Int.le_sub_one_of_lt hz
  by_cases hf : 0 ≤ ⌊q⌋
  · have hq : (0 : K) ≤ q := le_trans ((h0 _).1 hf) h1
    constructor
    · intro _; linarith
    · intro _
      split_ifs <;> omega
  · have hf' := hm ⌊q⌋ (by omega)
    by_cases hf1 : ⌊q⌋ = -1
    · simp only [hf1]
      rw [hf1] at h1 h2
      push_cast at h1 h2 ⊢
      constructor
      · intro h
        by_contra hlt
        push Not at hlt
        rw [if_pos (by linarith)] at h
        omega
      · intro h
        rw [if_neg (by linarith)]
        split_ifs
        all_goals norm_num
    · have hlt : ⌊q⌋ + 1 < 0 := by omega
      have hlt' := hm _ hlt
      push_cast at hlt'
      constructor
      · intro h
        exfalso
        split_ifs at h <;> omega
      · intro h
        linarith

theorem concat_counts (rs : List (MRes K)) (a : MRes K → ℕ → K) :
    (concatResults rs a).length = (rs.map MRes.n).sum := by
  induction rs with
  | nil => rfl
  | cons r rs ih =>
    simp only [concatResults, List.flatMap_cons, List.length_append, List.map_cons, List.sum_cons,
      MRes.list, List.length_map, List.length_range] at ih ⊢
    rw [ih]

theorem runCase_nsup {b : BeamDef K} {stable : System K → Bool} {solve : Solver K} {npts : ℕ}
    {LM : List (Row K)} {q : Result K × List (MRes K)} (h : runCase b stable solve npts LM = .ok q) :
    q.1.r.length = ((List.range (2 * b.members.length + 2)).filter fun i =>
      b.restraints.getD i 0 < 0).length := by
  obtain ⟨s, hs, ha⟩ := BeamDef.analyze_ok (runCase_ok h).1
  obtain ⟨hn, _, _, hr, _, _⟩ := BeamDef.system_ok hs
  have hN : s.N = 2 * b.members.length + 2 := by simp [System.N, hn]
  unfold System.analyze at ha
  simp only at ha
  split at ha
  · split at ha
    · cases ha
    · have := congrArg Result.r (Except.ok.inj ha)
      rw [← this]
      simp only [System.reactions, List.length_map, hN, hr]
  · cases ha

theorem Envelope.new_iff (l : List (EnvRes K)) : (∃ e, Envelope.new l = .ok e) ↔
    l ≠ [] ∧ ∀ r ∈ l, ∀ r' ∈ l, r.npts = r'.npts ∧ r.nsup = r'.nsup := by
  cases l with
  | nil => simp [Envelope.new]
  | cons r0 rs =>
    simp only [Envelope.new, ne_eq, reduceCtorEq, not_false_eq_true, true_and]
    have key : ((r0 :: rs).all fun r => decide (r.npts = r0.npts ∧ r.nsup = r0.nsup)) = true ↔
        ∀ r ∈ r0 :: rs, ∀ r' ∈ r0 :: rs, r.npts = r'.npts ∧ r.nsup = r'.nsup := by
      rw [List.all_eq_true]
      simp only [decide_eq_true_eq]
      constructor
      · intro h r hr r' hr'
        obtain ⟨a, b⟩ := h r hr
        obtain ⟨c, d⟩ := h r' hr'
        exact ⟨a.trans c.symm, b.trans d.symm⟩
      · intro h r hr
        exact h r hr r0 List.mem_cons_self
    rw [← key]
    split <;> rename_i h
    · exact ⟨fun _ => h, fun _ => ⟨_, rfl⟩⟩
    · exact ⟨fun ⟨_, h'⟩ => (nomatch h'), fun h' => absurd h' h⟩

/-- What a beam and an analyser need for every load that the members accept to be analysed. -/
structure BeamB.Analysable (A : Analyser K) (b : BeamB K) : Prop where
  proper : b.Proper
  good : ∀ m ∈ b.toDef.members, m.Good
  restraints : 2 * b.lens.length + 2 ≤ b.restraints.length
  presc : 2 * b.lens.length + 2 ≤ b.presc.length
  springs : ∀ p, 0 < b.restraints.getD p 0 → b.presc.getD p none = none
  solver : A.solve.Complete
  nonsingular : ∀ LM s, ({ b.toDef with LM := LM } : BeamDef K).system = .ok s →
    s.Nonsingular ∧ A.stable s = true

theorem BeamB.Analysable.runCase_iff {A : Analyser K} {b : BeamB K} (hb : b.Analysable A)
    (LM : List (Row K)) : (∃ q, runCase b.toDef A.stable A.solve A.npts LM = .ok q) ↔
      ∀ r ∈ LM, r.Accepted b.toDef.members := by
  have hl := toDef_length hb.proper.inStep
  refine PyCBA.runCase_iff b.toDef hb.good ?_ ?_ hb.springs A.stable A.solve hb.solver
    hb.nonsingular A.npts LM
  · rw [hl]; exact hb.restraints
  · rw [hl]; exact hb.presc

theorem BeamB.Analysable.analysed_iff {A : Analyser K} {b : BeamB K} (hb : b.Analysable A)
    (LM : List (Row K)) : (∃ r, Analysed A b LM r) ↔ ∀ r ∈ LM, r.Accepted b.toDef.members := by
  rw [← hb.runCase_iff LM]
  constructor
  · rintro ⟨r, q, hq, -⟩
    exact ⟨q, hq⟩
  · rintro ⟨q, hq⟩
    exact ⟨_, q, hq, rfl⟩

theorem Row.Accepted.point (ms : List (Member K)) (sp : ℤ) (w a c : K) :
    (⟨sp, 2, [w, a, c]⟩ : Row K).Accepted ms :=
  ⟨by simp [argsNeeded], fun h => by simp at h, fun h => by simp at h⟩

theorem axleLM_accepted (b : BeamB K) (v : Vehicle K) (pos : K) :
    ∀ r ∈ axleLM b v pos, r.Accepted b.toDef.members := by
  intro r hr
  simp only [axleLM, List.mem_filterMap] at hr
  obtain ⟨cw, -, h⟩ := hr
  split at h
  · cases h
    exact Row.Accepted.point _ _ _ _ _
  · cases h

/-- **C136** (runs): on such a beam a run of a vehicle completes exactly when the step is not zero,
the end is at most half a step before the start in the direction of travel, and the members accept
every static load. -/
theorem C136_run [FloorRing K] (A : Analyser K) (b : BeamB K) (hb : b.Analysable A)
    (static : List (Row K)) (v : Vehicle K) (step : K) (start stop : Option K) :
    (∃ out, runVehicle A b static v step start stop = .ok out) ↔
      step ≠ 0 ∧ -(1 / 2) ≤ (stop.getD (b.length + v.L) - start.getD 0) / step ∧
      ∀ r ∈ static, r.Accepted b.toDef.members := by
  unfold runVehicle runPositions
  simp only
  by_cases h0 : step = 0
  · simp [h0]
  rw [if_neg h0, ← pyRound_nonneg_iff]
  simp only [ne_eq, h0, not_false_eq_true, true_and]
  set q := pyRound ((stop.getD (b.length + v.L) - start.getD 0) / step) with hq
  set ps := (List.range (q + 1).toNat).map fun i : ℕ => start.getD 0 + (i : K) * step with hps
  have hne : ps ≠ [] ↔ 0 ≤ q := by
    rw [hps, ne_eq, List.map_eq_nil_iff, List.range_eq_nil]
    omega
  have hall : (∃ rs, mapE (fun pos => runCase b.toDef A.stable A.solve A.npts
      (addLM static (axleLM b v pos))) ps = .ok rs) ↔
      (ps ≠ [] → ∀ r ∈ static, r.Accepted b.toDef.members) := by
    rw [mapE_iff]
    constructor
    · intro h hn r hr
      obtain ⟨p, hp⟩ := List.exists_mem_of_ne_nil _ hn
      exact (hb.runCase_iff _).1 (h p hp) r (List.mem_append_left _ hr)
    · intro h p hp
      rw [hb.runCase_iff]
      intro r hr
      rcases List.mem_append.1 hr with h1 | h1
      · exact h (List.ne_nil_of_mem hp) r h1
      · exact axleLM_accepted b v p r h1
  have henv : ∀ rs, mapE (fun pos => runCase b.toDef A.stable A.solve A.npts
      (addLM static (axleLM b v pos))) ps = .ok rs → ps ≠ [] → ∃ e, Envelope.new (rs.map envOf) = .ok e := by
    intro rs hrs hn
    rw [Envelope.new_iff]
    obtain ⟨hl, hget⟩ := mapE_ok hrs
    refine ⟨?_, ?_⟩
    · intro h
      rw [List.map_eq_nil_iff] at h
      rw [h] at hl
      exact hn (List.eq_nil_of_length_eq_zero (by simpa using hl.symm))
    · intro r hr r' hr'
      simp only [List.mem_map] at hr hr'
      obtain ⟨x, hx, rfl⟩ := hr
      obtain ⟨x', hx', rfl⟩ := hr'
      obtain ⟨i, hi, rfl⟩ := List.getElem_of_mem hx
      obtain ⟨i', hi', rfl⟩ := List.getElem_of_mem hx'
      have a := hget i (by omega) hi
      have a' := hget i' (by omega) hi'
      refine ⟨?_, ?_⟩
      · simp only [envOf, EnvRes.ofResults]
        rw [concat_counts, concat_counts, runCase_counts a a']
      · simp only [envOf, EnvRes.ofResults]
        rw [runCase_nsup a, runCase_nsup a']
  constructor
  · rintro ⟨out, h⟩
    unfold runOver at h
    split at h
    · cases h
    · rename_i o ho
      split at ho
      · cases ho
      · rename_i rs hrs
        split at ho
        · cases ho
        · rename_i e he
          have hn : ps ≠ [] := by
            intro hn
            rw [hn] at hrs
            cases hrs
            cases he
          exact ⟨hne.1 hn, hall.1 ⟨rs, hrs⟩ hn⟩
  · rintro ⟨h1, h2⟩
    obtain ⟨rs, hrs⟩ := hall.2 fun _ => h2
    obtain ⟨e, he⟩ := henv rs hrs (hne.2 h1)
    unfold runOver
    simp only [hrs, he]
    exact ⟨_, rfl⟩

theorem ilLoop_completes {A : Analyser K} {b : BeamB K} (hb : b.Analysable A) (st : K) :
    ∀ (is : List ℕ) (P : K) (s : ILState K), s.beam = b → (ilLoop A st is P s).2 = .ok () ∧
      (ilLoop A st is P s).1.res.length = s.res.length + is.length := by
  intro is
  induction is with
  | nil => intro P s _; exact ⟨rfl, rfl⟩
  | cons i is ih =>
    rintro P s rfl
    obtain ⟨q, hq⟩ := (hb.runCase_iff
      [ilRow s.beam (if (s.beam.localCoords ((i : K) * st)).1 = -1 then 0 else P) ((i : K) * st)]).2 (by
        simp only [List.mem_singleton, forall_eq, ilRow]
        exact Row.Accepted.point _ _ _ _ _)
    simp only [ilLoop, hq]
    obtain ⟨h1, h2⟩ := ih (if (s.beam.localCoords ((i : K) * st)).1 = -1 then 0 else P)
      { s with pos := s.pos ++ [(i : K) * st], res := s.res ++ [q] } rfl
    refine ⟨h1, h2.trans ?_⟩
    simp only [List.length_append, List.length_cons, List.length_nil]
    omega

/-- **C136** (influence lines): on such a beam `create_ils` completes whenever the step is not zero,
with one result for each of its positions. -/
theorem C136_influence [FloorRing K] (A : Analyser K) (s : ILState K) (hb : s.beam.Analysable A)
    (step : Option K) (P : K) :
    ((s.create A step P).2 = .ok () ↔ step.getD (s.beam.length / 100) ≠ 0) ∧
    ((s.create A step P).2 = .ok () → (s.create A step P).1.res.length =
      (pyRound (s.beam.length / step.getD (s.beam.length / 100)) + 1).toNat) := by
  unfold ILState.create
  simp only
  by_cases h : step.getD (s.beam.length / 100) = 0
  · simp [h]
  · rw [if_neg h]
    obtain ⟨h1, h2⟩ := ilLoop_completes hb (step.getD (s.beam.length / 100))
      (List.range (pyRound (s.beam.length / step.getD (s.beam.length / 100)) + 1).toNat) P
      { s with res := [] } rfl
    refine ⟨⟨fun _ => h, fun _ => h1⟩, fun _ => ?_⟩
    rw [h2]
    simp

/-- **C136** (supports): a beam without hinges and with enough supports, and an analyser that accepts
it and raises for singular matrices only, are such a beam and analyser. -/
theorem C136_adequate (A : Analyser K) (hsol : A.solve.Complete) (hst : ∀ s, A.stable s = true)
    (b : BeamB K) (hb : b.Proper) (hgood : ∀ m ∈ b.toDef.members, m.Good ∧ m.et = .FF)
    (hr : 2 * b.lens.length + 2 ≤ b.restraints.length) (hp : 2 * b.lens.length + 2 ≤ b.presc.length)
    (hsp : ∀ p, 0 < b.restraints.getD p 0 → b.presc.getD p none = none) (i j : ℕ)
    (hi : i ≤ b.lens.length) (hj : j ≤ b.lens.length) (hri : b.restraints.getD (2 * i) 0 < 0)
    (hsup : (i < j ∧ b.restraints.getD (2 * j) 0 < 0) ∨ b.restraints.getD (2 * j + 1) 0 < 0) :
    b.Analysable A := by
  have hl := toDef_length hb.inStep
  refine ⟨hb, fun m hm => (hgood m hm).1, hr, hp, hsp, hsol, fun LM s hs => ⟨?_, hst s⟩⟩
  refine C77_adequate_supports ({ b.toDef with LM := LM } : BeamDef K) hgood s hs i j ?_ ?_ hri hsup
  · simpa [hl] using hi
  · simpa [hl] using hj

/-! ### A concrete case -/

theorem mulN_surj (N : ℕ) (A : ℕ → ℕ → K) (b : ℕ → K)
    (h : ∀ x : ℕ → K, (∀ p < N, mulN N A x p = 0) → ∀ p < N, x p = 0) :
    ∃ x : ℕ → K, ∀ p < N, mulN N A x p = b p := by
  set T : (Fin N → K) →ₗ[K] (Fin N → K) := Matrix.toLin' (Matrix.of fun p q => A p q) with hT
  have key : ∀ (y : Fin N → K) (p : ℕ) (hp : p < N),
      mulN N A (fun q => if hq : q < N then y ⟨q, hq⟩ else 0) p = T y ⟨p, hp⟩ := by
    intro y p hp
    simp only [mulN, hT, Matrix.toLin'_apply, Matrix.mulVec, dotProduct, Matrix.of_apply]
    rw [Finset.sum_range]
    refine Finset.sum_congr rfl fun q _ => ?_
    rw [dif_pos q.isLt]
  have hinj : Function.Injective T := by
    rw [← LinearMap.ker_eq_bot, LinearMap.ker_eq_bot']
    intro y hy
    have := h (fun q => if hq : q < N then y ⟨q, hq⟩ else 0) (fun p hp => by rw [key y p hp, hy]; rfl)
    ext p
    have h1 := this p p.isLt
    rw [dif_pos p.isLt] at h1
    exact h1
  obtain ⟨y, hy⟩ := LinearMap.injective_iff_surjective.1 hinj fun p => b p
  exact ⟨_, fun p hp => by rw [key y p hp, hy]⟩

theorem anySolver_complete : anySolver.Complete := by
  intro N A b h
  unfold anySolver
  rw [dif_pos (mulN_surj N A b h)]
  exact ⟨_, rfl⟩

theorem exMB_analysable : exMB.Analysable exMBA := by
  refine C136_adequate exMBA anySolver_complete (fun _ => rfl) exMB exMB_forIL.proper ?_ (by simp [exMB])
    (by simp [exMB]) ?_ 0 1 (by simp [exMB]) (by simp [exMB]) (by simp [exMB])
    (.inl ⟨by norm_num, by simp [exMB]⟩)
  · intro m hm
    simp only [exMB, BeamB.toDef, zipMembers, List.mem_cons, List.not_mem_nil, or_false] at hm
    rcases hm with rfl | rfl <;> simp [Member.Good, Rigidity.Good]
  · intro p _
    rcases p with _ | _ | _ | _ | _ | _ | p <;> simp [exMB]

example : (((ILState.new exMB).create exMBA none 1).2 = .ok () ↔ (none : Option ℝ).getD (5 / 100) ≠ 0) :=
  (C136_influence exMBA (ILState.new exMB) exMB_analysable none 1).1

/-- A run over a beam of two spans with a partial uniform load on the second: it completes when the
load starts on the span, and does not when it starts beyond its end. -/
example : (∃ out, runVehicle exMBA exMB [⟨2, 3, [4, 1, 9]⟩] ⟨[1], [1, 1], 1, 2, 2, [0, 1]⟩ (1 / 2) none
      none = .ok out) ∧
    ¬ ∃ out, runVehicle exMBA exMB [⟨2, 3, [4, 5, 1]⟩] ⟨[1], [1, 1], 1, 2, 2, [0, 1]⟩ (1 / 2) none
      none = .ok out := by
  rw [C136_run exMBA exMB exMB_analysable, C136_run exMBA exMB exMB_analysable]
  constructor
  · refine ⟨by norm_num, by norm_num [exMB], ?_⟩
    simp only [List.mem_singleton, forall_eq]
    refine ⟨by simp [argsNeeded], fun _ i hi h => ?_, fun h => by simp at h⟩
    have : i = 1 := by simp only at h; omega
    subst this
    simp [exMB, BeamB.toDef, zipMembers]
  · rintro ⟨-, -, h⟩
    have := (h _ (List.mem_singleton.2 rfl)).start rfl 1 (by simp [exMB, BeamB.toDef, zipMembers]) rfl
    simp [exMB, BeamB.toDef, zipMembers] at this
    norm_num at this

end PyCBA
