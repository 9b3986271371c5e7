import Verif.LoadCases.Model
import Verif.Results.Linear

set_option linter.unusedSectionVars false
set_option linter.unusedSimpArgs false

/-!
C36: combining stored responses and analysing the combined loads give the same arrays.
-/

namespace PyCBA

open Matrix

variable {K : Type*} [Field K] [LinearOrder K] [IsStrictOrderedRing K]

/-! ### Loads of a combination -/

/-- A load with its values multiplied by `g`. -/
def SpanLoad.scale (g : K) (l : SpanLoad K) : SpanLoad K := ⟨l.iSpan, l.load.scale g⟩

/-- The loads of the combination of the cases in `L` with factors `w`, those that are not to
be kept left out. -/
def combLoads {α : Type*} (keep : α → Bool) (L : List α) (w : α → K)
    (ls : α → List (SpanLoad K)) : List (SpanLoad K) :=
  L.flatMap fun a => if keep a then (ls a).map (SpanLoad.scale (w a)) else []

theorem BeamDef.setLoads_scaled (b : BeamDef K) (g : K) (LM LM' : List (Row K))
    (l : List (SpanLoad K)) (hf : factorLM g LM = .ok LM')
    (h : ({ b with LM := LM } : BeamDef K).setLoads = .ok l) :
    ({ b with LM := LM' } : BeamDef K).setLoads = .ok (l.map (SpanLoad.scale g)) := by
  unfold BeamDef.setLoads at h ⊢
  cases e : parseLM LM with
  | error e => simp [e] at h
  | ok x =>
    simp only [e, parseLM_factor g LM LM' x hf e] at h ⊢
    split at h
    · rename_i hall
      cases h
      rw [if_pos]
      · rfl
      · rw [List.all_map]
        rw [List.all_eq_true] at hall ⊢
        intro y hy
        have := hall y hy
        simp only [Function.comp]
        cases hld : y.load <;> simp [hld, Load.scale] at this ⊢
        exact this
    · cases h

theorem combinedLoads_setLoads (b : BeamDef K) {α : Type*} (L : List α) (w : α → K)
    (c : α → LCase K) (ls : α → List (SpanLoad K))
    (hls : ∀ a ∈ L, ({ b with LM := (c a).loads } : BeamDef K).setLoads = .ok (ls a))
    (LM : List (Row K)) (h : combinedLoads (L.map w) (L.map c) = .ok LM) :
    ({ b with LM := LM } : BeamDef K).setLoads =
      .ok (combLoads (fun a => decide (w a ≠ 0)) L w ls) := by
  induction L generalizing LM with
  | nil =>
    cases h
    simp [BeamDef.setLoads, parseLM, combLoads]
  | cons a L ih =>
    have ih' := ih fun x hx => hls x (List.mem_cons_of_mem _ hx)
    simp only [List.map_cons, combinedLoads] at h
    by_cases ha : w a = 0
    · rw [if_pos ha] at h
      rw [ih' LM h]
      simp [combLoads, ha]
    · rw [if_neg ha] at h
      split at h
      · cases h
      · rename_i l hl
        split at h
        · cases h
        · rename_i t ht
          cases h
          have e1 := b.setLoads_scaled (w a) _ l (ls a) hl (hls a List.mem_cons_self)
          have := b.setLoads_append l t _ _ e1 (ih' t ht)
          rw [addLM] at this
          rw [this]
          simp [combLoads, ha]

theorem combLoads_refSum {α : Type*} {keep : α → Bool} (L : List α) (w : α → K)
    (hk : ∀ a ∈ L, keep a = false → w a = 0) (ls : α → List (SpanLoad K))
    (m : Member K) (i : ℕ) (cn : α → CNL K) (h : ∀ a ∈ L, m.refSum i (ls a) = .ok (cn a)) :
    ∃ c, m.refSum i (combLoads keep L w ls) = .ok c ∧ ∀ j, c.vec j = lsum L w fun a => (cn a).vec j := by
  induction L with
  | nil =>
    refine ⟨⟨0, 0, 0, 0⟩, rfl, fun j => ?_⟩
    fin_cases j <;> simp [CNL.vec, lsum]
  | cons a L ih =>
    obtain ⟨c, hc, hv⟩ := ih (fun x hx => hk x (List.mem_cons_of_mem _ hx))
      fun x hx => h x (List.mem_cons_of_mem _ hx)
    cases ha : keep a with
    | false =>
      refine ⟨c, by simpa [combLoads, ha] using hc, fun j => ?_⟩
      rw [lsum_cons, hk a List.mem_cons_self ha, zero_mul, zero_add, hv]
    | true =>
      refine ⟨w a • cn a + c, ?_, fun j => ?_⟩
      · have e1 := m.refSum_scale (w a) i _ _ (h a List.mem_cons_self)
        have := m.refSum_append i _ _ _ _ e1 hc
        rw [← this]
        simp only [combLoads, List.flatMap_cons, ha, if_true]
        rfl
      · rw [lsum_cons, ← hv]
        fin_cases j <;> simp [CNL.vec, CNL.add_def, CNL.smul_def]

theorem combLoads_own {α : Type*} {keep : α → Bool} (L : List α) (w : α → K)
    (hk : ∀ a ∈ L, keep a = false → w a = 0) (ls : α → List (SpanLoad K)) (i : ℕ)
    (φ : Load K → K) (hφ : ∀ g ld, φ (ld.scale g) = g * φ ld) :
    ((ownLoads i (combLoads keep L w ls)).map φ).sum =
      lsum L w fun a => ((ownLoads i (ls a)).map φ).sum := by
  have hscale : ∀ (g : K) (l : List (SpanLoad K)),
      ((ownLoads i (l.map (SpanLoad.scale g))).map φ).sum = g * ((ownLoads i l).map φ).sum := by
    intro g l
    induction l with
    | nil => simp [ownLoads]
    | cons x l ih =>
      simp only [ownLoads, List.map_cons, List.filter_cons, SpanLoad.scale] at ih ⊢
      by_cases hx : x.iSpan = (i : ℤ)
      · simp only [hx, decide_true, if_true, List.map_cons, List.sum_cons, hφ] at ih ⊢
        rw [ih]
        ring
      · simp only [hx, decide_false] at ih ⊢
        simpa using ih
  induction L with
  | nil => simp [combLoads, ownLoads, lsum]
  | cons a L ih =>
    rw [lsum_cons, ← ih fun x hx => hk x (List.mem_cons_of_mem _ hx)]
    cases ha : keep a with
    | false => simp [combLoads, ha, hk a List.mem_cons_self ha]
    | true =>
      simp only [combLoads, List.flatMap_cons, ha, if_true]
      rw [← hscale]
      simp only [ownLoads, List.filter_append, List.map_append, List.sum_append]

/-- The clamped end moment `φ` of a load, zero if computing it raises. -/
def Member.cnlVal (m : Member K) (φ : CNL K → K) (ld : Load K) : K :=
  match m.cnl ld with
  | .ok c => φ c
  | .error _ => 0

theorem Member.cnlVal_scale (m : Member K) (φ : CNL K → K) (hφ : ∀ g c, φ (g • c) = g * φ c) (g : K)
    (ld : Load K) : m.cnlVal φ (ld.scale g) = g * m.cnlVal φ ld := by
  unfold Member.cnlVal
  rw [m.cnl_scale]
  cases m.cnl ld with
  | ok c => simp [Except.map, hφ]
  | error e => simp [Except.map]

theorem Member.cnlVal_sum (m : Member K) (φ : CNL K → K) {l : List (Load K)} {cs : List (CNL K)}
    (h : mapE m.cnl l = .ok cs) : (cs.map φ).sum = (l.map (m.cnlVal φ)).sum := by
  induction l generalizing cs with
  | nil => cases h; rfl
  | cons a l ih =>
    simp only [mapE] at h
    split at h
    · cases h
    · rename_i c hc
      split at h
      · cases h
      · rename_i cs' hcs
        cases h
        simp [ih hcs, Member.cnlVal, hc]

/-! ### Contexts of a combination -/

theorem runCase_ok {b : BeamDef K} {stable : System K → Bool} {solve : Solver K} {npts : ℕ}
    {LM : List (Row K)} {r : Result K × List (MRes K)}
    (h : runCase b stable solve npts LM = .ok r) :
    ({ b with LM := LM } : BeamDef K).analyze stable solve = .ok r.1 ∧
      ({ b with LM := LM } : BeamDef K).memberResults r.1 npts (fun _ => []) = .ok r.2 := by
  unfold runCase at h
  simp only at h
  split at h
  · cases h
  · rename_i res hres
    split at h
    · cases h
    · rename_i rs hrs
      cases h
      exact ⟨hres, hrs⟩

/-- The parsed loads of `LM` are the combination of the parsed loads of the cases. -/
def CombOf (b : BeamDef K) {α : Type*} (L : List α) (w : α → K) (c : α → LCase K)
    (keep : α → Bool) (LM : List (Row K)) : Prop :=
  ∀ ls : α → List (SpanLoad K),
    (∀ a ∈ L, ({ b with LM := (c a).loads } : BeamDef K).setLoads = .ok (ls a)) →
    ({ b with LM := LM } : BeamDef K).setLoads = .ok (combLoads keep L w ls)

/-- The systems of the cases combine to the system of the combined loads. -/
theorem comb_system {b : BeamDef K} {α : Type*} {L : List α} {w : α → K} {c : α → LCase K}
    {keep : α → Bool} (hk : ∀ a ∈ L, keep a = false → w a = 0) {LM : List (Row K)}
    (hLM : CombOf b L w c keep LM) {sy : α → System K} {s : System K}
    (hsy : ∀ a ∈ L, ({ b with LM := (c a).loads } : BeamDef K).system = .ok (sy a))
    (hs : ({ b with LM := LM } : BeamDef K).system = .ok s)
    (hpr : ∀ v, some v ∈ b.presc → v = 0 ∨ (L.map w).sum = 1) : s.IsLin L w sy := by
  obtain ⟨n0, k0, ⟨l0, hl0, c0⟩, r0, q0, _⟩ := BeamDef.system_ok hs
  simp only at n0 k0 c0 r0 q0
  refine ⟨?_, ?_, ?_, ?_, ?_, ?_⟩
  · intro a ha
    obtain ⟨n1, _⟩ := BeamDef.system_ok (hsy a ha)
    rw [n1, n0]
  · intro a ha i hi
    obtain ⟨_, k1, _⟩ := BeamDef.system_ok (hsy a ha)
    rw [n0] at hi
    exact Except.ok.inj ((k1 i hi).symm.trans (k0 i hi))
  · intro a ha p
    obtain ⟨_, _, _, r1, _⟩ := BeamDef.system_ok (hsy a ha)
    rw [r1, r0]
  · intro i hi j
    rw [n0] at hi
    have h1 : ∀ a ∈ L, ∃ x : List (SpanLoad K) × CNL K,
        ({ b with LM := (c a).loads } : BeamDef K).setLoads = .ok x.1 ∧
        b.members[i].refSum i x.1 = .ok x.2 ∧ (sy a).ref i = x.2.vec := by
      intro a ha
      obtain ⟨_, _, ⟨l1, hl1, c1⟩, _⟩ := BeamDef.system_ok (hsy a ha)
      obtain ⟨x, h2, h3⟩ := c1 i hi
      exact ⟨(l1, x), hl1, h2, h3⟩
    have : Nonempty (List (SpanLoad K) × CNL K) := ⟨([], ⟨0, 0, 0, 0⟩)⟩
    choose! g hg1 hg2 hg3 using h1
    obtain ⟨x, hx, hv⟩ := combLoads_refSum L w hk (fun a => (g a).1) b.members[i] i (fun a => (g a).2)
      hg2
    have hL0 := hLM (fun a => (g a).1) hg1
    rw [hL0] at hl0
    cases hl0
    obtain ⟨y, hy1, hy2⟩ := c0 i hi
    rw [hx] at hy1
    cases hy1
    rw [hy2, hv]
    exact lsum_congr fun a ha => by rw [hg3 a ha]
  · intro a ha p
    obtain ⟨_, _, _, r1, q1, _⟩ := BeamDef.system_ok (hsy a ha)
    simp only [System.constr, r1, q1, r0, q0]
  · intro p hp v hv
    simp only [System.constr, r0, q0] at hv
    cases hq : b.presc.getD p none with
    | none =>
      rw [hq] at hv
      simp only at hv
      split at hv
      · cases hv; simp
      · cases hv
    | some u =>
      rw [hq] at hv
      cases hv
      have hmem : some v ∈ b.presc := by
        rw [List.getD_eq_getElem?_getD] at hq
        cases h : b.presc[p]? with
        | none => rw [h] at hq; cases hq
        | some o =>
          rw [h] at hq
          simp only [Option.getD_some] at hq
          rw [← hq]
          exact List.mem_of_getElem? h
      rcases hpr v hmem with h | h
      · simp [h]
      · simp [h]

/-- What `C36` needs about the rotations: every released member of the beam takes the same
of the two ways to its left-end rotation in all cases. -/
def SameBc (b : BeamDef K) (cs : List (LCase K)) : Prop :=
  (∀ m ∈ b.members, m.et = .FF ∨ m.GAv.isSome ∨ ∃ s, m.EI = .section s) ∨
    ∀ c ∈ cs, ∀ r ∈ c.loads, r.ltype ≠ 6

theorem parseRow_no_ic {r : Row K} {l : SpanLoad K} (h : parseRow r = .ok (some l))
    (hr : r.ltype ≠ 6) (A : List K) (B : Option K) : l.load ≠ .ic A B := by
  unfold parseRow at h
  simp only at h
  repeat' split at h
  all_goals first | exact absurd ‹r.ltype = 6› hr | (cases h <;> simp)

theorem parseLM_no_ic {LM : List (Row K)} {ls : List (SpanLoad K)} (h : parseLM LM = .ok ls)
    (hr : ∀ r ∈ LM, r.ltype ≠ 6) : ∀ l ∈ ls, ∀ A B, l.load ≠ .ic A B := by
  induction LM generalizing ls with
  | nil => cases h; simp
  | cons r rs ih =>
    have hr' : ∀ x ∈ rs, x.ltype ≠ 6 := fun x hx => hr x (List.mem_cons_of_mem _ hx)
    simp only [parseLM] at h
    split at h
    · cases h
    · rename_i o ho
      split at h
      · cases h
      · rename_i ls' hls
        cases o with
        | none => cases h; exact ih hls hr'
        | some l0 =>
          cases h
          intro l hl A B
          rcases List.mem_cons.1 hl with rfl | hl
          · exact parseRow_no_ic ho (hr r List.mem_cons_self) A B
          · exact ih hls hr' l hl A B

theorem BeamDef.setLoads_no_ic {b : BeamDef K} {ls : List (SpanLoad K)}
    (h : b.setLoads = .ok ls) (hr : ∀ r ∈ b.LM, r.ltype ≠ 6) :
    ∀ l ∈ ls, ∀ A B, l.load ≠ .ic A B := by
  unfold BeamDef.setLoads at h
  split at h
  · cases h
  · rename_i ls' hls
    split at h
    · cases h
      exact parseLM_no_ic hls hr
    · cases h

theorem kappaImp_eq_zero {ld : Load K} (h : ∀ A B, ld ≠ .ic A B) (x : K) : ld.kappaImp x = 0 := by
  cases ld with
  | ic A B => exact absurd rfl (h A B)
  | _ => rfl

theorem MCtx.kappa_zero {c : MCtx K} (h : ∀ ld ∈ c.own, ∀ A B, ld ≠ .ic A B) (k : ℕ) :
    c.kappa k = 0 := by
  unfold MCtx.kappa
  apply List.sum_eq_zero
  intro v hv
  obtain ⟨ld, hld, rfl⟩ := List.mem_map.1 hv
  exact kappaImp_eq_zero (h ld hld) _

theorem combLoads_no_ic {α : Type*} {keep : α → Bool} (L : List α) (w : α → K) (ls : α → List (SpanLoad K))
    (h : ∀ a ∈ L, ∀ l ∈ ls a, ∀ A B, l.load ≠ .ic A B) :
    ∀ l ∈ combLoads keep L w ls, ∀ A B, l.load ≠ .ic A B := by
  intro l hl A B
  simp only [combLoads, List.mem_flatMap] at hl
  obtain ⟨a, ha, hl⟩ := hl
  split at hl
  · obtain ⟨l', hl', rfl⟩ := List.mem_map.1 hl
    have := h a ha l' hl'
    simp only [SpanLoad.scale]
    cases hld : l'.load with
    | ic A' B' => exact absurd hld (this A' B')
    | _ => simp [Load.scale]
  · cases hl

/-- The heart of C36: station by station every array of the combination is the
combination of the arrays. -/
theorem comb_results' (b : BeamDef K) (stable : System K → Bool) (solve : Solver K)
    (hsol : solve.Sound) (npts : ℕ) {α : Type*} (L : List α) (w : α → K) (c : α → LCase K)
    (run : α → Result K × List (MRes K))
    (hrun : ∀ a ∈ L, runCase b stable solve npts (c a).loads = .ok (run a))
    (keep : α → Bool) (hk : ∀ a ∈ L, keep a = false → w a = 0)
    (LM : List (Row K)) (hLM : CombOf b L w c keep LM)
    (r : Result K × List (MRes K)) (hr : runCase b stable solve npts LM = .ok r)
    (hpr : ∀ v, some v ∈ b.presc → v = 0 ∨ (L.map w).sum = 1)
    (hns : ∀ s, ({ b with LM := LM } : BeamDef K).system = .ok s → s.Nonsingular) (rp : Resp)
    (hrp : rp = .M ∨ rp = .V ∨ SameBc b (L.map c)) :
    r.2.length = b.members.length ∧ (∀ a ∈ L, (run a).2.length = b.members.length) ∧
    ∀ i (hi : i < r.2.length) (hi' : ∀ a ∈ L, i < (run a).2.length),
      (∀ a (ha : a ∈ L), ((run a).2[i]'(hi' a ha)).n = r.2[i].n ∧
        ∀ k, ((run a).2[i]'(hi' a ha)).x k = r.2[i].x k) ∧
      ∀ k, rp.get r.2[i] k = lsum L w fun a => rp.get ((run a).2.getD i ⟨0, 0, 0, 0, 0, 0⟩) k := by
  obtain ⟨ha0, hm0⟩ := runCase_ok hr
  obtain ⟨s, hs, han⟩ := BeamDef.analyze_ok ha0
  have h1 : ∀ a ∈ L, ∃ sa, ({ b with LM := (c a).loads } : BeamDef K).system = .ok sa ∧
      sa.analyze solve = .ok (run a).1 := fun a ha => BeamDef.analyze_ok (runCase_ok (hrun a ha)).1
  have : Nonempty (System K) := ⟨s⟩
  choose! sy hsy hrs using h1
  have hlin := comb_system hk hLM hsy hs hpr
  obtain ⟨hd, hf⟩ := hlin.superpose (hns s hs) hsol han (fun a => (run a).1) hrs
  obtain ⟨hn, _⟩ := BeamDef.system_ok hs
  obtain ⟨hlen, l0, hl0, hc0⟩ := BeamDef.memberResults_ok hm0
  simp only at hn hlen hc0
  have hlen' : ∀ a ∈ L, (run a).2.length = b.members.length :=
    fun a ha => (BeamDef.memberResults_ok (runCase_ok (hrun a ha)).2).1
  refine ⟨hlen, hlen', fun i hi hi' => ?_⟩
  have him : i < b.members.length := by omega
  obtain ⟨cx0, hcx0, hres0⟩ := hc0 i him hi
  have h2 : ∀ a ∈ L, ∃ x : List (SpanLoad K) × MCtx K,
      ({ b with LM := (c a).loads } : BeamDef K).setLoads = .ok x.1 ∧
      b.members[i].ctx i x.1 ((run a).1.fmbr i) (elemVec (run a).1.d i) npts [] = .ok x.2 ∧
      (run a).2.getD i ⟨0, 0, 0, 0, 0, 0⟩ =
        { x.2.result with x := fun k => x.2.x k + b.nodeX i } := by
    intro a ha
    obtain ⟨_, l1, hl1, hc1⟩ := BeamDef.memberResults_ok (runCase_ok (hrun a ha)).2
    obtain ⟨cx, hcx, hres⟩ := hc1 i him (hi' a ha)
    refine ⟨(l1, cx), hl1, hcx, ?_⟩
    rw [List.getD_eq_getElem?_getD, List.getElem?_eq_getElem (hi' a ha), Option.getD_some, hres]
    rfl
  have : Nonempty (List (SpanLoad K) × MCtx K) := ⟨(l0, cx0)⟩
  choose! g hg1 hg2 hg3 using h2
  have hL0 := hLM (fun a => (g a).1) hg1
  rw [hL0] at hl0
  injection hl0 with hl0
  subst hl0
  obtain ⟨o1, o2, o3, o4, o5, o6, cn0, o7, o8, o9⟩ := Member.ctx_ok hcx0
  have hctx : cx0.IsLin L w fun a => (g a).2 := by
    have key : ∀ φ : Load K → K, (∀ g ld, φ (ld.scale g) = g * φ ld) →
        (cx0.own.map φ).sum = lsum L w fun a => ((g a).2.own.map φ).sum := by
      intro φ hφ
      rw [o2, combLoads_own L w hk _ i φ hφ]
      refine lsum_congr fun a ha => ?_
      obtain ⟨_, p2, _⟩ := Member.ctx_ok (hg2 a ha)
      rw [p2]
    refine ⟨?_, ?_, ?_, ?_, ?_, ?_, ?_, key⟩
    · intro a ha
      rw [(Member.ctx_ok (hg2 a ha)).1, o1]
    · intro a ha
      rw [(Member.ctx_ok (hg2 a ha)).2.2.2.2.1, o5]
    · intro a ha
      rw [(Member.ctx_ok (hg2 a ha)).2.2.2.2.2.1, o6]
    · intro j
      rw [o3, hf i (by omega)]
      refine lsum_congr fun a ha => ?_
      rw [(Member.ctx_ok (hg2 a ha)).2.2.1]
    · intro j
      rw [o4]
      have hj := j.isLt
      simp only [elemVec]
      rw [hd _ (by simp only [System.N]; omega)]
      refine lsum_congr fun a ha => ?_
      rw [(Member.ctx_ok (hg2 a ha)).2.2.2.1]
      rfl
    · rw [o8, Member.cnlVal_sum _ _ o7, ← o2, key _
        (b.members[i].cnlVal_scale CNL.Ma fun g c => rfl)]
      refine lsum_congr fun a ha => ?_
      obtain ⟨_, p2, _, _, _, _, cn, p7, p8, _⟩ := Member.ctx_ok (hg2 a ha)
      rw [p8, Member.cnlVal_sum _ _ p7, p2]
    · rw [o9, Member.cnlVal_sum _ _ o7, ← o2, key _
        (b.members[i].cnlVal_scale CNL.Mb fun g c => rfl)]
      refine lsum_congr fun a ha => ?_
      obtain ⟨_, p2, _, _, _, _, cn, p7, _, p9⟩ := Member.ctx_ok (hg2 a ha)
      rw [p9, Member.cnlVal_sum _ _ p7, p2]
  have hget : ∀ a (ha : a ∈ L), (run a).2[i]'(hi' a ha) =
      (run a).2.getD i ⟨0, 0, 0, 0, 0, 0⟩ := by
    intro a ha
    rw [List.getD_eq_getElem?_getD, List.getElem?_eq_getElem (hi' a ha), Option.getD_some]
  refine ⟨fun a ha => ?_, fun k => ?_⟩
  · rw [hget a ha, hg3 a ha, hres0]
    refine ⟨hctx.n a ha, fun k => ?_⟩
    simp only [hctx.x a ha]
    rfl
  · have e : (lsum L w fun a => rp.get ((run a).2.getD i ⟨0, 0, 0, 0, 0, 0⟩) k) =
        lsum L w fun a => rp.get (g a).2.result k := by
      refine lsum_congr fun a ha => ?_
      rw [hg3 a ha]
      cases rp <;> rfl
    rw [e, hres0]
    have hbc : SameBc b (L.map c) →
        cx0.m.et = .FF ∨ ∀ a ∈ L, ((g a).2).useBc = cx0.useBc := by
      rintro (h | h)
      · rcases h b.members[i] (List.getElem_mem him) with h | h | ⟨sec, h⟩
        · exact .inl (by rw [o1]; exact h)
        · refine .inr fun a ha => ?_
          simp [MCtx.useBc, hctx.m a ha, o1, h]
        · refine .inr fun a ha => ?_
          simp [MCtx.useBc, hctx.m a ha, o1, h]
      · refine .inr fun a ha => ?_
        have hz : ∀ a ∈ L, ∀ l ∈ (g a).1, ∀ A B, l.load ≠ .ic A B := fun a ha =>
          BeamDef.setLoads_no_ic (hg1 a ha) (h (c a) (List.mem_map_of_mem ha))
        have k0 := MCtx.kappa_zero (c := cx0) (by
          rw [o2]
          intro ld hld
          obtain ⟨l, hl, rfl⟩ := List.mem_map.1 hld
          exact combLoads_no_ic L w _ hz l (List.mem_filter.1 hl).1)
        have k1 := MCtx.kappa_zero (c := (g a).2) (by
          rw [(Member.ctx_ok (hg2 a ha)).2.1]
          intro ld hld
          obtain ⟨l, hl, rfl⟩ := List.mem_map.1 hld
          exact hz a ha l (List.mem_filter.1 hl).1)
        simp [MCtx.useBc, hctx.m a ha, k0, k1, hctx.n a ha]
    cases rp with
    | M => exact hctx.M k
    | V => exact hctx.V k
    | R => exact hctx.R (hbc (by simpa using hrp)) k
    | D => exact hctx.D (hbc (by simpa using hrp)) k

theorem comb_results (b : BeamDef K) (stable : System K → Bool) (solve : Solver K)
    (hsol : solve.Sound) (npts : ℕ) {α : Type*} (L : List α) (w : α → K) (c : α → LCase K)
    (run : α → Result K × List (MRes K))
    (hrun : ∀ a ∈ L, runCase b stable solve npts (c a).loads = .ok (run a))
    (LM : List (Row K)) (hLM : combinedLoads (L.map w) (L.map c) = .ok LM)
    (r : Result K × List (MRes K)) (hr : runCase b stable solve npts LM = .ok r)
    (hpr : ∀ v, some v ∈ b.presc → v = 0 ∨ (L.map w).sum = 1)
    (hns : ∀ s, ({ b with LM := LM } : BeamDef K).system = .ok s → s.Nonsingular) (rp : Resp)
    (hrp : rp = .M ∨ rp = .V ∨ SameBc b (L.map c)) :
    r.2.length = b.members.length ∧ (∀ a ∈ L, (run a).2.length = b.members.length) ∧
    ∀ i (hi : i < r.2.length) (hi' : ∀ a ∈ L, i < (run a).2.length),
      (∀ a (ha : a ∈ L), ((run a).2[i]'(hi' a ha)).n = r.2[i].n ∧
        ∀ k, ((run a).2[i]'(hi' a ha)).x k = r.2[i].x k) ∧
      ∀ k, rp.get r.2[i] k = lsum L w fun a => rp.get ((run a).2.getD i ⟨0, 0, 0, 0, 0, 0⟩) k :=
  comb_results' b stable solve hsol npts L w c run hrun (fun a => decide (w a ≠ 0))
    (fun a _ ha => by simpa using ha) LM
    (fun ls hls => combinedLoads_setLoads b L w c ls hls LM hLM) r hr hpr hns rp hrp

/-! ### From members to whole arrays -/

/-- The pairs (member, station) in the order of the concatenated arrays. -/
def stationList (n : ℕ) (cnt : ℕ → ℕ) : List (ℕ × ℕ) :=
  (List.range n).flatMap fun i => (List.range (cnt i)).map fun k => (i, k)

theorem zipWith_map_same' {γ δ ε ζ : Type*} (l : List γ) (f : δ → ε → ζ) (a : γ → δ) (b : γ → ε) :
    List.zipWith f (l.map a) (l.map b) = l.map fun x => f (a x) (b x) := by
  induction l with
  | nil => rfl
  | cons x l ih => simp [ih]

theorem concatResults_eq (rs : List (MRes K)) (a : MRes K → ℕ → K) (cnt : ℕ → ℕ)
    (h : ∀ i (hi : i < rs.length), rs[i].n = cnt i) :
    concatResults rs a =
      (stationList rs.length cnt).map fun p => a (rs.getD p.1 ⟨0, 0, 0, 0, 0, 0⟩) p.2 := by
  have h1 : rs = (List.range rs.length).map fun i => rs.getD i ⟨0, 0, 0, 0, 0, 0⟩ := by
    apply List.ext_getElem
    · simp
    · intro i h1 h2
      simp [List.getD_eq_getElem?_getD, List.getElem?_eq_getElem h1]
  unfold concatResults stationList
  conv_lhs => rw [h1]
  rw [List.flatMap_map, List.map_flatMap]
  apply List.flatMap_congr
  intro i hi
  have hi := List.mem_range.1 hi
  simp only [MRes.list, List.map_map]
  have : (rs.getD i ⟨0, 0, 0, 0, 0, 0⟩).n = cnt i := by
    rw [List.getD_eq_getElem?_getD, List.getElem?_eq_getElem hi, Option.getD_some]
    exact h i hi
  rw [this]
  rfl

theorem collectRest_ok {x : List K} {l : List (List K × List K)} {rows : List (List K)}
    (h : collectRest x l = .ok rows) : rows = l.map Prod.snd := by
  induction l generalizing rows with
  | nil => cases h; rfl
  | cons p l ih =>
    obtain ⟨x', y⟩ := p
    simp only [collectRest] at h
    split at h
    · cases h
    · split at h
      · cases h
      · rename_i rows' hr
        cases h
        rw [ih hr]
        rfl

theorem responseMatrix_ok {b : BeamDef K} {stable : System K → Bool} {solve : Solver K} {npts : ℕ}
    {cs : List (LCase K)} {rp : Resp} {x : List K} {B : List (List K)}
    (h : responseMatrix b stable solve npts cs rp = .ok (x, B)) :
    ∃ runs : List (Result K × List (MRes K)), runs.length = cs.length ∧
      (∀ i (hi : i < cs.length) (hi' : i < runs.length),
        runCase b stable solve npts cs[i].loads = .ok runs[i]) ∧
      B = runs.map (fun r => concatResults r.2 rp.get) ∧
      ∃ r ∈ runs, x = concatResults r.2 MRes.x := by
  unfold responseMatrix at h
  split at h
  · cases h
  · rename_i runs hruns
    obtain ⟨h1, h2⟩ := mapE_ok hruns
    refine ⟨runs, h1, h2, ?_⟩
    cases runs with
    | nil => cases h
    | cons r rest =>
      simp only [List.map_cons] at h
      split at h
      · cases h
      · rename_i rows hrows
        cases h
        refine ⟨?_, r, List.mem_cons_self, rfl⟩
        rw [collectRest_ok hrows]
        simp [Function.comp_def]

theorem factorLoop_length {cs : List (LCase K)} {items : List (FKey × K)} {out f : List K}
    (h : factorLoop cs out items = .ok f) : f.length = out.length := by
  induction items generalizing out with
  | nil => cases h; rfl
  | cons kv l ih =>
    simp only [factorLoop] at h
    split at h
    · cases h
    · rename_i out' ho
      rw [ih h]
      unfold factorStep at ho
      split at ho
      · split at ho
        · cases ho
        · cases ho; simp
      · split at ho
        · cases ho; simp
        · split at ho
          · cases ho; simp
          · cases ho

theorem lcFactors_length {cs : List (LCase K)} {spec : FSpec K} {f : List K}
    (h : lcFactors cs spec = .ok f) : f.length = cs.length := by
  cases spec with
  | mapping items =>
    simp only [lcFactors] at h
    rw [factorLoop_length h]
    simp
  | vec v =>
    simp only [lcFactors] at h
    split at h
    · cases h
    · cases h
      rename_i hv
      simpa using hv

/-- **C36**: for any factors (zero and negative ones too), the factored combination of the
stored responses of the cases is the response of analysing the combined loads, at the
same stations.  Two restrictions separate this from the full claim, and both are needed:
nonzero prescribed displacements are repeated by every case, so they must be absent or the
factors must sum to one (`C36_settlement_violation`); and for rotations and deflections all
cases must use the same of the two formulas for the left-end rotation of a released member,
which they do unless a prismatic slender released member carries an imposed curvature
(`C36_curvature_violation`). -/
theorem C36_combination_partial (b : BeamDef K) (stable : System K → Bool) (solve : Solver K)
    (hsol : solve.Sound) (npts : ℕ) (cs : List (LCase K)) (spec : FSpec K) (rp : Resp)
    (x y : List K) (r : Result K × List (MRes K))
    (hc : lcCombine b stable solve npts cs spec rp = .ok (x, y))
    (ha : analyzeCombination b stable solve npts cs spec = .ok r)
    (hns : ∀ LM s, ({ b with LM := LM } : BeamDef K).system = .ok s → s.Nonsingular)
    (hpr : ∀ f, lcFactors cs spec = .ok f → ∀ v, some v ∈ b.presc → v = 0 ∨ f.sum = 1)
    (hrp : rp = .M ∨ rp = .V ∨ SameBc b cs) :
    concatResults r.2 MRes.x = x ∧ concatResults r.2 rp.get = y := by
  unfold lcCombine at hc
  unfold analyzeCombination at ha
  split at hc
  · cases hc
  rename_i x' B hB
  split at hc
  · cases hc
  rename_i f hf
  cases hc
  rw [hf] at ha
  simp only at ha
  split at ha
  · cases ha
  rename_i LM hLM
  obtain ⟨runs, hlen, hruns, rfl, r0, hr0, rfl⟩ := responseMatrix_ok hB
  have hfl := lcFactors_length hf
  -- index the three lists by position
  let L := List.range cs.length
  let d : LCase K := ⟨"", [], [], none⟩
  have eF : f = L.map fun i => f.getD i 0 := by
    apply List.ext_getElem
    · simp [L, hfl]
    · intro i h1 h2
      simp [L, List.getD_eq_getElem?_getD, List.getElem?_eq_getElem h1]
  have eC : cs = L.map fun i => cs.getD i d := by
    apply List.ext_getElem
    · simp [L]
    · intro i h1 h2
      simp [L, List.getD_eq_getElem?_getD, List.getElem?_eq_getElem h1]
  have eR : runs = L.map fun i => runs.getD i r0 := by
    apply List.ext_getElem
    · simp [L, hlen]
    · intro i h1 h2
      simp [L, List.getD_eq_getElem?_getD, List.getElem?_eq_getElem h1]
  have main := comb_results b stable solve hsol npts L (fun i => f.getD i 0) (fun i => cs.getD i d)
    (fun i => runs.getD i r0) (by
      intro i hi
      have hi : i < cs.length := List.mem_range.1 hi
      simp only [List.getD_eq_getElem?_getD, List.getElem?_eq_getElem hi,
        List.getElem?_eq_getElem (show i < runs.length by omega), Option.getD_some]
      exact hruns i hi (by omega)) LM (by rw [← eF, ← eC]; exact hLM) r ha (by
      intro v hv
      rw [← eF]
      exact hpr f hf v hv) (hns LM) rp (by rw [← eC]; exact hrp)
  obtain ⟨m1, m2, m3⟩ := main
  let cnt : ℕ → ℕ := fun i => (r.2.getD i ⟨0, 0, 0, 0, 0, 0⟩).n
  have hcnt : ∀ i (hi : i < r.2.length), r.2[i].n = cnt i := by
    intro i hi
    simp [cnt, List.getD_eq_getElem?_getD, List.getElem?_eq_getElem hi]
  have hcase : ∀ a ∈ L, ∀ i (hi : i < (runs.getD a r0).2.length), (runs.getD a r0).2[i].n = cnt i := by
    intro a haL i hi
    have hir : i < r.2.length := by rw [m1, ← m2 a haL]; exact hi
    rw [← hcnt i hir]
    exact ((m3 i hir (fun a' ha' => by rw [m2 a' ha', ← m1]; exact hir)).1 a haL).1
  have eX : ∀ (a : MRes K → ℕ → K) (j : ℕ), j ∈ L → concatResults (runs.getD j r0).2 a =
      (stationList r.2.length cnt).map
        fun p => a ((runs.getD j r0).2.getD p.1 ⟨0, 0, 0, 0, 0, 0⟩) p.2 := by
    intro a j hj
    rw [concatResults_eq _ a cnt (hcase j hj), m2 j hj, m1]
  have hst : ∀ p ∈ stationList r.2.length cnt, p.1 < r.2.length := by
    intro p hp
    simp only [stationList, List.mem_flatMap, List.mem_map, List.mem_range] at hp
    obtain ⟨i, hi, k, _, rfl⟩ := hp
    exact hi
  have hx : concatResults r.2 MRes.x = concatResults r0.2 MRes.x := by
    obtain ⟨j, hj, hj'⟩ := List.mem_iff_getElem.1 hr0
    have hjL : j ∈ L := List.mem_range.2 (by omega)
    have : r0 = runs.getD j r0 := by
      rw [List.getD_eq_getElem?_getD, List.getElem?_eq_getElem hj, Option.getD_some, hj']
    rw [concatResults_eq _ _ cnt hcnt]
    conv_rhs => rw [this]
    rw [eX _ j hjL]
    apply List.map_congr_left
    intro p hp
    have hp1 := hst p hp
    have hi' : ∀ a' ∈ L, p.1 < (runs.getD a' r0).2.length := fun a' ha' => by
      rw [m2 a' ha', ← m1]; exact hp1
    have := ((m3 p.1 hp1 hi').1 j hjL).2 p.2
    rw [List.getD_eq_getElem?_getD, List.getElem?_eq_getElem hp1, Option.getD_some,
      List.getD_eq_getElem?_getD (l := (runs.getD j r0).2), List.getElem?_eq_getElem (hi' j hjL),
      Option.getD_some]
    exact this.symm
  refine ⟨hx, ?_⟩
  have hxl : (concatResults r0.2 MRes.x).length = (stationList r.2.length cnt).length := by
    rw [← hx, concatResults_eq _ _ cnt hcnt, List.length_map]
  rw [concatResults_eq _ _ cnt hcnt]
  unfold vecMat
  rw [hxl]
  apply List.ext_getElem
  · simp
  · intro k h1 h2
    simp only [List.length_map] at h1
    simp only [List.getElem_map, List.getElem_range]
    set p := (stationList r.2.length cnt)[k] with hp
    have hp1 : p.1 < r.2.length := hst p (List.getElem_mem h1)
    have hi' : ∀ a' ∈ L, p.1 < (runs.getD a' r0).2.length := fun a' ha' => by
      rw [m2 a' ha', ← m1]; exact hp1
    have := (m3 p.1 hp1 hi').2 p.2
    rw [List.getD_eq_getElem?_getD, List.getElem?_eq_getElem hp1, Option.getD_some, this, lsum]
    conv_rhs => rw [eF, eR]
    rw [List.map_map, zipWith_map_same']
    congr 1
    apply List.map_congr_left
    intro j hj
    simp only [Function.comp]
    rw [eX _ j hj]
    simp [List.getD_eq_getElem?_getD, List.getElem?_eq_getElem h1, hp]

/-! ### Concrete cases -/

/-- A solver that returns the first of the vectors `xs` that is a solution. -/
def listSolver (xs : List (ℕ → K)) : Solver K := fun N A b =>
  match xs.find? fun x => decide (∀ p < N, mulN N A x p = b p) with
  | some x => .ok x
  | none => .error .valueError

theorem listSolver_sound (xs : List (ℕ → K)) : (listSolver xs).Sound := by
  intro N A b y h
  unfold listSolver at h
  split at h
  · rename_i x hx
    cases h
    simpa using List.find?_some hx
  · cases h

/-- Three load cases on the simple span: a UDL, a point load, both together with a couple. -/
def exCases : List (LCase ℚ) :=
  [⟨"G", [⟨1, 1, [12]⟩], [0], none⟩, ⟨"Q", [⟨1, 2, [12, 1]⟩], [0], none⟩,
    ⟨"W", [⟨1, 1, [6]⟩], [0], none⟩]

/-- Solves the systems of `exCases` and of their combination with factors 2, -1, 0. -/
def exCaseSolver : Solver ℚ := listSolver
  [fun p => [0, -2 / 3, 0, 2 / 3].getD p 0, fun p => [0, -1 / 2, 0, 1 / 2].getD p 0,
    fun p => [0, -1 / 3, 0, 1 / 3].getD p 0, fun p => [0, -5 / 6, 0, 5 / 6].getD p 0]

/-- C36 at the simple span with factors 2, -1 and 0: the deflections of the combined loads
are those of the combined responses. -/
example : ∃ p r, lcCombine (exSimple none none []) (fun _ => true) exCaseSolver 4 exCases
    (.mapping [(.name "Q", -1), (.name "G", 2)]) .D = .ok p ∧
    analyzeCombination (exSimple none none []) (fun _ => true) exCaseSolver 4 exCases
      (.mapping [(.name "Q", -1), (.name "G", 2)]) = .ok r ∧
    concatResults r.2 MRes.D = p.2 ∧ p.2 = [0, 0, -17 / 48, -25 / 48, -7 / 16, -1 / 6, 0] := by
  obtain ⟨p, h1, h2⟩ := ok_of_map (x := lcCombine (exSimple none none []) (fun _ => true)
    exCaseSolver 4 exCases (.mapping [(.name "Q", -1), (.name "G", 2)]) .D) (f := Prod.snd)
    (y := [0, 0, -17 / 48, -25 / 48, -7 / 16, -1 / 6, 0]) (by decide +kernel)
  obtain ⟨r, h3, _⟩ := ok_of_map (x := analyzeCombination (exSimple none none []) (fun _ => true)
    exCaseSolver 4 exCases (.mapping [(.name "Q", -1), (.name "G", 2)])) (f := fun _ => ())
    (y := ()) (by decide +kernel)
  have := C36_combination_partial (exSimple none none []) _ _ (listSolver_sound _) 4 exCases _ .D
    p.1 p.2 r h1 h3 (fun LM s h => exSimple_nonsingular none none LM s h)
    (fun f _ v hv => by simp [exSimple] at hv)
    (.inr (.inr (.inl (by simp [exSimple, exPrismatic]))))
  exact ⟨p, r, h1, h3, this.2, h2⟩

/-- **C36 fails** with a support settlement of 1: two times the response to no load at all
has deflection 2 everywhere, but analysing the doubled loads gives 1, because the
settlement is not factored. -/
theorem C36_settlement_violation :
    ∃ (b : BeamDef ℚ) (solve : Solver ℚ) (cs : List (LCase ℚ)) (p : List ℚ × List ℚ)
      (r : Result ℚ × List (MRes ℚ)), solve.Sound ∧
      lcCombine b (fun _ => true) solve 4 cs (.vec [2]) .D = .ok p ∧
      analyzeCombination b (fun _ => true) solve 4 cs (.vec [2]) = .ok r ∧
      p.2 = [0, 2, 2, 2, 2, 2, 0] ∧ concatResults r.2 MRes.D = [0, 1, 1, 1, 1, 1, 0] := by
  obtain ⟨p, h1, h2⟩ := ok_of_map (x := lcCombine (exSimple (some 1) (some 1) []) (fun _ => true)
    (trySolver fun p => [1, 0, 1, 0].getD p 0) 4 [⟨"none", [], [], none⟩] (.vec [2]) .D)
    (f := Prod.snd) (y := [0, 2, 2, 2, 2, 2, 0]) (by decide +kernel)
  obtain ⟨r, h3, h4⟩ := ok_of_map (x := analyzeCombination (exSimple (some 1) (some 1) [])
    (fun _ => true) (trySolver fun p => [1, 0, 1, 0].getD p 0) 4 [⟨"none", [], [], none⟩]
    (.vec [2])) (f := fun r => concatResults r.2 MRes.D) (y := [0, 1, 1, 1, 1, 1, 0])
    (by decide +kernel)
  exact ⟨_, _, _, p, r, trySolver_sound _, h1, h3, h2, h4⟩

/-- A member pinned at its right end between clamped nodes. -/
def exReleased : BeamDef ℚ :=
  ⟨[exPrismatic .FP], [-1, -1, -1, -1], [none, none, none, none], []⟩

/-- **C36 fails** for rotations of a released member when one case has an imposed
curvature: alone, the UDL case gets its left-end rotation from a closed formula; combined
with the curvature case it gets it from the numerically integrated deflection. -/
theorem C36_curvature_violation :
    ∃ (b : BeamDef ℚ) (solve : Solver ℚ) (cs : List (LCase ℚ)) (p : List ℚ × List ℚ)
      (r : Result ℚ × List (MRes ℚ)), solve.Sound ∧ (∀ v, some v ∉ b.presc) ∧
      lcCombine b (fun _ => true) solve 4 cs (.vec [1, 1]) .R = .ok p ∧
      analyzeCombination b (fun _ => true) solve 4 cs (.vec [1, 1]) = .ok r ∧
      p.2 = [5, -1 / 64, -27 / 64, -17 / 64, 13 / 64, 47 / 64, 0] ∧
      concatResults r.2 MRes.R = [5, 1 / 64, -25 / 64, -15 / 64, 15 / 64, 49 / 64, 0] := by
  obtain ⟨p, h1, h2⟩ := ok_of_map (x := lcCombine exReleased (fun _ => true) (trySolver 0) 4
    [⟨"G", [⟨1, 1, [12]⟩], [0], none⟩, ⟨"T", [⟨1, 6, [1]⟩], [0], none⟩] (.vec [1, 1]) .R)
    (f := Prod.snd) (y := [5, -1 / 64, -27 / 64, -17 / 64, 13 / 64, 47 / 64, 0])
    (by decide +kernel)
  obtain ⟨r, h3, h4⟩ := ok_of_map (x := analyzeCombination exReleased (fun _ => true)
    (trySolver 0) 4
    [⟨"G", [⟨1, 1, [12]⟩], [0], none⟩, ⟨"T", [⟨1, 6, [1]⟩], [0], none⟩] (.vec [1, 1]))
    (f := fun r => concatResults r.2 MRes.R)
    (y := [5, 1 / 64, -25 / 64, -15 / 64, 15 / 64, 49 / 64, 0]) (by decide +kernel)
  exact ⟨_, _, _, p, r, trySolver_sound _, by simp [exReleased], h1, h3, h2, h4⟩

end PyCBA
