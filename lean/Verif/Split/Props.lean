import Verif.Split.Transfer
import Mathlib.Data.List.GetD

/-!
Dividing a span by a free node (C50).
-/

set_option linter.unusedSectionVars false
set_option linter.unusedSimpArgs false

namespace PyCBA

open Matrix Finset

variable {K : Type*} [Field K] [LinearOrder K] [IsStrictOrderedRing K]

/-! ### Specification -/

/-- The loads of a beam whose span `k`, of length `L`, is divided at `x`: loads
further right move to the next span number. -/
inductive SplitLoads (k : ℕ) (x L : K) : List (SpanLoad K) → List (SpanLoad K) → Prop
  | nil : SplitLoads k x L [] []
  | before (l ls ls') : l.iSpan < (k : ℤ) → SplitLoads k x L ls ls' →
      SplitLoads k x L (l :: ls) (l :: ls')
  | after (l ls ls') : (k : ℤ) < l.iSpan → SplitLoads k x L ls ls' →
      SplitLoads k x L (l :: ls) (⟨l.iSpan + 1, l.load⟩ :: ls')
  | on (ld o1 o2 ls ls') : Load.Split x L ld o1 o2 → SplitLoads k x L ls ls' →
      SplitLoads k x L (⟨k, ld⟩ :: ls)
        (o1.toList.map (fun l => ⟨k, l⟩) ++ o2.toList.map (fun l => ⟨(k : ℤ) + 1, l⟩) ++ ls')

/-- `b'` is `b` with its span number `pre.length`, a slender prismatic fixed-fixed
span of length `L`, divided at `x` by a node without support. -/
structure BeamDef.SplitOf (b b' : BeamDef K) (pre post : List (Member K)) (EI L x : K) : Prop where
  mem : b.members = pre ++ prism EI L :: post
  mem' : b'.members = pre ++ prism EI x :: prism EI (L - x) :: post
  pos : 0 < x
  lt : x < L
  restr : ∃ r1 r2, r1.length = 2 * pre.length + 2 ∧ b.restraints = r1 ++ r2 ∧
    b'.restraints = r1 ++ [0, 0] ++ r2
  presc : ∃ p1 p2, p1.length = 2 * pre.length + 2 ∧ b.presc = p1 ++ p2 ∧
    b'.presc = p1 ++ [none, none] ++ p2
  loads : ∃ ls ls', parseLM b.LM = .ok ls ∧ parseLM b'.LM = .ok ls' ∧
    SplitLoads pre.length x L ls ls'

/-- Where a degree of freedom of the original beam is in the divided beam. -/
def splitDof (k p : ℕ) : ℕ := if p < 2 * k + 2 then p else p + 2

/-! ### Systems -/

structure System.IsSplit (s s' : System K) (k : ℕ) (EI L x : K) : Prop where
  hk : k < s.n
  n : s'.n = s.n + 1
  before : ∀ i < k, s'.kb i = s.kb i ∧ s'.ref i = s.ref i
  after : ∀ i, k < i → i < s.n → s'.kb (i + 1) = s.kb i ∧ s'.ref (i + 1) = s.ref i
  kb : s.kb k = kFF EI L
  kb1 : s'.kb k = kFF EI x
  kb2 : s'.kb (k + 1) = kFF EI (L - x)
  state : loadState L (s.ref k)
    = joinState (L - x) (loadState x (s'.ref k)) (loadState (L - x) (s'.ref (k + 1)))
  r : ∀ p, s'.r (splitDof k p) = s.r p
  presc : ∀ p, s'.presc (splitDof k p) = s.presc p
  r0 : s'.r (2 * k + 2) = 0 ∧ s'.r (2 * k + 3) = 0
  presc0 : s'.presc (2 * k + 2) = none ∧ s'.presc (2 * k + 3) = none

theorem System.IsSplit.spring {s s' : System K} {k : ℕ} {EI L x : K} (h : s.IsSplit s' k EI L x)
    (p : ℕ) : s'.spring (splitDof k p) = s.spring p := by
  simp only [System.spring, h.r]

theorem System.IsSplit.constr {s s' : System K} {k : ℕ} {EI L x : K} (h : s.IsSplit s' k EI L x)
    (p : ℕ) : s'.constr (splitDof k p) = s.constr p := by
  simp only [System.constr, h.r, h.presc]

theorem System.IsSplit.constr_new {s s' : System K} {k : ℕ} {EI L x : K}
    (h : s.IsSplit s' k EI L x) (c : Fin 2) : s'.constr (2 * (k + 1) + c) = none := by
  obtain ⟨a1, a2⟩ := h.r0
  obtain ⟨b1, b2⟩ := h.presc0
  fin_cases c
  · simp [System.constr, mul_add, a1, b1]
  · simp [System.constr, mul_add, add_assoc, a2, b2]

/-- End forces of the divided span. -/
theorem System.IsSplit.endForces {s s' : System K} {k : ℕ} {EI L x : K}
    (h : s.IsSplit s' k EI L x) (hx : 0 < x) (hxL : x < L) (d' : ℕ → K)
    (h0 : ∀ c : Fin 2, s'.residual d' (2 * (k + 1) + c) = 0) :
    s.endForces (fun p => d' (splitDof k p)) k
      = ![s'.endForces d' k 0, s'.endForces d' k 1, s'.endForces d' (k + 1) 2,
          s'.endForces d' (k + 1) 3] := by
  have e1 : Transfer EI x (loadState x (s'.ref k)) (elemVec d' k) (s'.endForces d' k) :=
    (transfer_iff hx.ne' _ _ _).1 (by rw [System.endForces, h.kb1])
  have e2 : Transfer EI (L - x) (loadState (L - x) (s'.ref (k + 1))) (elemVec d' (k + 1))
      (s'.endForces d' (k + 1)) :=
    (transfer_iff (sub_pos.2 hxL).ne' _ _ _).1 (by rw [System.endForces, h.kb2])
  have hj : k + 1 ≤ s'.n := by have := h.hk; have := h.n; omega
  have hs : ∀ c : Fin 2, s'.spring (2 * (k + 1) + c) = 0 := by
    obtain ⟨a1, a2⟩ := h.r0
    intro c
    fin_cases c
    · simp [System.spring, mul_add, a1]
    · simp [System.spring, mul_add, add_assoc, a2]
  have m : ∀ c : Fin 2, s'.endForces d' k ⟨2 + c, by omega⟩
      + s'.endForces d' (k + 1) ⟨c, by omega⟩ = 0 := by
    intro c
    have := h0 c
    rw [s'.residual_node d' (k + 1) hj c, if_pos (by omega),
      if_pos (by have := h.hk; have := h.n; omega), hs c] at this
    simpa using this
  have e3 := e1.comp e2 rfl rfl (m 0) (m 1)
  rw [add_sub_cancel, ← h.state] at e3
  rw [System.endForces, h.kb, eq_comm]
  have e4 : elemVec (fun p => d' (splitDof k p)) k
      = ![elemVec d' k 0, elemVec d' k 1, elemVec d' (k + 1) 2, elemVec d' (k + 1) 3] := by
    ext a
    fin_cases a <;> simp [elemVec, splitDof, mul_add, add_assoc]
  rw [e4]
  exact (transfer_iff (hx.trans hxL).ne' _ _ _).2 e3

/-- Out-of-balance forces at the original nodes. -/
theorem System.IsSplit.residual {s s' : System K} {k : ℕ} {EI L x : K}
    (h : s.IsSplit s' k EI L x) (hx : 0 < x) (hxL : x < L) (d' : ℕ → K)
    (h0 : ∀ c : Fin 2, s'.residual d' (2 * (k + 1) + c) = 0) (p : ℕ) (hp : p < s.N) :
    s'.residual d' (splitDof k p) = s.residual (fun p => d' (splitDof k p)) p := by
  have hk := h.hk
  have hn := h.n
  have hend := h.endForces hx hxL d' h0
  set d := fun p => d' (splitDof k p) with hd
  have bef : ∀ i < k, s.endForces d i = s'.endForces d' i := by
    intro i hi
    rw [System.endForces, System.endForces, (h.before i hi).1, (h.before i hi).2]
    congr 2
    ext a
    have := a.isLt
    simp only [elemVec, hd, splitDof]
    rw [if_pos (by omega)]
  have aft : ∀ i, k < i → i < s.n → s.endForces d i = s'.endForces d' (i + 1) := by
    intro i hi hin
    rw [System.endForces, System.endForces, (h.after i hi hin).1, (h.after i hi hin).2]
    congr 2
    ext a
    simp only [elemVec, hd, splitDof]
    rw [if_neg (by omega)]
    congr 1
    omega
  obtain ⟨j, c, rfl⟩ : ∃ (j : ℕ) (c : Fin 2), p = 2 * j + c :=
    ⟨p / 2, ⟨p % 2, Nat.mod_lt _ (by norm_num)⟩, by simp only; omega⟩
  have hc := c.isLt
  have hj : j ≤ s.n := by simp only [System.N] at hp; omega
  rw [s.residual_node d j hj c]
  have hspr := h.spring (2 * j + c)
  have hdp : d (2 * j + c) = d' (splitDof k (2 * j + c)) := rfl
  rw [hdp, ← hspr]
  by_cases hjk : j ≤ k
  · have e : splitDof k (2 * j + c) = 2 * j + c := by
      simp only [splitDof]; rw [if_pos (by omega)]
    rw [e, s'.residual_node d' j (by omega) c]
    congr 2
    · by_cases h1 : 0 < j
      · rw [if_pos h1, if_pos h1, bef _ (by omega)]
      · rw [if_neg h1, if_neg h1]
    · rw [if_pos (by omega), if_pos (by omega)]
      rcases Nat.lt_or_eq_of_le hjk with h1 | rfl
      · rw [bef j h1]
      · rw [hend]
        fin_cases c <;> rfl
  · have e : splitDof k (2 * j + c) = 2 * (j + 1) + c := by
      simp only [splitDof]; rw [if_neg (by omega)]; omega
    rw [e, s'.residual_node d' (j + 1) (by omega) c]
    congr 2
    · rw [if_pos (by omega), if_pos (by omega), Nat.add_sub_cancel]
      by_cases h1 : j = k + 1
      · subst h1
        rw [Nat.add_sub_cancel, hend]
        fin_cases c <;> rfl
      · rw [aft (j - 1) (by omega) (by omega), Nat.sub_add_cancel (by omega)]
    · by_cases h1 : j < s.n
      · rw [if_pos h1, if_pos (by omega), aft j (by omega) h1]
      · rw [if_neg h1, if_neg (by omega)]

theorem splitDof_lt {s s' : System K} {k : ℕ} {EI L x : K} (h : s.IsSplit s' k EI L x) {p : ℕ}
    (hp : p < s.N) : splitDof k p < s'.N := by
  have := h.n
  simp only [splitDof, System.N] at hp ⊢
  split <;> omega

theorem System.IsSplit.new_lt {s s' : System K} {k : ℕ} {EI L x : K} (h : s.IsSplit s' k EI L x)
    (c : Fin 2) : 2 * (k + 1) + (c : ℕ) < s'.N := by
  have := h.n
  have := h.hk
  have := c.isLt
  simp only [System.N]
  omega

theorem System.IsSplit.solution {s s' : System K} {k : ℕ} {EI L x : K}
    (h : s.IsSplit s' k EI L x) (hx : 0 < x) (hxL : x < L) (d' : ℕ → K) (hs : s'.IsSolution d') :
    s.IsSolution (fun p => d' (splitDof k p)) := by
  have h0 : ∀ c : Fin 2, s'.residual d' (2 * (k + 1) + c) = 0 :=
    fun c => hs.2 _ (h.new_lt c) (h.constr_new c)
  refine ⟨fun p hp v hv => hs.1 _ (splitDof_lt h hp) v (by rw [h.constr, hv]), fun p hp hc => ?_⟩
  rw [← h.residual hx hxL d' h0 p hp]
  exact hs.2 _ (splitDof_lt h hp) (by rw [h.constr, hc])

/-- Going through the degrees of freedom of the divided beam. -/
theorem range_splitAt (n k : ℕ) (hk : k < n) (P : ℕ → Bool)
    (h2 : P (2 * k + 2) = false) (h3 : P (2 * k + 3) = false) :
    (List.range (2 * (n + 1) + 2)).filter P
      = ((List.range (2 * n + 2)).filter fun p => P (splitDof k p)).map (splitDof k) := by
  obtain ⟨m, rfl⟩ : ∃ m, n = k + m := ⟨n - k, by omega⟩
  have e1 : 2 * (k + m + 1) + 2 = (2 * k + 2) + (2 + 2 * m) := by ring
  have e2 : 2 * (k + m) + 2 = (2 * k + 2) + 2 * m := by ring
  rw [e1, e2, List.range_add, List.range_add (n := 2), List.range_add (n := 2 * k + 2)]
  simp only [List.filter_append, List.map_append, List.map_map]
  congr 1
  · have : ∀ p ∈ List.range (2 * k + 2), splitDof k p = p := by
      intro p hp
      simp only [splitDof]
      rw [if_pos (by simpa using hp)]
    rw [List.filter_congr (fun p hp => by simp only [this p hp] : ∀ p ∈ List.range (2 * k + 2),
      (fun p => P (splitDof k p)) p = P p)]
    conv_lhs => rw [← List.map_id ((List.range (2 * k + 2)).filter P)]
    apply List.map_congr_left
    intro p hp
    rw [this p (List.mem_filter.1 hp).1]
    rfl
  · have e3 : (List.map (fun x => 2 * k + 2 + x) (List.range 2)).filter P = [] := by
      simp [List.range_succ, h2, h3, List.filter_cons]
    rw [e3, List.nil_append, List.filter_map, List.filter_map, List.map_map]
    have hs : ∀ q, splitDof k (2 * k + 2 + q) = 2 * k + 2 + (2 + q) := by
      intro q
      simp only [splitDof]
      rw [if_neg (by omega)]
      omega
    have e4 : (P ∘ ((fun x => 2 * k + 2 + x) ∘ fun x => 2 + x))
        = ((fun p => P (splitDof k p)) ∘ fun x => 2 * k + 2 + x) := by
      funext q
      simp only [Function.comp, hs]
    rw [e4]
    apply List.map_congr_left
    intro q _
    simp only [Function.comp, hs]

theorem System.IsSplit.reactions {s s' : System K} {k : ℕ} {EI L x : K}
    (h : s.IsSplit s' k EI L x) (hx : 0 < x) (hxL : x < L) (d' : ℕ → K)
    (h0 : ∀ c : Fin 2, s'.residual d' (2 * (k + 1) + c) = 0) :
    s'.reactions d' = s.reactions (fun p => d' (splitDof k p)) ∧
      s'.springForces d' = s.springForces (fun p => d' (splitDof k p)) := by
  have hn : s'.N = 2 * (s.n + 1) + 2 := by rw [System.N, h.n]
  constructor
  · simp only [System.reactions]
    rw [hn, range_splitAt s.n k h.hk _ (by simp [h.r0.1]) (by simp [h.r0.2]), List.map_map]
    simp only [h.r]
    apply List.map_congr_left
    intro p hp
    exact h.residual hx hxL d' h0 p (by simpa [System.N] using (List.mem_filter.1 hp).1)
  · simp only [System.springForces]
    rw [hn, range_splitAt s.n k h.hk _ (by simp [h.r0.1]) (by simp [h.r0.2]), List.map_map]
    simp only [h.r]
    apply List.map_congr_left
    intro p hp
    simp [h.r]

/-- A divided beam is a mechanism only if the original one is. -/
theorem System.IsSplit.nonsingular {s s' : System K} {k : ℕ} {EI L x : K}
    (h : s.IsSplit s' k EI L x) (hE : EI ≠ 0) (hx : 0 < x) (hxL : x < L) (hns : s.Nonsingular) :
    s'.Nonsingular := by
  intro y hy0 hy p hp
  have ht : System.IsSplit { s with ref := fun _ => 0 } { s' with ref := fun _ => 0 } k EI L x :=
    { h with
      before := fun i hi => ⟨(h.before i hi).1, rfl⟩
      after := fun i hi hin => ⟨(h.after i hi hin).1, rfl⟩
      state := by simp only [loadState_zero, join_zero] }
  have hf : ∀ (t : System K) (d : ℕ → K) (p : ℕ),
      System.residual { t with ref := fun _ => 0 } d p = mulN t.N t.assemble d p := by
    intro t d p
    have : System.forces { t with ref := fun _ => 0 } p = 0 := by
      rw [System.forces_eq]
      simp [blockVec]
    rw [System.residual, this, sub_zero]
    rfl
  have h0 : ∀ c : Fin 2, System.residual { s' with ref := fun _ => 0 } y (2 * (k + 1) + c) = 0 := by
    intro c
    rw [hf]
    exact hy _ (h.new_lt c) (h.constr_new c)
  have hz : ∀ q < s.N, y (splitDof k q) = 0 := by
    refine hns (fun q => y (splitDof k q)) (fun q hq hc => hy0 _ (splitDof_lt h hq) ?_)
      (fun q hq hc => ?_)
    · rw [h.constr]; exact hc
    · rw [← hf, ← ht.residual hx hxL y h0 q hq, hf]
      exact hy _ (splitDof_lt h hq) (by rw [h.constr, hc])
  have hend := ht.endForces hx hxL y h0
  have hk := h.hk
  have e0 : elemVec (fun q => y (splitDof k q)) k = 0 := by
    ext a
    have := a.isLt
    exact hz _ (by simp only [System.N]; omega)
  rw [System.endForces, e0] at hend
  simp only [mulVec_zero, add_zero] at hend
  have f0 := congrFun hend 0
  have f1 := congrFun hend 1
  simp only [Matrix.cons_val, Pi.zero_apply] at f0 f1
  have tr : Transfer EI x (loadState x 0) (elemVec y k)
      (System.endForces { s' with ref := fun _ => 0 } y k) :=
    (transfer_iff hx.ne' _ _ _).1 (by rw [System.endForces]; simp only [h.kb1])
  have d0 : elemVec y k 0 = 0 := by
    have := hz (2 * k) (by simp only [System.N]; omega)
    simpa [splitDof, elemVec] using this
  have d1 : elemVec y k 1 = 0 := by
    have := hz (2 * k + 1) (by simp only [System.N]; omega)
    simpa [splitDof, elemVec] using this
  have y2 : y (2 * k + 2) = 0 := by
    have := tr.v
    rw [← f0, ← f1, d0, d1, loadState_zero] at this
    simpa [elemVec, hE] using this
  have y3 : y (2 * k + 3) = 0 := by
    have := tr.t
    rw [← f0, ← f1, d1, loadState_zero] at this
    simpa [elemVec, hE] using this
  have hn := h.n
  simp only [System.N] at hp hz
  by_cases c1 : p < 2 * k + 2
  · have := hz p (by omega)
    rwa [splitDof, if_pos c1] at this
  · by_cases c2 : p < 2 * k + 4
    · have : p = 2 * k + 2 ∨ p = 2 * k + 3 := by omega
      rcases this with rfl | rfl
      · exact y2
      · exact y3
    · have := hz (p - 2) (by omega)
      rwa [splitDof, if_neg (by omega), Nat.sub_add_cancel (by omega)] at this

/-! ### Beams -/

theorem CNL.vec_zero : (⟨0, 0, 0, 0⟩ : CNL K).vec = 0 := by
  ext p
  fin_cases p <;> rfl

theorem CNL.vec_add (c t : CNL K) :
    (⟨c.Va + t.Va, c.Ma + t.Ma, c.Vb + t.Vb, c.Mb + t.Mb⟩ : CNL K).vec = c.vec + t.vec := by
  ext p
  fin_cases p <;> rfl

theorem SplitLoads.refSum_before {k : ℕ} {x L : K} {ls ls' : List (SpanLoad K)}
    (h : SplitLoads k x L ls ls') (m : Member K) (i : ℕ) (hi : i < k) :
    m.refSum i ls' = m.refSum i ls := by
  induction h with
  | nil => rfl
  | before l ls ls' hl _ ih => simp only [Member.refSum, ih]
  | after l ls ls' hl _ ih =>
    simp only [Member.refSum, ih]
    rw [if_neg (by omega), if_neg (by omega)]
  | on ld o1 o2 ls ls' hs _ ih =>
    simp only [Member.refSum]
    rw [if_neg (by omega)]
    rcases o1 with _ | a <;> rcases o2 with _ | b <;>
      simp only [Option.toList, List.map_nil, List.map_cons, List.nil_append, List.cons_append,
        Member.refSum] <;>
      (repeat rw [if_neg (by omega)]) <;> exact ih

theorem SplitLoads.refSum_after {k : ℕ} {x L : K} {ls ls' : List (SpanLoad K)}
    (h : SplitLoads k x L ls ls') (m : Member K) (i : ℕ) (hi : k < i) :
    m.refSum (i + 1) ls' = m.refSum i ls := by
  induction h with
  | nil => rfl
  | before l ls ls' hl _ ih =>
    simp only [Member.refSum, ih]
    rw [if_neg (by push_cast; omega), if_neg (by omega)]
  | after l ls ls' hl _ ih =>
    simp only [Member.refSum, ih]
    by_cases h : l.iSpan = i
    · rw [if_pos h, if_pos (by push_cast; omega)]
    · rw [if_neg h, if_neg (by push_cast; omega)]
  | on ld o1 o2 ls ls' hs _ ih =>
    simp only [Member.refSum]
    rw [if_neg (by omega)]
    rcases o1 with _ | a <;> rcases o2 with _ | b <;>
      simp only [Option.toList, List.map_nil, List.map_cons, List.nil_append, List.cons_append,
        Member.refSum] <;>
      (repeat rw [if_neg (by push_cast; omega)]) <;> exact ih

theorem SplitLoads.refSum_on {k : ℕ} {EI x L : K} (hx : 0 < x) (hxL : x < L)
    {ls ls' : List (SpanLoad K)} (h : SplitLoads k x L ls ls') :
    ∃ c c1 c2, (prism EI L).refSum k ls = .ok c ∧ (prism EI x).refSum k ls' = .ok c1 ∧
      (prism EI (L - x)).refSum (k + 1) ls' = .ok c2 ∧
      loadState L c.vec = joinState (L - x) (loadState x c1.vec) (loadState (L - x) c2.vec) := by
  induction h with
  | nil =>
    refine ⟨_, _, _, rfl, rfl, rfl, ?_⟩
    simp only [CNL.vec_zero, loadState_zero, join_zero]
  | before l ls ls' hl _ ih =>
    simp only [Member.refSum]
    rw [if_neg (by omega), if_neg (by omega), if_neg (by push_cast; omega)]
    exact ih
  | after l ls ls' hl _ ih =>
    simp only [Member.refSum]
    rw [if_neg (by omega), if_neg (by omega), if_neg (by push_cast; omega)]
    exact ih
  | on ld o1 o2 ls ls' hs _ ih =>
    obtain ⟨t, t1, t2, a, a1, a2, e⟩ := ih
    obtain ⟨u, u1, u2, b, b1, b2, e'⟩ := hs.state (EI := EI) hx hxL
    have hsum : loadState L (⟨u.Va + t.Va, u.Ma + t.Ma, u.Vb + t.Vb, u.Mb + t.Mb⟩ : CNL K).vec
        = joinState (L - x)
          (loadState x (⟨u1.Va + t1.Va, u1.Ma + t1.Ma, u1.Vb + t1.Vb, u1.Mb + t1.Mb⟩ : CNL K).vec)
          (loadState (L - x)
            (⟨u2.Va + t2.Va, u2.Ma + t2.Ma, u2.Vb + t2.Vb, u2.Mb + t2.Mb⟩ : CNL K).vec) := by
      simp only [CNL.vec_add, loadState_add, join_add, e, e']
    have z : ∀ t : CNL K, (⟨0 + t.Va, 0 + t.Ma, 0 + t.Vb, 0 + t.Mb⟩ : CNL K) = t := by
      intro t
      simp
    refine ⟨_, _, _, ?_, ?_, ?_, hsum⟩
    · simp only [Member.refSum, if_true, b, a]
    · rcases o1 with _ | p <;> rcases o2 with _ | q <;>
        simp only [Member.refOpt] at b1 b2 <;>
        simp only [Option.toList, List.map_nil, List.map_cons, List.nil_append, List.cons_append,
          Member.refSum, if_true] <;>
        (try rw [if_neg (by omega)]) <;> simp only [a1, b1] <;>
        (try (cases b1; simp only [z]))
    · rcases o1 with _ | p <;> rcases o2 with _ | q <;>
        simp only [Member.refOpt] at b1 b2 <;>
        simp only [Option.toList, List.map_nil, List.map_cons, List.nil_append, List.cons_append,
          Member.refSum, if_true] <;>
        (try rw [if_neg (by push_cast; omega)]) <;> (try rw [if_pos (by push_cast; rfl)]) <;>
        simp only [a2, b2] <;> (try (cases b2; simp only [z]))

theorem BeamDef.setLoads_parse {b : BeamDef K} {ls : List (SpanLoad K)} (h : b.setLoads = .ok ls) :
    parseLM b.LM = .ok ls := by
  unfold BeamDef.setLoads at h
  split at h
  · cases h
  · rename_i l hl
    split at h
    · cases h; exact hl
    · cases h

theorem getD_split {α : Type*} (l1 l2 : List α) (z d : α) (k : ℕ) (h : l1.length = 2 * k + 2)
    (p : ℕ) : (l1 ++ [z, z] ++ l2).getD (splitDof k p) d = (l1 ++ l2).getD p d := by
  simp only [splitDof, List.append_assoc]
  by_cases hp : p < 2 * k + 2
  · rw [if_pos hp, List.getD_append _ _ _ _ (by omega), List.getD_append _ _ _ _ (by omega)]
  · rw [if_neg hp, List.getD_append_right _ _ _ _ (by omega),
      List.getD_append_right _ _ _ _ (by simp; omega), List.getD_append_right _ _ _ _ (by omega)]
    congr 1
    simp
    omega

theorem getD_split_new {α : Type*} (l1 l2 : List α) (z d : α) (k : ℕ) (h : l1.length = 2 * k + 2) :
    (l1 ++ [z, z] ++ l2).getD (2 * k + 2) d = z ∧ (l1 ++ [z, z] ++ l2).getD (2 * k + 3) d = z := by
  constructor
  · rw [List.append_assoc, List.getD_append_right _ _ _ _ (by omega), h]
    simp
  · rw [List.append_assoc, List.getD_append_right _ _ _ _ (by omega), h]
    simp

theorem BeamDef.SplitOf.system {b b' : BeamDef K} {pre post : List (Member K)} {EI L x : K}
    (h : b.SplitOf b' pre post EI L x) {s s' : System K} (hs : b.system = .ok s)
    (hs' : b'.system = .ok s') : s.IsSplit s' pre.length EI L x := by
  obtain ⟨n, kb, ⟨ls, hls, href⟩, r, pr, _⟩ := BeamDef.system_ok hs
  obtain ⟨n', kb', ⟨ls', hls', href'⟩, r', pr', _⟩ := BeamDef.system_ok hs'
  obtain ⟨l, l', hl, hl', hsp⟩ := h.loads
  have e1 := Except.ok.inj (hl.symm.trans (BeamDef.setLoads_parse hls))
  have e2 := Except.ok.inj (hl'.symm.trans (BeamDef.setLoads_parse hls'))
  subst e1 e2
  have hlen : b.members.length = pre.length + 1 + post.length := by rw [h.mem]; simp; omega
  have hlen' : b'.members.length = pre.length + 2 + post.length := by rw [h.mem']; simp; omega
  have g : ∀ (l : List (Member K)) (i : ℕ) (hi : i < l.length) (m : Member K),
      l[i]? = some m → l[i] = m := by
    intro l i hi m hm
    rw [List.getElem?_eq_getElem hi] at hm
    exact Option.some.inj hm
  have mB : ∀ i (hi : i < pre.length) (h1 : i < b.members.length) (h2 : i < b'.members.length),
      b'.members[i] = b.members[i] := by
    intro i hi h1 h2
    rw [g _ i h1 pre[i] (by rw [h.mem, List.getElem?_append_left hi, List.getElem?_eq_getElem hi]),
      g _ i h2 pre[i] (by rw [h.mem', List.getElem?_append_left hi, List.getElem?_eq_getElem hi])]
  have mA : ∀ i (hi : pre.length < i) (h1 : i < b.members.length) (h2 : i + 1 < b'.members.length),
      b'.members[i + 1] = b.members[i] := by
    intro i hi h1 h2
    obtain ⟨j, rfl⟩ : ∃ j, i = pre.length + (j + 1) := ⟨i - pre.length - 1, by omega⟩
    have hj : j < post.length := by omega
    have q1 : pre.length + (j + 1) - pre.length = j + 1 := by omega
    have q2 : pre.length + (j + 1) + 1 - pre.length = j + 1 + 1 := by omega
    rw [g _ _ h1 post[j] (by rw [h.mem, List.getElem?_append_right (by omega), q1,
        List.getElem?_cons_succ, List.getElem?_eq_getElem hj]),
      g _ _ h2 post[j] (by rw [h.mem', List.getElem?_append_right (by omega), q2,
        List.getElem?_cons_succ, List.getElem?_cons_succ, List.getElem?_eq_getElem hj])]
  have m0 : ∀ (h1 : pre.length < b.members.length), b.members[pre.length] = prism EI L :=
    fun h1 => g _ _ h1 _ (by rw [h.mem, List.getElem?_append_right le_rfl]; simp)
  have m1 : ∀ (h1 : pre.length < b'.members.length), b'.members[pre.length] = prism EI x :=
    fun h1 => g _ _ h1 _ (by rw [h.mem', List.getElem?_append_right le_rfl]; simp)
  have m2 : ∀ (h1 : pre.length + 1 < b'.members.length),
      b'.members[pre.length + 1] = prism EI (L - x) :=
    fun h1 => g _ _ h1 _ (by rw [h.mem', List.getElem?_append_right (by omega)]; simp)
  have kp : ∀ l : K, (prism EI l).spanK = .ok (kFF EI l) := fun l => rfl
  obtain ⟨r1, r2, hr1, hr, hr'⟩ := h.restr
  obtain ⟨p1, p2, hp1, hp, hp'⟩ := h.presc
  refine ⟨by omega, by omega, ?_, ?_, ?_, ?_, ?_, ?_, ?_, ?_, ?_, ?_⟩
  · intro i hi
    have h1 := kb i (by omega)
    have h2 := kb' i (by omega)
    rw [mB i hi (by omega) (by omega), h1] at h2
    obtain ⟨c, a1, a2⟩ := href i (by omega)
    obtain ⟨c', b1, b2⟩ := href' i (by omega)
    rw [mB i hi (by omega) (by omega), hsp.refSum_before _ i hi, a1] at b1
    cases b1
    exact ⟨(Except.ok.inj h2).symm, by rw [a2, b2]⟩
  · intro i hi hin
    have h1 := kb i (by omega)
    have h2 := kb' (i + 1) (by omega)
    rw [mA i hi (by omega) (by omega), h1] at h2
    obtain ⟨c, a1, a2⟩ := href i (by omega)
    obtain ⟨c', b1, b2⟩ := href' (i + 1) (by omega)
    rw [mA i hi (by omega) (by omega), hsp.refSum_after _ i hi, a1] at b1
    cases b1
    exact ⟨(Except.ok.inj h2).symm, by rw [a2, b2]⟩
  · have h1 := kb pre.length (by omega)
    rw [m0, kp] at h1
    exact (Except.ok.inj h1).symm
  · have h1 := kb' pre.length (by omega)
    rw [m1, kp] at h1
    exact (Except.ok.inj h1).symm
  · have h1 := kb' (pre.length + 1) (by omega)
    rw [m2, kp] at h1
    exact (Except.ok.inj h1).symm
  · obtain ⟨c, c1, c2, q, q1, q2, e⟩ := hsp.refSum_on (EI := EI) h.pos h.lt
    obtain ⟨u, a1, a2⟩ := href pre.length (by omega)
    obtain ⟨u1, b1, b2⟩ := href' pre.length (by omega)
    obtain ⟨u2, d1, d2⟩ := href' (pre.length + 1) (by omega)
    rw [m0, q] at a1
    rw [m1, q1] at b1
    rw [m2, q2] at d1
    cases a1
    cases b1
    cases d1
    rw [a2, b2, d2, e]
  · intro p
    rw [r', r, hr', hr, getD_split _ _ _ _ _ hr1]
  · intro p
    rw [pr', pr, hp', hp, getD_split _ _ _ _ _ hp1]
  · rw [r', r', hr']
    exact getD_split_new _ _ _ _ _ hr1
  · rw [pr', pr', hp']
    exact getD_split_new _ _ _ _ _ hp1

/-- **C50.**  Dividing a slender prismatic fixed-fixed span of any beam by a node
without support, at any position and with the loads divided there, leaves the
displacements of the original nodes, the reactions, the spring forces and the end
forces of every member as they were.  The two analyses may use different solvers
and stability checks; the original beam is not a mechanism. -/
theorem C50_split_span (b b' : BeamDef K) (pre post : List (Member K)) (EI L x : K)
    (h : b.SplitOf b' pre post EI L x) (stable stable' : System K → Bool) (solve solve' : Solver K)
    (hs : solve.Sound) (hs' : solve'.Sound) (res res' : Result K)
    (hr : b.analyze stable solve = .ok res) (hr' : b'.analyze stable' solve' = .ok res')
    (hns : ∀ s, b.system = .ok s → s.Nonsingular) :
    (∀ p < 2 * b.members.length + 2, res'.d (splitDof pre.length p) = res.d p) ∧
      res'.r = res.r ∧ res'.rs = res.rs ∧
      (∀ i < pre.length, res'.fmbr i = res.fmbr i) ∧
      (∀ i, pre.length < i → i < b.members.length → res'.fmbr (i + 1) = res.fmbr i) ∧
      res.fmbr pre.length = ![res'.fmbr pre.length 0, res'.fmbr pre.length 1,
        res'.fmbr (pre.length + 1) 2, res'.fmbr (pre.length + 1) 3] := by
  obtain ⟨s, h1, h2⟩ := BeamDef.analyze_ok hr
  obtain ⟨s', h1', h2'⟩ := BeamDef.analyze_ok hr'
  obtain ⟨hn, _⟩ := BeamDef.system_ok h1
  obtain ⟨a1, a2, a3, a4, _⟩ := System.analyze_ok hs h2
  obtain ⟨b1, b2, b3, b4, _⟩ := System.analyze_ok hs' h2'
  have hsp := h.system h1 h1'
  have h0 : ∀ c : Fin 2, s'.residual res'.d (2 * (pre.length + 1) + c) = 0 :=
    fun c => b1.2 _ (hsp.new_lt c) (hsp.constr_new c)
  have hd : ∀ p < s.N, res'.d (splitDof pre.length p) = res.d p := fun p hp =>
    System.IsSolution.unique (hns s h1) (hsp.solution h.pos h.lt res'.d b1) a1 p hp
  have hres : ∀ p, s.residual (fun p => res'.d (splitDof pre.length p)) p = s.residual res.d p := by
    intro p
    simp only [System.residual, mulN]
    congr 1
    apply Finset.sum_congr rfl
    intro q hq
    rw [hd q (Finset.mem_range.1 hq)]
  obtain ⟨q1, q2⟩ := hsp.reactions h.pos h.lt res'.d h0
  have hel : ∀ i < s.n, elemVec res.d i = elemVec (fun p => res'.d (splitDof pre.length p)) i := by
    intro i hi
    ext a
    have := a.isLt
    exact (hd _ (by simp only [System.N]; omega)).symm
  refine ⟨fun p hp => hd p (by simp only [System.N, hn]; exact hp), ?_, ?_, ?_, ?_, ?_⟩
  · rw [a2, b2, q1]
    simp only [System.reactions]
    apply List.map_congr_left
    intro p _
    exact hres p
  · rw [a3, b3, q2]
    simp only [System.springForces]
    apply List.map_congr_left
    intro p hp
    rw [hd p (by simpa using (List.mem_filter.1 hp).1)]
  · intro i hi
    have hk := hsp.hk
    rw [a4, b4, System.endForces, System.endForces, (hsp.before i hi).1, (hsp.before i hi).2,
      hel i (by omega)]
    congr 2
    ext a
    have := a.isLt
    simp only [elemVec, splitDof]
    rw [if_pos (by omega)]
  · intro i hi hin
    rw [a4, b4, System.endForces, System.endForces, (hsp.after i hi (by omega)).1,
      (hsp.after i hi (by omega)).2, hel i (by omega)]
    congr 2
    ext a
    simp only [elemVec, splitDof]
    rw [if_neg (by omega)]
    congr 1
    omega
  · have := hsp.endForces h.pos h.lt res'.d h0
    rw [b4, ← this, a4, System.endForces, System.endForces, hel _ hsp.hk]

/-- **C50**, the divided beam can be analysed: if the original beam is not a
mechanism, neither is the divided one. -/
theorem C50_split_not_mechanism (b b' : BeamDef K) (pre post : List (Member K)) (EI L x : K)
    (hE : EI ≠ 0) (h : b.SplitOf b' pre post EI L x) (s s' : System K) (hs : b.system = .ok s)
    (hs' : b'.system = .ok s') (hns : s.Nonsingular) : s'.Nonsingular :=
  (h.system hs hs').nonsingular hE h.pos h.lt hns

/-- C50 at a simple span of length 2 under a UDL and a mid-span load, divided at a
quarter point: the end rotations `∓7/6` and the reactions `18` stay as they were. -/
example : ∃ res res' : Result ℚ,
    (exSimple none none [⟨1, 1, [12]⟩, ⟨1, 2, [12, 1]⟩]).analyze (fun _ => true)
      (trySolver fun p => [0, -7 / 6, 0, 7 / 6].getD p 0) = .ok res ∧
    (⟨[prism 6 (1 / 2), prism 6 (2 - 1 / 2)], [-1, 0, 0, 0, -1, 0],
      [none, none, none, none, none, none],
      [⟨1, 1, [12]⟩, ⟨2, 1, [12]⟩, ⟨2, 2, [12, 1 - 1 / 2]⟩]⟩ : BeamDef ℚ).analyze (fun _ => true)
      (trySolver fun p => [0, -7 / 6, -101 / 192, -5 / 6, 0, 7 / 6].getD p 0) = .ok res' ∧
    res'.r = res.r ∧ res.r = [18, 18] ∧ res'.d 5 = res.d 3 := by
  obtain ⟨res, h1, e1⟩ := ok_of_map (x := (exSimple none none
      [⟨1, 1, [12]⟩, ⟨1, 2, [12, 1]⟩]).analyze (fun _ => true)
      (trySolver fun p => [0, -7 / 6, 0, 7 / 6].getD p 0)) (f := fun r => r.r) (y := [18, 18])
      (by decide +kernel)
  obtain ⟨res', h2, -⟩ := ok_of_map (x := (⟨[prism 6 (1 / 2), prism 6 (2 - 1 / 2)],
      [-1, 0, 0, 0, -1, 0], [none, none, none, none, none, none],
      [⟨1, 1, [12]⟩, ⟨2, 1, [12]⟩, ⟨2, 2, [12, 1 - 1 / 2]⟩]⟩ : BeamDef ℚ).analyze (fun _ => true)
      (trySolver fun p => [0, -7 / 6, -101 / 192, -5 / 6, 0, 7 / 6].getD p 0)) (f := fun _ => ())
      (y := ()) (by decide +kernel)
  have hsp : (exSimple none none [⟨1, 1, [12]⟩, ⟨1, 2, [12, 1]⟩]).SplitOf
      ⟨[prism 6 (1 / 2), prism 6 (2 - 1 / 2)], [-1, 0, 0, 0, -1, 0],
        [none, none, none, none, none, none],
        [⟨1, 1, [12]⟩, ⟨2, 1, [12]⟩, ⟨2, 2, [12, 1 - 1 / 2]⟩]⟩ [] [] 6 2 (1 / 2) := by
    refine ⟨rfl, rfl, by norm_num, by norm_num, ⟨[-1, 0], [-1, 0], rfl, rfl, rfl⟩,
      ⟨[none, none], [none, none], rfl, rfl, rfl⟩, _, _, rfl, rfl, ?_⟩
    exact .on _ _ _ _ _ (.udl 12) (.on _ _ _ _ _ (.plR 12 1 (by norm_num) (by norm_num)) .nil)
  obtain ⟨a, b, -⟩ := C50_split_span _ _ [] [] 6 2 (1 / 2) hsp _ _ _ _ (trySolver_sound _)
    (trySolver_sound _) res res' h1 h2 (fun s hs => exSimple_nonsingular none none _ s hs)
  exact ⟨res, res', h1, h2, b, e1, a 3 (by simp [exSimple])⟩

end PyCBA
