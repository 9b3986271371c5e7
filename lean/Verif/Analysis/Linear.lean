import Verif.Analysis.Equil
import Verif.Load.ReleaseProps

set_option linter.unusedSectionVars false
set_option linter.unusedSimpArgs false

/-!
Linearity and uniqueness of the analysis: superposition (C20), independence of
the elimination order and of the solver (C21), reciprocity (C22), rigid
settlements (C24).
-/

namespace PyCBA

open Matrix Finset

variable {K : Type*} [Field K] [LinearOrder K] [IsStrictOrderedRing K]

/-- The restrained stiffness is nonsingular: only the zero displacement vanishes at
the restrained degrees of freedom and needs no force at the others. -/
def System.Nonsingular (s : System K) : Prop :=
  ∀ x : ℕ → K, (∀ p < s.N, (s.constr p).isSome → x p = 0) →
    (∀ p < s.N, s.constr p = none → mulN s.N s.assemble x p = 0) → ∀ p < s.N, x p = 0

theorem mulN_lin (N : ℕ) (k : ℕ → ℕ → K) (x y : ℕ → K) (α β : K) (p : ℕ) :
    mulN N k (fun q => α * x q + β * y q) p = α * mulN N k x p + β * mulN N k y p := by
  simp only [mulN, Finset.mul_sum, ← Finset.sum_add_distrib]
  apply Finset.sum_congr rfl
  intro q _
  ring

/-- What an analysis establishes about its displacements. -/
def System.IsSolution (s : System K) (d : ℕ → K) : Prop :=
  (∀ p < s.N, ∀ v, s.constr p = some v → d p = v) ∧
    ∀ p < s.N, s.constr p = none → s.residual d p = 0

theorem System.IsSolution.unique {s : System K} (hns : s.Nonsingular) {d d' : ℕ → K}
    (h : s.IsSolution d) (h' : s.IsSolution d') (p : ℕ) (hp : p < s.N) : d p = d' p := by
  have := hns (fun q => 1 * d q + (-1) * d' q) (fun p hp hc => by
      obtain ⟨v, hv⟩ := Option.isSome_iff_exists.1 hc
      rw [h.1 p hp v hv, h'.1 p hp v hv]
      ring) (fun p hp hc => by
      rw [mulN_lin]
      have e1 := h.2 p hp hc
      have e2 := h'.2 p hp hc
      simp only [System.residual] at e1 e2
      linear_combination e1 - e2) p hp
  linear_combination this

/-! ## C21 -/

/-- **C21**, solver: on a beam whose restrained stiffness is nonsingular any two
linear solvers give the same displacements, reactions and end forces. -/
theorem C21_solver_independent (b : BeamDef K) (stable : System K → Bool)
    (solve solve' : Solver K) (hs : solve.Sound) (hs' : solve'.Sound) (res res' : Result K)
    (h : b.analyze stable solve = .ok res) (h' : b.analyze stable solve' = .ok res')
    (hns : ∀ s, b.system = .ok s → s.Nonsingular) :
    (∀ p < 2 * b.members.length + 2, res.d p = res'.d p) ∧ res.r = res'.r ∧ res.rs = res'.rs ∧
      ∀ i < b.members.length, res.fmbr i = res'.fmbr i := by
  obtain ⟨s, h1, h2⟩ := BeamDef.analyze_ok h
  obtain ⟨s', h1', h2'⟩ := BeamDef.analyze_ok h'
  rw [h1] at h1'
  cases h1'
  obtain ⟨hn, _⟩ := BeamDef.system_ok h1
  obtain ⟨a1, a2, a3, a4, _⟩ := System.analyze_ok hs h2
  obtain ⟨b1, b2, b3, b4, _⟩ := System.analyze_ok hs' h2'
  have hd : ∀ p < s.N, res.d p = res'.d p :=
    fun p hp => System.IsSolution.unique (hns s h1) a1 b1 p hp
  have hres : ∀ p, s.residual res.d p = s.residual res'.d p := by
    intro p
    simp only [System.residual, mulN]
    congr 1
    apply Finset.sum_congr rfl
    intro q hq
    rw [hd q (Finset.mem_range.1 hq)]
  refine ⟨fun p hp => hd p (by simp only [System.N, hn]; exact hp), ?_, ?_, ?_⟩
  · rw [a2, b2]
    simp only [System.reactions]
    apply List.map_congr_left
    intro p _
    exact hres p
  · rw [a3, b3]
    simp only [System.springForces]
    apply List.map_congr_left
    intro p hp
    rw [hd p (by simpa using (List.mem_filter.1 hp).1)]
  · intro i hi
    rw [a4, b4]
    simp only [System.endForces]
    have : elemVec res.d i = elemVec res'.d i := by
      ext a
      have := a.isLt
      exact hd _ (by simp only [System.N, hn]; omega)
    rw [this]

/-- **C21**, elimination order: going through the restrained degrees of freedom in
any order gives the same reduced matrix and right-hand side. -/
theorem C21_elimination_order (c : ℕ → Option K) (l l' : List ℕ) (hl : l.Nodup) (hp : l.Perm l')
    (k : ℕ → ℕ → K) (f : ℕ → K) : applyBCOn c l (k, f) = applyBCOn c l' (k, f) := by
  obtain ⟨h1, h2⟩ := applyBCOn_eq c l hl k f
  obtain ⟨h1', h2'⟩ := applyBCOn_eq c l' (hp.nodup_iff.1 hl) k f
  refine Prod.ext ?_ ?_
  · funext p q
    rw [h1, h1']
    simp only [hp.mem_iff]
  · funext p
    rw [h2, h2']
    simp only [hp.mem_iff]
    have := (hp.map fun q => k p q * (c q).getD 0).sum_eq
    rw [this]

/-! ## C20 -/

/-- `s` is a linear combination of the load cases `s1`, `s2` on one structure. -/
structure System.IsComb (α β : K) (s s1 s2 : System K) : Prop where
  n1 : s1.n = s.n
  n2 : s2.n = s.n
  kb1 : ∀ i < s.n, s1.kb i = s.kb i
  kb2 : ∀ i < s.n, s2.kb i = s.kb i
  r1 : ∀ p, s1.r p = s.r p
  r2 : ∀ p, s2.r p = s.r p
  ref : ∀ i < s.n, s.ref i = α • s1.ref i + β • s2.ref i
  c1 : ∀ p < s.N, (s1.constr p).isSome = (s.constr p).isSome
  c2 : ∀ p < s.N, (s2.constr p).isSome = (s.constr p).isSome
  c : ∀ p < s.N, (s.constr p).getD 0 = α * (s1.constr p).getD 0 + β * (s2.constr p).getD 0

theorem System.assemble_congr {s s' : System K} (hn : s'.n = s.n) (hk : ∀ i < s.n, s'.kb i = s.kb i)
    (hr : ∀ p, s'.r p = s.r p) : s'.assemble = s.assemble := by
  funext p q
  rw [System.assemble_eq, System.assemble_eq]
  simp only [System.N, hn, hr]
  congr 1
  apply Finset.sum_congr rfl
  intro i hi
  rw [hk i (Finset.mem_range.1 hi)]

theorem blockVec_lin (s : ℕ) (u v : Vec4 K) (α β : K) (p : ℕ) :
    blockVec s (α • u + β • v) p = α * blockVec s u p + β * blockVec s v p := by
  unfold blockVec
  split <;> simp

theorem System.IsComb.residual {α β : K} {s1 s2 s : System K} (h : s.IsComb α β s1 s2)
    (d1 d2 : ℕ → K) (p : ℕ) :
    s.residual (fun q => α * d1 q + β * d2 q) p = α * s1.residual d1 p + β * s2.residual d2 p := by
  have N1 : s1.N = s.N := by simp [System.N, h.n1]
  have N2 : s2.N = s.N := by simp [System.N, h.n2]
  simp only [System.residual, mulN_lin, N1, N2, System.assemble_congr h.n1 h.kb1 h.r1,
    System.assemble_congr h.n2 h.kb2 h.r2, System.forces_eq, h.n1, h.n2]
  have : ∑ i ∈ range s.n, blockVec (2 * i) (s.ref i) p
      = α * ∑ i ∈ range s.n, blockVec (2 * i) (s1.ref i) p
        + β * ∑ i ∈ range s.n, blockVec (2 * i) (s2.ref i) p := by
    rw [Finset.mul_sum, Finset.mul_sum, ← Finset.sum_add_distrib]
    apply Finset.sum_congr rfl
    intro i hi
    rw [h.ref i (Finset.mem_range.1 hi), blockVec_lin]
  rw [this]
  ring

theorem zipWith_map_same {γ δ : Type*} (l : List γ) (f : δ → δ → δ) (a b : γ → δ) :
    List.zipWith f (l.map a) (l.map b) = l.map fun x => f (a x) (b x) := by
  induction l with
  | nil => rfl
  | cons x l ih => simp [ih]

/-- Superposition at the level of the numbers an analysis works with. -/
theorem System.IsComb.superpose {α β : K} {s1 s2 s : System K} (h : s.IsComb α β s1 s2)
    (hns : s.Nonsingular) {solve1 solve2 solve : Solver K} (hs1 : solve1.Sound)
    (hs2 : solve2.Sound) (hs : solve.Sound) {res1 res2 res : Result K}
    (h1 : s1.analyze solve1 = .ok res1) (h2 : s2.analyze solve2 = .ok res2)
    (h3 : s.analyze solve = .ok res) :
    (∀ p < s.N, res.d p = α * res1.d p + β * res2.d p) ∧
    res.r = List.zipWith (fun x y => α * x + β * y) res1.r res2.r ∧
    res.rs = List.zipWith (fun x y => α * x + β * y) res1.rs res2.rs ∧
    ∀ i < s.n, res.fmbr i = α • res1.fmbr i + β • res2.fmbr i := by
  obtain ⟨a1, a2, a3, a4, _⟩ := System.analyze_ok hs1 h1
  obtain ⟨b1, b2, b3, b4, _⟩ := System.analyze_ok hs2 h2
  obtain ⟨c1, c2, c3, c4, _⟩ := System.analyze_ok hs h3
  have N1 : s1.N = s.N := by simp [System.N, h.n1]
  have N2 : s2.N = s.N := by simp [System.N, h.n2]
  have hsol : s.IsSolution fun q => α * res1.d q + β * res2.d q := by
    constructor
    · intro p hp v hv
      have e1 : (s1.constr p).isSome := by rw [h.c1 p hp, hv]; rfl
      have e2 : (s2.constr p).isSome := by rw [h.c2 p hp, hv]; rfl
      obtain ⟨v1, hv1⟩ := Option.isSome_iff_exists.1 e1
      obtain ⟨v2, hv2⟩ := Option.isSome_iff_exists.1 e2
      have e3 := h.c p hp
      simp only [hv, hv1, hv2, Option.getD_some] at e3
      simp only [a1.1 p (by omega) v1 hv1, b1.1 p (by omega) v2 hv2, e3]
    · intro p hp hv
      have e1 : s1.constr p = none := by
        have := h.c1 p hp
        rw [hv] at this
        simpa using this
      have e2 : s2.constr p = none := by
        have := h.c2 p hp
        rw [hv] at this
        simpa using this
      rw [h.residual, a1.2 p (by omega) e1, b1.2 p (by omega) e2]
      ring
  have hd : ∀ p < s.N, res.d p = α * res1.d p + β * res2.d p :=
    fun p hp => System.IsSolution.unique hns c1 hsol p hp
  have hres : ∀ p, s.residual res.d p = α * s1.residual res1.d p + β * s2.residual res2.d p := by
    intro p
    rw [← h.residual]
    simp only [System.residual, mulN]
    congr 1
    apply Finset.sum_congr rfl
    intro q hq
    rw [hd q (Finset.mem_range.1 hq)]
  refine ⟨hd, ?_, ?_, ?_⟩
  · rw [a2, b2, c2]
    simp only [System.reactions, N1, N2, h.r1, h.r2]
    rw [zipWith_map_same]
    apply List.map_congr_left
    intro p _
    exact hres p
  · rw [a3, b3, c3]
    simp only [System.springForces, N1, N2, h.r1, h.r2]
    rw [zipWith_map_same]
    apply List.map_congr_left
    intro p hp
    rw [hd p (by simpa using (List.mem_filter.1 hp).1)]
    ring
  · intro i hi
    rw [a4, b4, c4]
    simp only [System.endForces, h.kb1 i hi, h.kb2 i hi, h.ref i hi]
    have : elemVec res.d i = α • elemVec res1.d i + β • elemVec res2.d i := by
      ext a
      have := a.isLt
      simp only [elemVec, Pi.add_apply, Pi.smul_apply, smul_eq_mul]
      exact hd _ (by simp only [System.N]; omega)
    rw [this, mulVec_add, mulVec_smul, mulVec_smul]
    ext a
    simp
    ring

theorem CNL.vec_lin (c t : CNL K) (α β : K) : (α • c + β • t).vec = α • c.vec + β • t.vec := by
  ext p
  fin_cases p <;> simp [CNL.vec, CNL.add_def, CNL.smul_def]

theorem Member.refSum_append (m : Member K) (i : ℕ) (l1 l2 : List (SpanLoad K)) (c1 c2 : CNL K)
    (h1 : m.refSum i l1 = .ok c1) (h2 : m.refSum i l2 = .ok c2) :
    m.refSum i (l1 ++ l2) = .ok (c1 + c2) := by
  induction l1 generalizing c1 with
  | nil =>
    cases h1
    simp [h2, CNL.add_def]
  | cons l l1 ih =>
    simp only [Member.refSum, List.cons_append] at h1 ⊢
    by_cases hl : l.iSpan = (i : ℤ)
    · rw [if_pos hl] at h1 ⊢
      split at h1
      · cases h1
      · rename_i c hc
        split at h1
        · cases h1
        · rename_i t ht
          cases h1
          rw [ih t ht]
          simp only [CNL.add_def, Except.ok.injEq, CNL.mk.injEq]
          refine ⟨?_, ?_, ?_, ?_⟩ <;> ring
    · rw [if_neg hl] at h1 ⊢
      exact ih c1 h1

theorem BeamDef.setLoads_append (b : BeamDef K) (LM1 LM2 : List (Row K)) (l1 l2 : List (SpanLoad K))
    (h1 : ({ b with LM := LM1 } : BeamDef K).setLoads = .ok l1)
    (h2 : ({ b with LM := LM2 } : BeamDef K).setLoads = .ok l2) :
    ({ b with LM := addLM LM1 LM2 } : BeamDef K).setLoads = .ok (l1 ++ l2) := by
  unfold BeamDef.setLoads at h1 h2 ⊢
  simp only [parseLM_append] at h1 h2 ⊢
  cases e1 : parseLM LM1 with
  | error e => simp [e1] at h1
  | ok x1 =>
    cases e2 : parseLM LM2 with
    | error e => simp [e2] at h2
    | ok x2 =>
      simp only [e1, e2] at h1 h2 ⊢
      split at h1
      · rename_i a1
        split at h2
        · rename_i a2
          cases h1
          cases h2
          rw [if_pos]
          rw [List.all_append, a1, a2]
          rfl
        · cases h2
      · cases h1

/-- The prescribed values of three load cases at a degree of freedom with
restraint `ρ` are in the relation `o = α o1 + β o2`: given in all three, absent in all
three, or (at a rigid support, where absent means zero) any mixture. -/
def PrescComb (α β ρ : K) (o1 o2 o : Option K) : Prop :=
  o.getD 0 = α * o1.getD 0 + β * o2.getD 0 ∧
    (0 ≤ ρ → (o1.isSome = o.isSome ∧ o2.isSome = o.isSome))

theorem PrescComb.constr {α β ρ : K} {o1 o2 o : Option K} (h : PrescComb α β ρ o1 o2 o)
    (c : Option K → Option K)
    (hc : ∀ o, c o = match o with | some v => some v | none => if ρ < 0 then some 0 else none) :
    (c o1).isSome = (c o).isSome ∧ (c o2).isSome = (c o).isSome ∧
      (c o).getD 0 = α * (c o1).getD 0 + β * (c o2).getD 0 := by
  obtain ⟨h1, h2⟩ := h
  have hget : ∀ o, (c o).getD 0 = o.getD 0 := by
    intro o
    rw [hc]
    rcases o with _ | v
    · simp only [Option.getD_none]
      split <;> rfl
    · rfl
  rw [hget, hget, hget]
  refine ⟨?_, ?_, h1⟩
  all_goals
    rw [hc, hc]
    rcases lt_or_ge ρ 0 with hρ | hρ
    · rcases o1 with _ | _ <;> rcases o2 with _ | _ <;> rcases o with _ | _ <;> simp [hρ]
    · obtain ⟨h3, h4⟩ := h2 hρ
      rcases o1 with _ | _ <;> rcases o2 with _ | _ <;> rcases o with _ | _ <;>
        simp_all [not_lt.mpr hρ]

/-- **C20**, sum: on a beam whose restrained stiffness is nonsingular, the results for
two load matrices and two sets of prescribed displacements together are the sums of
the separate results, whatever solvers are used. -/
theorem C20_superposition (b : BeamDef K) (LM1 LM2 : List (Row K)) (p1 p2 p : List (Option K))
    (hp : ∀ i : ℕ, PrescComb 1 1 (b.restraints.getD i 0) (p1.getD i none) (p2.getD i none)
      (p.getD i none))
    (stable stable1 stable2 : System K → Bool) (solve solve1 solve2 : Solver K)
    (hs : solve.Sound) (hs1 : solve1.Sound) (hs2 : solve2.Sound) (res res1 res2 : Result K)
    (h1 : ({ b with LM := LM1, presc := p1 } : BeamDef K).analyze stable1 solve1 = .ok res1)
    (h2 : ({ b with LM := LM2, presc := p2 } : BeamDef K).analyze stable2 solve2 = .ok res2)
    (h : ({ b with LM := addLM LM1 LM2, presc := p } : BeamDef K).analyze stable solve = .ok res)
    (hns : ∀ s, ({ b with LM := addLM LM1 LM2, presc := p } : BeamDef K).system = .ok s →
      s.Nonsingular) :
    (∀ q < 2 * b.members.length + 2, res.d q = res1.d q + res2.d q) ∧
    res.r = List.zipWith (· + ·) res1.r res2.r ∧ res.rs = List.zipWith (· + ·) res1.rs res2.rs ∧
    ∀ i < b.members.length, res.fmbr i = res1.fmbr i + res2.fmbr i := by
  obtain ⟨s1, e1, a1⟩ := BeamDef.analyze_ok h1
  obtain ⟨s2, e2, a2⟩ := BeamDef.analyze_ok h2
  obtain ⟨s, e, a⟩ := BeamDef.analyze_ok h
  obtain ⟨n1, k1, ⟨l1, hl1, c1⟩, r1, q1, _⟩ := BeamDef.system_ok e1
  obtain ⟨n2, k2, ⟨l2, hl2, c2⟩, r2, q2, _⟩ := BeamDef.system_ok e2
  obtain ⟨n3, k3, ⟨l3, hl3, c3⟩, r3, q3, _⟩ := BeamDef.system_ok e
  simp only at n1 k1 c1 r1 q1 n2 k2 c2 r2 q2 n3 k3 c3 r3 q3
  have hl : l3 = l1 ++ l2 := by
    have h4 := BeamDef.setLoads_append b LM1 LM2 l1 l2 hl1 hl2
    have h5 : ({ b with LM := addLM LM1 LM2 } : BeamDef K).setLoads = .ok l3 := hl3
    rw [h4] at h5
    cases h5
    rfl
  have hconstr : ∀ q, (s1.constr q).isSome = (s.constr q).isSome ∧
      (s2.constr q).isSome = (s.constr q).isSome ∧
      (s.constr q).getD 0 = 1 * (s1.constr q).getD 0 + 1 * (s2.constr q).getD 0 := by
    intro q
    have := (hp q).constr (fun o => match o with
      | some v => some v | none => if b.restraints.getD q 0 < 0 then some 0 else none) fun _ => rfl
    simp only [System.constr, q1, q2, q3, r1, r2, r3]
    exact this
  have hcomb : s.IsComb 1 1 s1 s2 := by
    refine ⟨by omega, by omega, ?_, ?_, ?_, ?_, ?_, ?_, ?_, ?_⟩
    · intro i hi
      rw [n3] at hi
      have := (k1 i hi).symm.trans (k3 i hi)
      exact Except.ok.inj this
    · intro i hi
      rw [n3] at hi
      have := (k2 i hi).symm.trans (k3 i hi)
      exact Except.ok.inj this
    · intro q; rw [r1, r3]
    · intro q; rw [r2, r3]
    · intro i hi
      rw [n3] at hi
      obtain ⟨x1, f1, g1⟩ := c1 i hi
      obtain ⟨x2, f2, g2⟩ := c2 i hi
      obtain ⟨x3, f3, g3⟩ := c3 i hi
      rw [hl, Member.refSum_append _ i l1 l2 x1 x2 f1 f2] at f3
      cases f3
      rw [g1, g2, g3]
      have := CNL.vec_lin x1 x2 (1 : K) 1
      simp only [one_smul] at this ⊢
      rw [← this]
      simp [CNL.smul_def]
    · exact fun q _ => (hconstr q).1
    · exact fun q _ => (hconstr q).2.1
    · exact fun q _ => (hconstr q).2.2
  have := hcomb.superpose (hns s e) hs1 hs2 hs a1 a2 a
  simp only [one_mul, one_smul, System.N, n3] at this
  exact this

/-! ### Scaling -/

theorem releaseRef_smul (g : K) (c : CNL K) (k : Except PyErr (Mat4 K)) (L : K) (et : EType) :
    releaseRef (g • c) k L et = (releaseRef c k L et).map (g • ·) := by
  cases et with
  | FF => rfl
  | PP =>
    simp only [releaseRef, Except.map, CNL.smul_def, Except.ok.injEq, CNL.mk.injEq]
    refine ⟨?_, ?_, ?_, ?_⟩ <;> ring
  | FP =>
    rcases k with e | k
    · rfl
    · simp only [releaseRef]
      split
      · rfl
      · simp only [Except.map, CNL.smul_def, Except.ok.injEq, CNL.mk.injEq]
        refine ⟨?_, ?_, ?_, ?_⟩ <;> ring
  | PF =>
    rcases k with e | k
    · rfl
    · simp only [releaseRef]
      split
      · rfl
      · simp only [Except.map, CNL.smul_def, Except.ok.injEq, CNL.mk.injEq]
        refine ⟨?_, ?_, ?_, ?_⟩ <;> ring

theorem ssM_scale (g : K) (ld : Load K) (L x : K) : (ld.scale g).ssM L x = g * ld.ssM L x := by
  simp only [Load.ssM, stn_scale]
  rcases ld.stn L x with _ | s <;> simp [Stn.smul_def]

theorem ssV_scale (g : K) (ld : Load K) (L x : K) : (ld.scale g).ssV L x = g * ld.ssV L x := by
  simp only [Load.ssV, stn_scale]
  rcases ld.stn L x with _ | s <;> simp [Stn.smul_def]

theorem kappaImp_scale (g : K) (ld : Load K) (x : K) :
    (ld.scale g).kappaImp x = g * ld.kappaImp x := by
  cases ld <;> simp [Load.scale, Load.kappaImp, polyInc_scale]

theorem endsZeroed_scale (g a b : K) (f f' : K → K) (h : ∀ x, f' x = g * f x) (x : K) :
    endsZeroed a b f' x = g * endsZeroed a b f x := by
  simp only [endsZeroed]
  split <;> simp [h]

theorem theta0_scale (g : K) (ld : Load K) (EI : Rigidity K) (GAv : Option (Rigidity K)) (L : K) :
    theta0 (ld.scale g) EI GAv L = (g * (theta0 ld EI GAv L).1, g * (theta0 ld EI GAv L).2) := by
  have hM : ∀ a b x, endsZeroed a b ((ld.scale g).ssM L) x = g * endsZeroed a b (ld.ssM L) x :=
    fun a b x => endsZeroed_scale g a b _ _ (ssM_scale g ld L) x
  have hV : ∀ a b x, endsZeroed a b ((ld.scale g).ssV L) x = g * endsZeroed a b (ld.ssV L) x :=
    fun a b x => endsZeroed_scale g a b _ _ (ssV_scale g ld L) x
  simp only [theta0]
  refine Prod.ext ?_ ?_
  all_goals
    simp only
    rw [← List.sum_map_mul_left]
    refine congrArg List.sum (List.map_congr_left fun p _ => ?_)
    rw [mul_add]
    refine congrArg₂ (· + ·) (simpson_scale _ g _ _ (fun x => ?_) _ _) ?_
    · simp only [hM, kappaImp_scale]
      ring
    · rcases GAv with _ | gv
      · simp
      · refine simpson_scale _ g _ _ (fun x => ?_) _ _
        simp only [hV]
        ring

theorem icCnlSection_scale (g : K) (k : List K) (s : SecData K) (L : K) :
    icCnlSection (k.map (g * ·)) s L = (icCnlSection k s L).map (g • ·) := by
  have hsum : ∀ (w : K → K), ((pieces s.bps L).map fun p =>
      simpson 1000 (fun x => w x * polyInc (k.map (g * ·)) x) p.1 p.2).sum
      = g * ((pieces s.bps L).map fun p =>
      simpson 1000 (fun x => w x * polyInc k x) p.1 p.2).sum := by
    intro w
    rw [← List.sum_map_mul_left]
    refine congrArg List.sum (List.map_congr_left fun p _ => ?_)
    refine simpson_scale _ g _ _ (fun x => ?_) _ _
    simp only [polyInc_scale]
    ring
  simp only [icCnlSection]
  rw [hsum fun x => 1 - x / L, hsum fun x => -x / L]
  cases inv2 (flexibility s.nodes L) with
  | error e => rfl
  | ok Kth =>
    simp only [Except.map, CNL.smul_def, Except.ok.injEq, CNL.mk.injEq]
    refine ⟨?_, ?_, ?_, ?_⟩ <;> ring

theorem Member.cnl_scale (m : Member K) (g : K) (ld : Load K) :
    m.cnl (ld.scale g) = (m.cnl ld).map (g • ·) := by
  have hgen : (match (ld.scale g).getCnl m.L with
      | .error e => Except.error e
      | .ok (.plainList _) => .error .attributeError
      | .ok (.cnl c) => .ok c) = (match ld.getCnl m.L with
      | .error e => Except.error e
      | .ok (.plainList _) => .error .attributeError
      | .ok (.cnl c) => Except.ok c).map (g • ·) := by
    rw [getCnl_scale]
    cases ld.getCnl m.L with
    | error e => rfl
    | ok r => cases r <;> rfl
  rcases hE : m.EI with e | s
  · cases ld with
    | ic k EI =>
      simp only [Member.cnl, hE, Load.scale, icCnl_scale, Except.map]
    | _ =>
      simp only [Member.cnl, hE, Load.scale] at hgen ⊢
      exact hgen
  · cases ld with
    | ic k EI =>
      simp only [Member.cnl, hE, Load.scale, icCnlSection_scale]
    | _ =>
      simp only [Member.cnl, hE, Load.scale] at hgen ⊢
      exact hgen

theorem refFF_smul (g : K) (c : CNL K) (Ma Mb L : K) :
    refFF (g • c) (g * Ma) (g * Mb) L = g • refFF c Ma Mb L := by
  ext <;> simp only [refFF, CNL.smul_def] <;> ring

theorem refTimoFF_smul (g : K) (c : CNL K) (EI GAv L : K) :
    refTimoFF (g • c) EI GAv L = g • refTimoFF c EI GAv L := by
  ext <;> simp only [refTimoFF, refFF, CNL.smul_def] <;> ring

theorem Member.ref_scale (m : Member K) (g : K) (ld : Load K) :
    m.ref (ld.scale g) = (m.ref ld).map (g • ·) := by
  have hlin : ∀ (c : CNL K) (i : Matrix (Fin 2) (Fin 2) K) (EI : Rigidity K)
      (GAv : Option (Rigidity K)),
      refFF (g • c) (i 0 0 * (theta0 (ld.scale g) EI GAv m.L).1
          + i 0 1 * (theta0 (ld.scale g) EI GAv m.L).2)
        (i 1 0 * (theta0 (ld.scale g) EI GAv m.L).1
          + i 1 1 * (theta0 (ld.scale g) EI GAv m.L).2) m.L
      = g • refFF c (i 0 0 * (theta0 ld EI GAv m.L).1 + i 0 1 * (theta0 ld EI GAv m.L).2)
        (i 1 0 * (theta0 ld EI GAv m.L).1 + i 1 1 * (theta0 ld EI GAv m.L).2) m.L := by
    intro c i EI GAv
    rw [← refFF_smul, theta0_scale]
    congr 1 <;> ring
  obtain ⟨EI, L, et, GAv⟩ := m
  simp only [Member.ref, Member.cnl_scale]
  cases (⟨EI, L, et, GAv⟩ : Member K).cnl ld with
  | error e => rfl
  | ok c =>
    simp only [Except.map] at hlin ⊢
    cases GAv with
    | none =>
      cases EI with
      | const e => simp only [releaseCnl_smul]
      | «section» s =>
        simp only
        cases inv2 (flexibility s.nodes L) with
        | error e => rfl
        | ok i =>
          simp only
          rw [hlin, releaseRef_smul]
          rfl
    | some gv =>
      cases EI with
      | const e =>
        cases gv with
        | const gv =>
          simp only
          rw [refTimoFF_smul, releaseRef_smul]
          rfl
        | «section» gs =>
          simp only
          cases inv2 (timoFlexibility (.const e) (.section gs) L) with
          | error e => rfl
          | ok i =>
            simp only
            rw [hlin, releaseRef_smul]
            rfl
      | «section» s =>
        simp only
        cases inv2 (timoFlexibility (.section s) gv L) with
        | error e => rfl
        | ok i =>
          simp only
          rw [hlin, releaseRef_smul]
          rfl

theorem Member.refSum_scale (m : Member K) (g : K) (i : ℕ) (ls : List (SpanLoad K)) (c : CNL K)
    (h : m.refSum i ls = .ok c) :
    m.refSum i (ls.map fun l => ⟨l.iSpan, l.load.scale g⟩) = .ok (g • c) := by
  induction ls generalizing c with
  | nil => cases h; simp [Member.refSum, CNL.smul_def]
  | cons l ls ih =>
    simp only [Member.refSum, List.map_cons] at h ⊢
    by_cases hl : l.iSpan = (i : ℤ)
    · rw [if_pos hl] at h ⊢
      split at h
      · cases h
      · rename_i c1 hc1
        split at h
        · cases h
        · rename_i t ht
          cases h
          rw [Member.ref_scale, hc1, ih t ht]
          simp only [Except.map, CNL.smul_def, Except.ok.injEq, CNL.mk.injEq]
          refine ⟨?_, ?_, ?_, ?_⟩ <;> ring
    · rw [if_neg hl] at h ⊢
      exact ih c h

theorem parseLM_factor (g : K) (LM LM' : List (Row K)) (ls : List (SpanLoad K))
    (hf : factorLM g LM = .ok LM') (hp : parseLM LM = .ok ls) :
    parseLM LM' = .ok (ls.map fun l => ⟨l.iSpan, l.load.scale g⟩) := by
  induction LM generalizing LM' ls with
  | nil =>
    cases hf
    cases hp
    rfl
  | cons r rs ih =>
    simp only [factorLM] at hf
    simp only [parseLM] at hp
    split at hf
    · cases hf
    · rename_i r' hr
      split at hf
      · cases hf
      · rename_i rs' hrs
        cases hf
        split at hp
        · cases hp
        · rename_i o ho
          split at hp
          · cases hp
          · rename_i os hos
            cases hp
            have h3 := parseRow_factor g r r' hr o ho
            simp only [parseLM, h3, ih rs' os hrs hos]
            cases o <;> rfl

theorem BeamDef.setLoads_factor (b : BeamDef K) (g : K) (LM' : List (Row K)) (l l' : List (SpanLoad K))
    (hf : factorLM g b.LM = .ok LM') (h : b.setLoads = .ok l)
    (h' : ({ b with LM := LM' } : BeamDef K).setLoads = .ok l') :
    l' = l.map fun l => ⟨l.iSpan, l.load.scale g⟩ := by
  unfold BeamDef.setLoads at h h'
  cases e : parseLM b.LM with
  | error e => simp [e] at h
  | ok x =>
    simp only [e, parseLM_factor g b.LM LM' x hf e] at h h'
    split at h
    · cases h
      split at h'
      · cases h'; rfl
      · cases h'
    · cases h

/-- **C20**, scaling: multiplying all loads and prescribed displacements by `g` (any
sign) multiplies all results by `g`. -/
theorem C20_scaling (b : BeamDef K) (g : K) (LM' : List (Row K)) (hf : factorLM g b.LM = .ok LM')
    (p' : List (Option K))
    (hp : ∀ i : ℕ, PrescComb g 0 (b.restraints.getD i 0) (b.presc.getD i none)
      (b.presc.getD i none) (p'.getD i none))
    (stable stable' : System K → Bool) (solve solve' : Solver K)
    (hs : solve.Sound) (hs' : solve'.Sound) (res res' : Result K)
    (h : b.analyze stable solve = .ok res)
    (h' : ({ b with LM := LM', presc := p' } : BeamDef K).analyze stable' solve' = .ok res')
    (hns : ∀ s, ({ b with LM := LM', presc := p' } : BeamDef K).system = .ok s → s.Nonsingular) :
    (∀ q < 2 * b.members.length + 2, res'.d q = g * res.d q) ∧
    res'.r = res.r.map (g * ·) ∧ res'.rs = res.rs.map (g * ·) ∧
    ∀ i < b.members.length, res'.fmbr i = g • res.fmbr i := by
  obtain ⟨s1, e1, a1⟩ := BeamDef.analyze_ok h
  obtain ⟨s, e, a⟩ := BeamDef.analyze_ok h'
  obtain ⟨n1, k1, ⟨l1, hl1, c1⟩, r1, q1, _⟩ := BeamDef.system_ok e1
  obtain ⟨n3, k3, ⟨l3, hl3, c3⟩, r3, q3, _⟩ := BeamDef.system_ok e
  simp only at n1 k1 c1 r1 q1 n3 k3 c3 r3 q3
  have hl : l3 = l1.map fun l => ⟨l.iSpan, l.load.scale g⟩ :=
    b.setLoads_factor g LM' l1 l3 hf hl1 hl3
  have hconstr : ∀ q, (s1.constr q).isSome = (s.constr q).isSome ∧
      (s1.constr q).isSome = (s.constr q).isSome ∧
      (s.constr q).getD 0 = g * (s1.constr q).getD 0 + 0 * (s1.constr q).getD 0 := by
    intro q
    have := (hp q).constr (fun o => match o with
      | some v => some v | none => if b.restraints.getD q 0 < 0 then some 0 else none) fun _ => rfl
    simp only [System.constr, q1, q3, r1, r3]
    exact this
  have hkb : ∀ i < s.n, s1.kb i = s.kb i := by
    intro i hi
    rw [n3] at hi
    have := (k1 i hi).symm.trans (k3 i hi)
    exact Except.ok.inj this
  have hcomb : s.IsComb g 0 s1 s1 := by
    refine ⟨by omega, by omega, hkb, hkb, ?_, ?_, ?_, ?_, ?_, ?_⟩
    · intro q; rw [r1, r3]
    · intro q; rw [r1, r3]
    · intro i hi
      rw [n3] at hi
      obtain ⟨x1, f1, g1⟩ := c1 i hi
      obtain ⟨x3, f3, g3⟩ := c3 i hi
      rw [hl, Member.refSum_scale _ g i l1 x1 f1] at f3
      cases f3
      rw [g1, g3]
      ext p
      fin_cases p <;> simp [CNL.vec, CNL.smul_def]
    · exact fun q _ => (hconstr q).1
    · exact fun q _ => (hconstr q).2.1
    · exact fun q _ => (hconstr q).2.2
  have := hcomb.superpose (hns s e) hs hs hs' a1 a1 a
  simp only [zero_mul, zero_smul, add_zero, System.N, n3] at this
  obtain ⟨t1, t2, t3, t4⟩ := this
  refine ⟨t1, ?_, ?_, t4⟩
  · rw [t2]
    generalize res.r = l
    induction l with
    | nil => rfl
    | cons x l ih => simp [ih]
  · rw [t3]
    generalize res.rs = l
    induction l with
    | nil => rfl
    | cons x l ih => simp [ih]

/-! ## C22 -/

theorem mulN_symm_work (s : System K) (hsym : ∀ i < s.n, (s.kb i)ᵀ = s.kb i) (x y : ℕ → K) :
    ∑ p ∈ range s.N, x p * mulN s.N s.assemble y p
      = ∑ p ∈ range s.N, y p * mulN s.N s.assemble x p := by
  rw [s.virtual_work, s.virtual_work]
  congr 1
  · apply Finset.sum_congr rfl
    intro i hi
    rw [dotProduct_mulVec, ← hsym i (Finset.mem_range.1 hi), vecMul_transpose,
      hsym i (Finset.mem_range.1 hi), dotProduct_comm]
  · apply Finset.sum_congr rfl
    intro p _
    ring

theorem forces_reciprocity (b : BeamDef K) (LM1 LM2 : List (Row K))
    (hpr : ∀ (i : ℕ) (v : K), b.presc[i]? = some (some v) → v = 0)
    (stable1 stable2 : System K → Bool) (solve1 solve2 : Solver K)
    (hs1 : solve1.Sound) (hs2 : solve2.Sound) (res1 res2 : Result K)
    (h1 : ({ b with LM := LM1 } : BeamDef K).analyze stable1 solve1 = .ok res1)
    (h2 : ({ b with LM := LM2 } : BeamDef K).analyze stable2 solve2 = .ok res2) :
    ∃ s1 s2, ({ b with LM := LM1 } : BeamDef K).system = .ok s1 ∧
      ({ b with LM := LM2 } : BeamDef K).system = .ok s2 ∧
      ∑ p ∈ range (2 * b.members.length + 2), s1.forces p * res2.d p
        = ∑ p ∈ range (2 * b.members.length + 2), s2.forces p * res1.d p := by
  obtain ⟨s1, e1, a1⟩ := BeamDef.analyze_ok h1
  obtain ⟨s2, e2, a2⟩ := BeamDef.analyze_ok h2
  obtain ⟨n1, k1, _, r1, q1, _⟩ := BeamDef.system_ok e1
  obtain ⟨n2, k2, _, r2, q2, _⟩ := BeamDef.system_ok e2
  obtain ⟨i1, _⟩ := System.analyze_ok hs1 a1
  obtain ⟨i2, _⟩ := System.analyze_ok hs2 a2
  simp only at n1 k1 r1 q1 n2 k2 r2 q2
  have hkb : ∀ i < s1.n, s2.kb i = s1.kb i := by
    intro i hi
    rw [n1] at hi
    exact Except.ok.inj ((k2 i hi).symm.trans (k1 i hi))
  have hass : s2.assemble = s1.assemble :=
    System.assemble_congr (by omega) hkb (fun p => by rw [r1, r2])
  have N1 : s1.N = 2 * b.members.length + 2 := by simp [System.N, n1]
  have N2 : s2.N = 2 * b.members.length + 2 := by simp [System.N, n2]
  have hsym : ∀ i < s1.n, (s1.kb i)ᵀ = s1.kb i := by
    intro i hi
    rw [n1] at hi
    ext p q
    exact C11_stiffness_symmetric _ _ (k1 i hi) q p
  have hz : ∀ p, ∀ v, s1.constr p = some v → v = 0 := by
    intro p v hv
    simp only [System.constr, q1, List.getD_eq_getElem?_getD] at hv
    rcases hq : b.presc[p]? with _ | (_ | w)
    · simp [hq] at hv; exact hv.2.symm
    · simp [hq] at hv; exact hv.2.symm
    · simp [hq] at hv
      rw [← hv]
      exact hpr p w hq
  have hc : ∀ p, s2.constr p = s1.constr p := by
    intro p
    simp only [System.constr, q1, q2, r1, r2]
  refine ⟨s1, s2, e1, e2, ?_⟩
  have w1 : ∑ p ∈ range s1.N, s1.forces p * res2.d p
      = ∑ p ∈ range s1.N, res2.d p * mulN s1.N s1.assemble res1.d p := by
    apply Finset.sum_congr rfl
    intro p hp
    have hp' := Finset.mem_range.1 hp
    rcases hv : s1.constr p with _ | v
    · have := i1.2 p hp' hv
      simp only [System.residual] at this
      rw [sub_eq_zero.1 this]
      ring
    · have hv2 := hv
      rw [← hc] at hv2
      rw [i2.1 p (by omega) v hv2, hz p v hv]
      ring
  have w2 : ∑ p ∈ range s1.N, s2.forces p * res1.d p
      = ∑ p ∈ range s1.N, res1.d p * mulN s1.N s1.assemble res2.d p := by
    apply Finset.sum_congr rfl
    intro p hp
    have hp' := Finset.mem_range.1 hp
    rcases hv : s1.constr p with _ | v
    · have hv2 := hv
      rw [← hc] at hv2
      have := i2.2 p (by omega) hv2
      simp only [System.residual, hass, N2, ← N1] at this
      rw [sub_eq_zero.1 this]
      ring
    · rw [i1.1 p hp' v hv, hz p v hv]
      ring
  rw [← N1, w1, w2, mulN_symm_work s1 hsym]

/-- **C22**: for two load cases on one beam whose rigid supports do not move, the
loads of the first case, as equivalent end forces on the members (minus the
fixed-end forces `c1 i` of its loads), do the same work on the displacements of the
second as those of the second on the displacements of the first. -/
theorem C22_reciprocity (b : BeamDef K) (LM1 LM2 : List (Row K))
    (hpr : ∀ (i : ℕ) (v : K), b.presc[i]? = some (some v) → v = 0)
    (stable1 stable2 : System K → Bool) (solve1 solve2 : Solver K)
    (hs1 : solve1.Sound) (hs2 : solve2.Sound) (res1 res2 : Result K)
    (h1 : ({ b with LM := LM1 } : BeamDef K).analyze stable1 solve1 = .ok res1)
    (h2 : ({ b with LM := LM2 } : BeamDef K).analyze stable2 solve2 = .ok res2)
    (ls1 ls2 : List (SpanLoad K)) (hl1 : parseLM LM1 = .ok ls1) (hl2 : parseLM LM2 = .ok ls2)
    (c1 c2 : ℕ → CNL K)
    (hc1 : ∀ i (hi : i < b.members.length), b.members[i].refSum i ls1 = .ok (c1 i))
    (hc2 : ∀ i (hi : i < b.members.length), b.members[i].refSum i ls2 = .ok (c2 i)) :
    ∑ i ∈ range b.members.length, -(c1 i).vec ⬝ᵥ (fun a : Fin 4 => res2.d (2 * i + a))
      = ∑ i ∈ range b.members.length, -(c2 i).vec ⬝ᵥ (fun a : Fin 4 => res1.d (2 * i + a)) := by
  obtain ⟨s1, s2, e1, e2, h⟩ := forces_reciprocity b LM1 LM2 hpr stable1 stable2 solve1 solve2
    hs1 hs2 res1 res2 h1 h2
  obtain ⟨n1, _, ⟨l1, m1, f1⟩, _⟩ := BeamDef.system_ok e1
  obtain ⟨n2, _, ⟨l2, m2, f2⟩, _⟩ := BeamDef.system_ok e2
  simp only at n1 n2 f1 f2
  have g1 : l1 = ls1 := by
    simp only [BeamDef.setLoads, hl1] at m1
    split at m1
    · exact (Except.ok.inj m1).symm
    · cases m1
  have g2 : l2 = ls2 := by
    simp only [BeamDef.setLoads, hl2] at m2
    split at m2
    · exact (Except.ok.inj m2).symm
    · cases m2
  have N1 : s1.N = 2 * b.members.length + 2 := by simp [System.N, n1]
  have N2 : s2.N = 2 * b.members.length + 2 := by simp [System.N, n2]
  have w1 := s1.forces_work res2.d
  have w2 := s2.forces_work res1.d
  rw [N1, n1] at w1
  rw [N2, n2] at w2
  simp only [mul_comm (res2.d _)] at w1
  simp only [mul_comm (res1.d _)] at w2
  rw [w1, w2] at h
  simp only [neg_dotProduct, Finset.sum_neg_distrib]
  calc -∑ i ∈ range b.members.length, (c1 i).vec ⬝ᵥ (fun a : Fin 4 => res2.d (2 * i + a))
      = -∑ i ∈ range b.members.length, elemVec res2.d i ⬝ᵥ s1.ref i := by
        congr 1
        apply Finset.sum_congr rfl
        intro i hi
        obtain ⟨c, x, y⟩ := f1 i (Finset.mem_range.1 hi)
        rw [g1, hc1 i (Finset.mem_range.1 hi)] at x
        cases x
        rw [y, dotProduct_comm]
        rfl
    _ = _ := h
    _ = _ := by
        congr 1
        apply Finset.sum_congr rfl
        intro i hi
        obtain ⟨c, x, y⟩ := f2 i (Finset.mem_range.1 hi)
        rw [g2, hc2 i (Finset.mem_range.1 hi)] at x
        cases x
        rw [y, dotProduct_comm]
        rfl

/-! ## C24 -/

/-- **C24**: on an unloaded beam whose restrained stiffness is nonsingular, if the
displacements of all rigid supports (prescribed, or zero) are those of one rigid
motion of the whole beam (translation `a`, rotation `t`) and no spring is moved by
it, then the beam makes just that motion, without member forces or reactions.  With
`t = 0` and only vertical restraints this is the uniform settlement. -/
theorem C24_rigid_settlement (b : BeamDef K) (hgood : ∀ m ∈ b.members, m.Good) (hLM : b.LM = [])
    (a t : K)
    (hpr : ∀ i < 2 * b.members.length + 2, ∀ v, b.presc[i]? = some (some v) → v = b.rigid a t i)
    (hfix : ∀ i < 2 * b.members.length + 2, b.presc[i]? = some none →
      b.restraints.getD i 0 < 0 → b.rigid a t i = 0)
    (hspr : ∀ i < 2 * b.members.length + 2, 0 < b.restraints.getD i 0 → b.rigid a t i = 0)
    (stable : System K → Bool) (solve : Solver K) (hs : solve.Sound) (res : Result K)
    (h : b.analyze stable solve = .ok res) (hns : ∀ s, b.system = .ok s → s.Nonsingular) :
    (∀ p < 2 * b.members.length + 2, res.d p = b.rigid a t p) ∧
    (∀ i < b.members.length, res.fmbr i = 0) ∧ (∀ x ∈ res.r, x = 0) ∧ ∀ x ∈ res.rs, x = 0 := by
  obtain ⟨s, e, an⟩ := BeamDef.analyze_ok h
  obtain ⟨hn, hk, ⟨ls, hls, hc⟩, hr, hq, hl1, hl2⟩ := BeamDef.system_ok e
  obtain ⟨i1, i2, i3, i4, _⟩ := System.analyze_ok hs an
  have hN : s.N = 2 * b.members.length + 2 := by simp [System.N, hn]
  have hlsn : ls = [] := by
    simp only [BeamDef.setLoads, hLM, parseLM, List.all_nil, if_true] at hls
    cases hls; rfl
  have href : ∀ i < b.members.length, s.ref i = 0 := by
    intro i hi
    obtain ⟨c, h1, h2⟩ := hc i hi
    subst hlsn
    cases h1
    rw [h2]
    ext p
    fin_cases p <;> simp [CNL.vec]
  have hkr : ∀ i < b.members.length, s.kb i *ᵥ elemVec (b.rigid a t) i = 0 := by
    intro i hi
    rw [b.rigid_elem a t i hi]
    obtain ⟨k, h1, h2⟩ := C12_rigid_body _ (hgood _ (List.getElem_mem hi)) (a + t * b.nodeX i) t
    rw [hk i hi] at h1
    cases h1
    exact h2
  have hf0 : ∀ p, s.forces p = 0 := by
    intro p
    rw [s.forces_eq, Finset.sum_eq_zero, neg_zero]
    intro i hi
    rw [href i (by rw [← hn]; exact Finset.mem_range.1 hi)]
    simp [blockVec]
  have hres0 : ∀ p < s.N, s.residual (b.rigid a t) p = 0 := by
    intro p hp
    rw [System.residual, s.mulN_assemble _ p hp, hf0, Finset.sum_eq_zero]
    · simp only [System.spring, hr]
      split
      · rename_i hpos
        rw [hspr p (by omega) hpos]
        ring
      · ring
    · intro i hi
      rw [hkr i (by rw [← hn]; exact Finset.mem_range.1 hi)]
      simp [blockVec]
  have hsol : s.IsSolution (b.rigid a t) := by
    refine ⟨?_, fun p hp _ => hres0 p hp⟩
    intro p hp v hv
    simp only [System.constr, hq, hr, List.getD_eq_getElem?_getD] at hv
    have hlt : p < b.presc.length := by omega
    rcases hq : b.presc[p]? with _ | (_ | w)
    · rw [List.getElem?_eq_none_iff] at hq
      omega
    · simp [hq] at hv
      rw [hfix p (by omega) hq (by simpa using hv.1)]
      exact hv.2
    · simp [hq] at hv
      rw [← hv]
      exact (hpr p (by omega) w hq).symm
  have hd : ∀ p < s.N, res.d p = b.rigid a t p :=
    fun p hp => System.IsSolution.unique (hns s e) i1 hsol p hp
  refine ⟨fun p hp => hd p (by omega), ?_, ?_, ?_⟩
  · intro i hi
    rw [i4]
    have : elemVec res.d i = elemVec (b.rigid a t) i := by
      ext q
      have := q.isLt
      exact hd _ (by omega)
    rw [System.endForces, this, hkr i hi, href i hi, add_zero]
  · intro x hx
    rw [i2] at hx
    simp only [System.reactions, List.mem_map, List.mem_filter, List.mem_range] at hx
    obtain ⟨p, ⟨hp, _⟩, rfl⟩ := hx
    rw [← hres0 p hp]
    simp only [System.residual, mulN]
    congr 1
    apply Finset.sum_congr rfl
    intro q hq
    rw [hd q (Finset.mem_range.1 hq)]
  · intro x hx
    rw [i3] at hx
    simp only [System.springForces, List.mem_map, List.mem_filter, List.mem_range] at hx
    obtain ⟨p, ⟨hp, hpos⟩, rfl⟩ := hx
    rw [hd p hp, hspr p (by omega) (by rw [← hr]; simpa using hpos)]
    ring

/-! ### Concrete cases -/

/-- A simple span of length 2 with `EI = 6`, its supports displaced by `v0`, `v2`. -/
def exSimple (v0 v2 : Option ℚ) (LM : List (Row ℚ)) : BeamDef ℚ :=
  ⟨[exPrismatic .FF], [-1, 0, -1, 0], [v0, none, v2, none], LM⟩

theorem exSimple_nonsingular (v0 v2 : Option ℚ) (LM : List (Row ℚ)) (s : System ℚ)
    (h : (exSimple v0 v2 LM).system = .ok s) : s.Nonsingular := by
  obtain ⟨hn, hk, _, hr, hq, _⟩ := BeamDef.system_ok h
  have hn1 : s.n = 1 := hn
  have hN : s.N = 4 := by simp [System.N, hn1]
  have hk0 : s.kb 0 = kFF 6 2 := by
    have := hk 0 (by simp [exSimple])
    simp [exSimple, exPrismatic, Member.spanK] at this
    exact this.symm
  have c0 : (s.constr 0).isSome := by
    simp only [System.constr, hq, hr, exSimple]
    cases v0 <;> simp
  have c2 : (s.constr 2).isSome := by
    simp only [System.constr, hq, hr, exSimple]
    cases v2 <;> simp
  have c1 : s.constr 1 = none := by simp [System.constr, hq, hr, exSimple]
  have c3 : s.constr 3 = none := by simp [System.constr, hq, hr, exSimple]
  intro x hx hf
  have x0 := hx 0 (by omega) c0
  have x2 := hx 2 (by omega) c2
  have f1 := hf 1 (by omega) c1
  have f3 := hf 3 (by omega) c3
  rw [s.mulN_assemble _ _ (by omega), hn1] at f1 f3
  simp [hk0, blockVec, mulVec4, elemVec, kFF, x0, x2, System.spring, hr, exSimple] at f1 f3
  norm_num at f1 f3
  have x1 : x 1 = 0 := by linarith
  have x3 : x 3 = 0 := by linarith
  intro p hp
  rw [hN] at hp
  interval_cases p <;> assumption

/-- C20 and C22 at the simple span: a UDL of 12 turns the ends by 2/3, a mid-span
load of 12 by 1/2; together they turn them by 7/6, twice the UDL by 4/3 and the
reciprocal works agree. -/
example : ∃ r1 r2 r3 r4 : Result ℚ,
    (exSimple none none [⟨1, 1, [12]⟩]).analyze (fun _ => true)
      (trySolver fun p => [0, -2 / 3, 0, 2 / 3].getD p 0) = .ok r1 ∧
    (exSimple none none [⟨1, 2, [12, 1]⟩]).analyze (fun _ => true)
      (trySolver fun p => [0, -1 / 2, 0, 1 / 2].getD p 0) = .ok r2 ∧
    (exSimple none none (addLM [⟨1, 1, [12]⟩] [⟨1, 2, [12, 1]⟩])).analyze (fun _ => true)
      (trySolver fun p => [0, -7 / 6, 0, 7 / 6].getD p 0) = .ok r3 ∧
    (exSimple none none [⟨1, 1, [2 * 12]⟩]).analyze (fun _ => true)
      (trySolver fun p => [0, -4 / 3, 0, 4 / 3].getD p 0) = .ok r4 ∧
    r3.r = List.zipWith (· + ·) r1.r r2.r ∧ r3.fmbr 0 = r1.fmbr 0 + r2.fmbr 0 ∧
    r4.r = r1.r.map (2 * ·) := by
  obtain ⟨r1, h1, -⟩ := ok_of_map (x := (exSimple none none [⟨1, 1, [12]⟩]).analyze (fun _ => true)
      (trySolver fun p => [0, -2 / 3, 0, 2 / 3].getD p 0)) (f := fun _ => ()) (y := ())
      (by decide +kernel)
  obtain ⟨r2, h2, -⟩ := ok_of_map (x := (exSimple none none [⟨1, 2, [12, 1]⟩]).analyze
      (fun _ => true) (trySolver fun p => [0, -1 / 2, 0, 1 / 2].getD p 0)) (f := fun _ => ())
      (y := ()) (by decide +kernel)
  obtain ⟨r3, h3, -⟩ := ok_of_map (x := (exSimple none none
      (addLM [⟨1, 1, [12]⟩] [⟨1, 2, [12, 1]⟩])).analyze
      (fun _ => true) (trySolver fun p => [0, -7 / 6, 0, 7 / 6].getD p 0)) (f := fun _ => ())
      (y := ()) (by decide +kernel)
  obtain ⟨r4, h4, -⟩ := ok_of_map (x := (exSimple none none [⟨1, 1, [2 * 12]⟩]).analyze
      (fun _ => true) (trySolver fun p => [0, -4 / 3, 0, 4 / 3].getD p 0)) (f := fun _ => ())
      (y := ()) (by decide +kernel)
  have hp : ∀ α β i, PrescComb α β ((exSimple none none []).restraints.getD i 0)
      ((exSimple none none []).presc.getD i none) ((exSimple none none []).presc.getD i none)
      ((exSimple none none []).presc.getD i none) := by
    intro α β i
    have : (exSimple none none []).presc.getD i none = none := by
      rcases i with _ | _ | _ | _ | i <;> simp [exSimple]
    rw [this]
    simp [PrescComb]
  have t := C20_superposition (exSimple none none []) _ _ _ _ _ (hp 1 1) _ _ _ _ _ _
    (trySolver_sound _) (trySolver_sound _) (trySolver_sound _) r3 r1 r2 h1 h2 h3
    (fun s h => exSimple_nonsingular none none _ s h)
  have h20 := C20_scaling (exSimple none none [⟨1, 1, [12]⟩]) 2 [⟨1, 1, [2 * 12]⟩] rfl
    _ (hp 2 0) _ _ _ _ (trySolver_sound _) (trySolver_sound _) r1 r4 h1 h4
    (fun s h => exSimple_nonsingular none none _ s h)
  have := C22_reciprocity (exSimple none none []) [⟨1, 1, [12]⟩] [⟨1, 2, [12, 1]⟩] (by
      intro i v h
      rcases i with _ | _ | _ | _ | i <;> simp [exSimple] at h) _ _ _ _ (trySolver_sound _)
    (trySolver_sound _) r1 r2 h1 h2 [⟨0, .udl 12⟩] [⟨0, .pl 12 1⟩] rfl rfl
    (fun _ => ⟨12, 4, 12, -4⟩) (fun _ => ⟨6, 3, 6, -3⟩) (by
      intro i hi
      have : i = 0 := by simp [exSimple] at hi; omega
      subst this
      simp [exSimple, exPrismatic, Member.refSum, Member.ref, Member.cnl, Load.getCnl, releaseCnl,
        udlCnl]
      norm_num) (by
      intro i hi
      have : i = 0 := by simp [exSimple] at hi; omega
      subst this
      simp [exSimple, exPrismatic, Member.refSum, Member.ref, Member.cnl, Load.getCnl, releaseCnl,
        plCnl]
      norm_num)
  exact ⟨r1, r2, r3, r4, h1, h2, h3, h4, t.2.1, t.2.2.2 0 (by simp [exSimple]), h20.2.1⟩

/-- C24 at the simple span: supports displaced by 1 and 3 tilt it by 1. -/
example : ∃ r : Result ℚ, (exSimple (some 1) (some 3) []).analyze (fun _ => true)
      (trySolver fun p => [1, 1, 3, 1].getD p 0) = .ok r ∧ r.fmbr 0 = 0 ∧ ∀ x ∈ r.r, x = 0 := by
  obtain ⟨r, h, -⟩ := ok_of_map (x := (exSimple (some 1) (some 3) []).analyze (fun _ => true)
      (trySolver fun p => [1, 1, 3, 1].getD p 0)) (f := fun _ => ()) (y := ())
      (by decide +kernel)
  have h24 := C24_rigid_settlement (exSimple (some 1) (some 3) []) (by
      simp [exSimple, exPrismatic_good]) rfl 1 1 (by
      intro i hi v hv
      rcases i with _ | _ | _ | _ | i <;> simp [exSimple] at hv
      · simp [BeamDef.rigid, BeamDef.nodeX, hv]
      · norm_num [BeamDef.rigid, BeamDef.nodeX, ← hv, exSimple, exPrismatic]) (by
      intro i hi hq hr
      rcases i with _ | _ | _ | _ | i <;> simp [exSimple] at hq hr) (by
      intro i hi hr
      rcases i with _ | _ | _ | _ | i <;> simp [exSimple] at hr
      all_goals linarith) _ _ (trySolver_sound _) r h
    (exSimple_nonsingular _ _ _)
  exact ⟨r, h, h24.2.1 0 (by simp [exSimple]), h24.2.2.1⟩

/-- C21 at the simple span: two solvers, one of which also refuses other systems. -/
example (solve : Solver ℚ) (hs : solve.Sound) (r' : Result ℚ)
    (h' : (exSimple none none [⟨1, 1, [12]⟩]).analyze (fun _ => true) solve = .ok r') :
    r'.d 1 = -2 / 3 ∧ r'.d 3 = 2 / 3 := by
  obtain ⟨r1, h1, g⟩ := ok_of_map (x := (exSimple none none [⟨1, 1, [12]⟩]).analyze (fun _ => true)
      (trySolver fun p => [0, -2 / 3, 0, 2 / 3].getD p 0)) (f := fun r => (r.d 1, r.d 3))
      (y := (-2 / 3, 2 / 3)) (by decide +kernel)
  have := (C21_solver_independent _ _ _ _ hs (trySolver_sound _) r' r1 h' h1
    (exSimple_nonsingular _ _ _)).1
  rw [this 1 (by simp [exSimple]), this 3 (by simp [exSimple])]
  exact Prod.mk.inj g

end PyCBA
