import Verif.Analysis.Model
import Verif.Stiffness.Props

set_option linter.unusedSectionVars false
set_option linter.unusedSimpArgs false

/-! Helper lemmas for the global analysis. -/

namespace PyCBA

open Matrix Finset

variable {K : Type*} [Field K] [LinearOrder K] [IsStrictOrderedRing K]

theorem blockVec_eq_sum (s : ℕ) (v : Vec4 K) (p : ℕ) :
    blockVec s v p = ∑ a : Fin 4, if p = s + a then v a else 0 := by
  unfold blockVec
  split
  · rename_i h
    rw [Finset.sum_eq_single ⟨p - s, by omega⟩]
    · rw [if_pos]
      simp only
      omega
    · intro b _ hb
      rw [if_neg]
      intro h'
      apply hb
      ext
      simp only
      omega
    · simp
  · rename_i h
    symm
    apply Finset.sum_eq_zero
    intro a _
    rw [if_neg]
    have := a.isLt
    omega

theorem sum_blockVec (N s : ℕ) (h : s + 4 ≤ N) (g : ℕ → K) (v : Vec4 K) :
    ∑ p ∈ range N, g p * blockVec s v p = ∑ a : Fin 4, g (s + a) * v a := by
  simp only [blockVec_eq_sum, Finset.mul_sum, mul_ite, mul_zero]
  rw [Finset.sum_comm]
  apply Finset.sum_congr rfl
  intro a _
  rw [Finset.sum_ite_eq']
  rw [if_pos]
  have := a.isLt
  simp
  omega

theorem forces_foldl (ref : ℕ → Vec4 K) (n : ℕ) (f0 : ℕ → K) (p : ℕ) :
    ((List.range n).foldl (fun f i => subBlock f (2 * i) (ref i)) f0) p
      = f0 p - ∑ i ∈ range n, blockVec (2 * i) (ref i) p := by
  induction n with
  | zero => simp
  | succ n ih =>
    rw [List.range_succ, List.foldl_append, List.foldl_cons, List.foldl_nil]
    simp only [subBlock]
    rw [ih, Finset.sum_range_succ]
    ring

theorem System.forces_eq (s : System K) (p : ℕ) :
    s.forces p = -∑ i ∈ range s.n, blockVec (2 * i) (s.ref i) p := by
  rw [System.forces, forces_foldl]
  ring

theorem blocks_foldl (kb : ℕ → Mat4 K) (n : ℕ) (k0 : ℕ → ℕ → K) (p q : ℕ) :
    ((List.range n).foldl (fun k i => addBlock k (2 * i) (kb i)) k0) p q
      = k0 p q + ∑ i ∈ range n, blockVec (2 * i) (fun a => blockVec (2 * i) (fun b => kb i a b) q) p := by
  induction n with
  | zero => simp
  | succ n ih =>
    rw [List.range_succ, List.foldl_append, List.foldl_cons, List.foldl_nil]
    simp only [addBlock]
    rw [ih, Finset.sum_range_succ]
    ring

theorem springs_foldl (r : ℕ → K) (n : ℕ) (k0 : ℕ → ℕ → K) (p q : ℕ) :
    ((List.range n).foldl (fun k i => if 0 < r i then
        fun p q => if p = i ∧ q = i then k p q + r i else k p q else k) k0) p q
      = k0 p q + if p = q ∧ p < n ∧ 0 < r p then r p else 0 := by
  induction n with
  | zero => simp
  | succ n ih =>
    rw [List.range_succ, List.foldl_append, List.foldl_cons, List.foldl_nil]
    by_cases hr : 0 < r n
    · rw [if_pos hr]
      by_cases hpq : p = n ∧ q = n
      · obtain ⟨rfl, rfl⟩ := hpq
        simp only [and_self, if_true]
        rw [ih]
        simp [hr]
      · rw [if_neg hpq, ih]
        congr 1
        by_cases h1 : p = q ∧ p < n ∧ 0 < r p
        · rw [if_pos h1, if_pos ⟨h1.1, by omega, h1.2.2⟩]
        · rw [if_neg h1, if_neg]
          rintro ⟨h2, h3, h4⟩
          exact h1 ⟨h2, by omega, h4⟩
    · rw [if_neg hr, ih]
      congr 1
      by_cases h1 : p = q ∧ p < n ∧ 0 < r p
      · rw [if_pos h1, if_pos ⟨h1.1, by omega, h1.2.2⟩]
      · rw [if_neg h1, if_neg]
        rintro ⟨h2, h3, h4⟩
        have : p ≠ n := by rintro rfl; exact hr h4
        exact h1 ⟨h2, by omega, h4⟩

/-- Closed form of the assembled stiffness. -/
theorem System.assemble_eq (s : System K) (p q : ℕ) :
    s.assemble p q = (∑ i ∈ range s.n, blockVec (2 * i) (fun a => blockVec (2 * i) (fun b => s.kb i a b) q) p)
      + if p = q ∧ p < s.N ∧ 0 < s.r p then s.r p else 0 := by
  rw [System.assemble, springs_foldl, blocks_foldl]
  simp

/-- Spring stiffness of a degree of freedom. -/
def System.spring (s : System K) (p : ℕ) : K := if 0 < s.r p then s.r p else 0

/-- Row of the assembled stiffness times a displacement array. -/
theorem System.mulN_assemble (s : System K) (d : ℕ → K) (p : ℕ) (hp : p < s.N) :
    mulN s.N s.assemble d p
      = (∑ i ∈ range s.n, blockVec (2 * i) (s.kb i *ᵥ elemVec d i) p) + s.spring p * d p := by
  simp only [mulN, System.assemble_eq, add_mul, Finset.sum_add_distrib]
  congr 1
  · simp only [Finset.sum_mul]
    rw [Finset.sum_comm]
    apply Finset.sum_congr rfl
    intro i hi
    have hi' : 2 * i + 4 ≤ s.N := by
      simp only [Finset.mem_range, System.N] at hi ⊢
      omega
    have hv : ∀ q, blockVec (2 * i) (fun a => blockVec (2 * i) (fun b => s.kb i a b) q) p * d q
        = ∑ a : Fin 4, if p = 2 * i + a then d q * blockVec (2 * i) (fun b => s.kb i a b) q
          else 0 := by
      intro q
      rw [blockVec_eq_sum (2 * i) (fun a => blockVec (2 * i) (fun b => s.kb i a b) q),
        Finset.sum_mul]
      apply Finset.sum_congr rfl
      intro a _
      split
      · ring
      · ring
    simp only [hv]
    rw [Finset.sum_comm, blockVec_eq_sum]
    apply Finset.sum_congr rfl
    intro a _
    split
    · rw [sum_blockVec s.N (2 * i) hi' d]
      simp only [mulVec, dotProduct, elemVec]
      apply Finset.sum_congr rfl
      intro b _
      ring
    · simp
  · rw [Finset.sum_eq_single p]
    · simp only [System.spring, true_and, hp]
    · intro q _ hq
      rw [if_neg (fun h => hq h.1.symm)]
      simp
    · intro h; exact absurd (Finset.mem_range.2 hp) h

/-- Virtual work of the assembled stiffness: the sum over the members plus the
springs. -/
theorem System.virtual_work (s : System K) (u d : ℕ → K) :
    ∑ p ∈ range s.N, u p * mulN s.N s.assemble d p
      = (∑ i ∈ range s.n, elemVec u i ⬝ᵥ (s.kb i *ᵥ elemVec d i))
        + ∑ p ∈ range s.N, s.spring p * u p * d p := by
  rw [Finset.sum_congr rfl fun p hp => by rw [s.mulN_assemble d p (Finset.mem_range.1 hp)]]
  simp only [mul_add, Finset.sum_add_distrib]
  congr 1
  · simp only [Finset.mul_sum]
    rw [Finset.sum_comm]
    apply Finset.sum_congr rfl
    intro i hi
    have hi' : 2 * i + 4 ≤ s.N := by
      simp only [Finset.mem_range, System.N] at hi ⊢
      omega
    rw [sum_blockVec s.N (2 * i) hi']
    rfl
  · apply Finset.sum_congr rfl
    intro p _
    ring

/-- Contribution of the members to node `j`: the right end of the member before
it and the left end of the member after it. -/
theorem sum_blocks_node (n : ℕ) (v : ℕ → Vec4 K) (j : ℕ) (hj : j ≤ n) (c : Fin 2) :
    ∑ i ∈ range n, blockVec (2 * i) (v i) (2 * j + c)
      = (if 0 < j then v (j - 1) ⟨2 + c, by omega⟩ else 0)
        + if j < n then v j ⟨c, by omega⟩ else 0 := by
  have key : ∀ i, blockVec (2 * i) (v i) (2 * j + c)
      = (if i + 1 = j then v (j - 1) ⟨2 + c, by omega⟩ else 0)
        + if i = j then v j ⟨c, by omega⟩ else 0 := by
    intro i
    have hc := c.isLt
    unfold blockVec
    by_cases h1 : i + 1 = j
    · subst h1
      rw [dif_pos (by omega), if_pos rfl, if_neg (by omega)]
      simp only [add_zero, Nat.add_sub_cancel]
      congr 1
      ext
      simp only
      omega
    · by_cases h2 : i = j
      · subst h2
        rw [dif_pos (by omega), if_neg (by omega), if_pos rfl]
        simp
      · rw [dif_neg (by omega), if_neg h1, if_neg h2, add_zero]
  simp only [key, Finset.sum_add_distrib]
  congr 1
  · by_cases h : 0 < j
    · rw [if_pos h, Finset.sum_eq_single (j - 1)]
      · rw [if_pos (by omega)]
      · intro i _ hi
        rw [if_neg (by omega)]
      · intro hi
        simp only [Finset.mem_range] at hi
        omega
    · rw [if_neg h]
      apply Finset.sum_eq_zero
      intro i _
      rw [if_neg (by omega)]
  · rw [Finset.sum_ite_eq']
    simp

/-- Virtual work of the nodal loads. -/
theorem System.forces_work (s : System K) (u : ℕ → K) :
    ∑ p ∈ range s.N, u p * s.forces p = -∑ i ∈ range s.n, elemVec u i ⬝ᵥ s.ref i := by
  simp only [System.forces_eq, mul_neg, Finset.sum_neg_distrib, Finset.mul_sum]
  rw [Finset.sum_comm]
  congr 1
  apply Finset.sum_congr rfl
  intro i hi
  have hi' : 2 * i + 4 ≤ s.N := by
    simp only [Finset.mem_range, System.N] at hi ⊢
    omega
  rw [sum_blockVec s.N (2 * i) hi']
  rfl

/-! ### Boundary conditions -/

/-- Closed form of the elimination loop over any list without repetitions. -/
theorem applyBCOn_eq (c : ℕ → Option K) (l : List ℕ) (hl : l.Nodup) (k : ℕ → ℕ → K) (f : ℕ → K) :
    (∀ p q, (applyBCOn c l (k, f)).1 p q =
      if (p ∈ l ∧ (c p).isSome) ∨ (q ∈ l ∧ (c q).isSome) then (if p = q then 1 else 0)
      else k p q) ∧
    ∀ p, (applyBCOn c l (k, f)).2 p =
      if p ∈ l ∧ (c p).isSome then (c p).getD 0
      else f p - (l.map fun q => k p q * (c q).getD 0).sum := by
  induction l using List.reverseRecOn with
  | nil => simp [applyBCOn]
  | append_singleton l i ih =>
    rw [List.nodup_append] at hl
    obtain ⟨hl1, _, hl2⟩ := hl
    have hi : i ∉ l := fun h => hl2 i h i (by simp) rfl
    obtain ⟨ihk, ihf⟩ := ih hl1
    have hstep : applyBCOn c (l ++ [i]) (k, f) = bcStep c (applyBCOn c l (k, f)) i := by
      simp [applyBCOn]
    rw [hstep]
    rcases hc : c i with _ | di
    · constructor
      · intro p q
        simp only [bcStep, hc]
        rw [ihk]
        have e : ∀ x, (x ∈ l ++ [i] ∧ (c x).isSome) ↔ (x ∈ l ∧ (c x).isSome) := by
          intro x
          simp only [List.mem_append, List.mem_singleton]
          constructor
          · rintro ⟨h1 | rfl, h2⟩
            · exact ⟨h1, h2⟩
            · rw [hc] at h2; simp at h2
          · rintro ⟨h1, h2⟩; exact ⟨Or.inl h1, h2⟩
        simp only [e]
      · intro p
        simp only [bcStep, hc]
        rw [ihf]
        have e : ∀ x, (x ∈ l ++ [i] ∧ (c x).isSome) ↔ (x ∈ l ∧ (c x).isSome) := by
          intro x
          simp only [List.mem_append, List.mem_singleton]
          constructor
          · rintro ⟨h1 | rfl, h2⟩
            · exact ⟨h1, h2⟩
            · rw [hc] at h2; simp at h2
          · rintro ⟨h1, h2⟩; exact ⟨Or.inl h1, h2⟩
        simp only [e]
        simp [hc]
    · have e : ∀ x, (x ∈ l ++ [i] ∧ (c x).isSome) ↔ ((x ∈ l ∧ (c x).isSome) ∨ x = i) := by
        intro x
        simp only [List.mem_append, List.mem_singleton]
        constructor
        · rintro ⟨h1 | rfl, h2⟩
          · exact Or.inl ⟨h1, h2⟩
          · exact Or.inr rfl
        · rintro (⟨h1, h2⟩ | rfl)
          · exact ⟨Or.inl h1, h2⟩
          · exact ⟨Or.inr rfl, by simp [hc]⟩
      constructor
      · intro p q
        simp only [bcStep, hc]
        rw [ihk]
        simp only [e]
        by_cases hp : p = i <;> by_cases hq : q = i
        · subst hp; subst hq; simp
        · subst hp
          have : ¬ p = q := fun h => hq h.symm
          simp [hq, this]
        · subst hq
          simp [hp]
        · simp [hp, hq]
      · intro p
        simp only [bcStep, hc]
        simp only [e]
        by_cases hp : p = i
        · subst hp
          simp [hc]
        · simp only [hp, if_false, or_false]
          rw [ihf, ihk]
          have hil : ¬ (i ∈ l ∧ (c i).isSome) := fun h => hi h.1
          by_cases hpl : p ∈ l ∧ (c p).isSome
          · simp only [hpl, if_true, true_or, and_self, hp, if_false]
            simp
          · simp only [hpl, hil, or_self, if_false]
            simp [hc]
            ring

theorem System.applyBC_eq (s : System K) (k : ℕ → ℕ → K) (f : ℕ → K) (p : ℕ) (hp : p < s.N) :
    (∀ q < s.N, (s.applyBC (k, f)).1 p q =
      if (s.constr p).isSome ∨ (s.constr q).isSome then (if p = q then 1 else 0) else k p q) ∧
    (s.applyBC (k, f)).2 p =
      if (s.constr p).isSome then (s.constr p).getD 0
      else f p - ∑ q ∈ range s.N, k p q * (s.constr q).getD 0 := by
  obtain ⟨h1, h2⟩ := applyBCOn_eq s.constr (List.range s.N) List.nodup_range k f
  constructor
  · intro q hq
    rw [System.applyBC, h1]
    simp [hp, hq]
  · rw [System.applyBC, h2]
    simp only [List.mem_range, hp, true_and]
    congr 1

/-- A vector solves the reduced system exactly when it has the prescribed values
and is in equilibrium at the other degrees of freedom. -/
theorem System.reduced_iff (s : System K) (k : ℕ → ℕ → K) (f : ℕ → K) (x : ℕ → K) :
    (∀ p < s.N, mulN s.N (s.applyBC (k, f)).1 x p = (s.applyBC (k, f)).2 p) ↔
      (∀ p < s.N, ∀ v, s.constr p = some v → x p = v) ∧
      (∀ p < s.N, s.constr p = none → mulN s.N k x p = f p) := by
  have row_c : ∀ p < s.N, ∀ v, s.constr p = some v →
      (mulN s.N (s.applyBC (k, f)).1 x p = x p ∧ (s.applyBC (k, f)).2 p = v) := by
    intro p hp v hv
    obtain ⟨h1, h2⟩ := s.applyBC_eq k f p hp
    refine ⟨?_, by rw [h2, hv]; simp⟩
    simp only [mulN]
    rw [Finset.sum_eq_single p]
    · rw [h1 p hp, hv]; simp
    · intro q hq hqp
      rw [h1 q (Finset.mem_range.1 hq), hv]
      have : ¬ p = q := fun h => hqp h.symm
      simp [this]
    · intro h; exact absurd (Finset.mem_range.2 hp) h
  have row_f : (∀ p < s.N, ∀ v, s.constr p = some v → x p = v) → ∀ p < s.N, s.constr p = none →
      (mulN s.N (s.applyBC (k, f)).1 x p = (s.applyBC (k, f)).2 p ↔ mulN s.N k x p = f p) := by
    intro hx p hp hv
    obtain ⟨h1, h2⟩ := s.applyBC_eq k f p hp
    rw [h2, hv]
    simp only [mulN]
    have e : ∑ q ∈ range s.N, (s.applyBC (k, f)).1 p q * x q
        = ∑ q ∈ range s.N, (k p q * x q - k p q * (s.constr q).getD 0) := by
      apply Finset.sum_congr rfl
      intro q hq
      have hq' := Finset.mem_range.1 hq
      rw [h1 q hq', hv]
      rcases hc : s.constr q with _ | v
      · simp
      · have : p ≠ q := by rintro rfl; rw [hv] at hc; cases hc
        simp [this, hx q hq' v hc]
    rw [e, Finset.sum_sub_distrib]
    simp
  constructor
  · intro h
    have hx : ∀ p < s.N, ∀ v, s.constr p = some v → x p = v := by
      intro p hp v hv
      obtain ⟨h1, h2⟩ := row_c p hp v hv
      rw [← h1, h p hp, h2]
    exact ⟨hx, fun p hp hv => (row_f hx p hp hv).1 (h p hp)⟩
  · rintro ⟨hx, hf⟩ p hp
    rcases hv : s.constr p with _ | v
    · exact (row_f hx p hp hv).2 (hf p hp hv)
    · obtain ⟨h1, h2⟩ := row_c p hp v hv
      rw [h1, h2, hx p hp v hv]

/-- The residual at a degree of freedom is the sum of the end forces of the
members meeting there, plus the spring force. -/
theorem System.residual_node (s : System K) (d : ℕ → K) (j : ℕ) (hj : j ≤ s.n) (c : Fin 2) :
    s.residual d (2 * j + c)
      = (if 0 < j then s.endForces d (j - 1) ⟨2 + c, by omega⟩ else 0)
        + (if j < s.n then s.endForces d j ⟨c, by omega⟩ else 0)
        + s.spring (2 * j + c) * d (2 * j + c) := by
  have hc := c.isLt
  have hp : 2 * j + c < s.N := by simp only [System.N]; omega
  rw [System.residual, s.mulN_assemble d _ hp, s.forces_eq, sum_blocks_node _ _ _ hj,
    sum_blocks_node _ _ _ hj]
  simp only [System.endForces, Pi.add_apply]
  by_cases h1 : 0 < j <;> by_cases h2 : j < s.n <;> simp only [h1, h2, if_true, if_false] <;> ring

/-! ### From beams to systems -/

theorem mapE_ok {α β : Type*} {f : α → Except PyErr β} {l : List α} {r : List β}
    (h : mapE f l = .ok r) : r.length = l.length ∧
      ∀ i (hi : i < l.length) (hi' : i < r.length), f l[i] = .ok r[i] := by
  induction l generalizing r with
  | nil =>
    cases h
    simp
  | cons a l ih =>
    simp only [mapE] at h
    split at h
    · cases h
    · rename_i b hb
      split at h
      · cases h
      · rename_i bs hbs
        cases h
        obtain ⟨h1, h2⟩ := ih hbs
        refine ⟨by simp [h1], ?_⟩
        intro i hi hi'
        cases i with
        | zero => simpa using hb
        | succ i => simpa using h2 i (by simpa using hi) (by simpa using hi')

/-- Length of span `i`. -/
def BeamDef.spanL (b : BeamDef K) (i : ℕ) : K := (b.members.map Member.L).getD i 0

theorem BeamDef.system_ok {b : BeamDef K} {s : System K} (h : b.system = .ok s) :
    s.n = b.members.length ∧
    (∀ i (hi : i < b.members.length), b.members[i].spanK = .ok (s.kb i)) ∧
    (∃ ls, b.setLoads = .ok ls ∧ ∀ i (hi : i < b.members.length),
      ∃ c, b.members[i].refSum i ls = .ok c ∧ s.ref i = c.vec) ∧
    (∀ i, s.r i = b.restraints.getD i 0) ∧ (∀ i, s.presc i = b.presc.getD i none) ∧
    s.N ≤ b.restraints.length ∧ s.N ≤ b.presc.length := by
  unfold BeamDef.system at h
  split at h
  · cases h
  rename_i ls hls
  split at h
  · cases h
  rename_i refs hrefs
  split at h
  · cases h
  rename_i ks hks
  split at h
  · cases h
  rename_i hlen
  cases h
  obtain ⟨r1, r2⟩ := mapE_ok hrefs
  obtain ⟨k1, k2⟩ := mapE_ok hks
  simp only [List.length_zipIdx] at r1 r2
  refine ⟨rfl, ?_, ⟨ls, hls, ?_⟩, fun _ => rfl, fun _ => rfl, ?_, ?_⟩
  · intro i hi
    rw [k2 i hi (by omega)]
    simp only
    rw [List.getD_eq_getElem?_getD, List.getElem?_eq_getElem (by omega), Option.getD_some]
  · intro i hi
    have := r2 i hi (by omega)
    simp only [List.getElem_zipIdx, Nat.zero_add] at this
    refine ⟨_, this, ?_⟩
    simp only
    rw [List.getD_eq_getElem?_getD, List.getElem?_eq_getElem (by omega), Option.getD_some]
  · simp only [System.N]; omega
  · simp only [System.N]; omega

theorem BeamDef.analyze_ok {b : BeamDef K} {stable : System K → Bool} {solve : Solver K}
    {res : Result K} (h : b.analyze stable solve = .ok res) :
    ∃ s, b.system = .ok s ∧ s.analyze solve = .ok res := by
  unfold BeamDef.analyze at h
  split at h
  · cases h
  · rename_i s hs
    split at h
    · cases h
    · exact ⟨s, hs, h⟩

theorem System.analyze_ok {s : System K} {solve : Solver K} (hs : solve.Sound) {res : Result K}
    (h : s.analyze solve = .ok res) :
    ((∀ p < s.N, ∀ v, s.constr p = some v → res.d p = v) ∧
      (∀ p < s.N, s.constr p = none → s.residual res.d p = 0)) ∧
    res.r = s.reactions res.d ∧ res.rs = s.springForces res.d ∧
    res.fmbr = s.endForces res.d ∧ s.validate s.forces = true := by
  unfold System.analyze at h
  simp only at h
  split at h
  · rename_i hv
    split at h
    · cases h
    · rename_i d hd
      cases h
      have := (s.reduced_iff s.assemble s.forces d).1 (hs _ _ _ _ hd)
      refine ⟨⟨this.1, fun p hp hc => ?_⟩, rfl, rfl, rfl, hv⟩
      simp only [System.residual, this.2 p hp hc, sub_self]
  · cases h

end PyCBA
