import Verif.Nonlinear.Balance
import Verif.LoadCases.Comb
import Mathlib.Tactic.IntervalCases
import Mathlib.Tactic.NormNum

/-!
C84, C85 (supports, collapse) and concrete cases of the nonlinear theorems.
-/

set_option linter.unusedSectionVars false
set_option linter.unusedSimpArgs false

namespace PyCBA

open Matrix

variable {K : Type*} [Field K] [LinearOrder K] [IsStrictOrderedRing K]

/-! ### C84: supports -/

/-- **C84**: the degrees of freedom held are exactly those of the nodes at the supports
whose restraint is `-1`.  Other restraints (springs): `C84_springs_violation`. -/
theorem C84_supports_partial [FloorRing K] (L : List K) (EI : SpanArg (Rigidity K)) (R : List K)
    (Mp : SpanArg K) (My : Option (SpanArg K)) (q ms : K) (c : NL K)
    (h : NL.new L EI R Mp My q ms = .ok c) (hL : ∀ l ∈ L, 0 < l) (p : ℕ) :
    p ∈ c.bc ↔ ∃ i ≤ L.length, ∃ j ≤ c.nElem, c.x j = (L.take i).sum ∧
      ((p = 2 * j ∧ R.getD (2 * i) 0 = -1) ∨ (p = 2 * j + 1 ∧ R.getD (2 * i + 1) 0 = -1)) := by
  obtain ⟨g, hS⟩ := NL.new_geo h hL
  obtain ⟨_, _, _, _, hm, hbc, _⟩ := NL.new_ok h
  rw [← hm] at hbc
  unfold bcDofs at hbc
  split at hbc
  · cases hbc
  · have hbc := (Except.ok.inj hbc).symm
    -- the node found is the one at the support
    have hnode : ∀ i ≤ L.length, ∀ j ≤ c.nElem, c.x j = (L.take i).sum →
        argminAbs c.mesh.nodes (spanStart L i) = j := by
      intro i _ j hj hx
      obtain ⟨h1, h2⟩ := argminAbs_nodes g (spanStart L i)
      have h3 := h2 j hj
      have hx' : c.x j = spanStart L i := hx
      rw [hx', sub_self, abs_zero] at h3
      have h4 : c.x (argminAbs c.mesh.nodes (spanStart L i)) = spanStart L i := by
        have := abs_eq_zero.1 (le_antisymm h3 (abs_nonneg _))
        linarith
      rcases Nat.lt_trichotomy (argminAbs c.mesh.nodes (spanStart L i)) j with hlt | he | hgt
      · have := g.lt hlt hj
        linarith
      · exact he
      · have := g.lt hgt h1
        linarith
    rw [hbc, List.mem_flatMap]
    constructor
    · rintro ⟨i, hi, hp⟩
      rw [List.mem_range] at hi
      obtain ⟨j, hj, hx⟩ := g.supports i (by rw [hS]; omega)
      rw [hS] at hx
      rw [hnode i (by omega) j hj hx] at hp
      refine ⟨i, by omega, j, hj, hx, ?_⟩
      rcases List.mem_append.1 hp with hp | hp
      · split at hp
        · rename_i hR
          exact Or.inl ⟨List.mem_singleton.1 hp, hR⟩
        · cases hp
      · split at hp
        · rename_i hR
          exact Or.inr ⟨List.mem_singleton.1 hp, hR⟩
        · cases hp
    · rintro ⟨i, hi, j, hj, hx, hp⟩
      refine ⟨i, List.mem_range.2 (by omega), ?_⟩
      simp only
      rw [hnode i hi j hj hx, List.mem_append]
      rcases hp with ⟨rfl, hR⟩ | ⟨rfl, hR⟩
      · left
        rw [if_pos hR]
        exact List.mem_singleton_self _
      · right
        rw [if_pos hR]
        exact List.mem_singleton_self _

/-- **C84 fails** for springs: two restraint vectors with `-1` in the same places give the
same analysis object, whatever their other entries are. -/
theorem C84_springs_violation [FloorRing K] (L : List K) (EI : SpanArg (Rigidity K)) (R R' : List K)
    (Mp : SpanArg K) (My : Option (SpanArg K)) (q ms : K) (hl : R.length = R'.length)
    (h : ∀ p, R.getD p 0 = -1 ↔ R'.getD p 0 = -1) :
    NL.new L EI R Mp My q ms = NL.new L EI R' Mp My q ms := by
  have : ∀ nodes, bcDofs nodes L R = bcDofs nodes L R' := by
    intro nodes
    unfold bcDofs
    rw [hl]
    simp only [h]
  unfold NL.new
  simp only [this]

/-! ### C85: collapse -/

theorem NL.clusters_length (x : ℕ → K) (tol : K) (l : List ℕ) : ∀ acc : List (List ℕ),
    (NL.clusters x tol l acc).length ≤ acc.length + l.length := by
  induction l with
  | nil => intro acc; simp [NL.clusters]
  | cons n l ih =>
    intro acc
    match acc with
    | [] =>
      unfold NL.clusters
      have := ih [[n]]
      simp only [List.length_cons, List.length_nil] at this ⊢
      omega
    | [] :: acc =>
      unfold NL.clusters
      have := ih ([n] :: [] :: acc)
      simp only [List.length_cons] at this ⊢
      omega
    | (m :: ms) :: acc =>
      unfold NL.clusters
      split
      · have := ih ((n :: m :: ms) :: acc)
        simp only [List.length_cons] at this ⊢
        omega
      · have := ih ([n] :: (m :: ms) :: acc)
        simp only [List.length_cons] at this ⊢
        omega

/-- The chord rotation of element `i`. -/
def NL.chord (c : NL K) (v : ℕ → K) (i : ℕ) : K := (v (i + 1) - v i) / c.len i

/-- A plastic mechanism with the given hinges: a motion of the nodes that leaves all
elements straight, the supports in place, and kinks the beam (or turns it at a clamped
end) at hinges only. -/
structure NL.Motion (c : NL K) (hinged : List ℕ) (v : ℕ → K) : Prop where
  moves : ∃ j ≤ c.nElem, v j ≠ 0
  held : ∀ j ≤ c.nElem, 2 * j ∈ c.bc → v j = 0
  straight : ∀ j, 0 < j → j < c.nElem → j ∉ hinged → c.chord v (j - 1) = c.chord v j
  clampedR : ∀ j < c.nElem, j ∉ hinged → 2 * j + 1 ∈ c.bc → c.chord v j = 0
  clampedL : ∀ j < c.nElem, j + 1 ∉ hinged → 2 * (j + 1) + 1 ∈ c.bc → c.chord v j = 0

/-- A rank test that finds every singular matrix. -/
def RankComplete (deficient : ℕ → (ℕ → ℕ → K) → Bool) : Prop :=
  ∀ N A u, (∃ p < N, u p ≠ 0) → (∀ p < N, mulN N A u p = 0) → deficient N A = true

theorem NL.testR_step (n : ℕ) (R : ℕ → Fin 2 → K) (j i : ℕ) (hi : i < n) (a : Fin 2) :
    (let R := if 0 < j then fun i a => if i = j - 1 ∧ a = 1 then 0 else R i a else R
     if j < n then fun i a => if i = j ∧ a = 0 then 0 else R i a else R) i a
      = if (a = 1 ∧ i + 1 = j) ∨ (a = 0 ∧ i = j) then 0 else R i a := by
  by_cases h0 : 0 < j <;> by_cases hn : j < n <;> simp only [h0, hn, if_true, if_false] <;>
  · fin_cases a
    · by_cases hij : i = j
      · subst hij
        simp; try omega
      · simp [hij]
    · by_cases hij : i + 1 = j
      · have : i = j - 1 := by omega
        (simp [hij, this]; try omega)
      · have : i ≠ j - 1 ∨ j = 0 := by omega
        rcases this with this | this
        · simp [hij, this]
        · simp [hij, this] <;> omega

theorem NL.testR_eq (c : NL K) (reps : List ℕ) (i : ℕ) (hi : i < c.nElem) (a : Fin 2) :
    c.testR reps i a = if (a = 1 ∧ i + 1 ∈ reps) ∨ (a = 0 ∧ i ∈ reps) then 0 else 1 := by
  unfold NL.testR
  have key : ∀ (l : List ℕ) (R : ℕ → Fin 2 → K),
      (l.foldl (fun R j =>
        let R := if 0 < j then fun i a => if i = j - 1 ∧ a = 1 then 0 else R i a else R
        if j < c.nElem then fun i a => if i = j ∧ a = 0 then 0 else R i a else R) R) i a
        = if (a = 1 ∧ i + 1 ∈ l) ∨ (a = 0 ∧ i ∈ l) then 0 else R i a := by
    intro l
    induction l with
    | nil => intro R; simp
    | cons j l ih =>
      intro R
      rw [List.foldl_cons, ih, NL.testR_step c.nElem R j i hi a]
      simp only [List.mem_cons]
      by_cases h : (a = 1 ∧ i + 1 ∈ l) ∨ (a = 0 ∧ i ∈ l)
      · rw [if_pos h, if_pos (by tauto)]
      · rw [if_neg h]
        by_cases h' : (a = 1 ∧ i + 1 = j) ∨ (a = 0 ∧ i = j)
        · rw [if_pos h', if_pos (by tauto)]
        · rw [if_neg h', if_neg (by tauto)]
  exact key reps _

/-- The forces of an element released where the test says so vanish in a rigid motion. -/
theorem NL.kR_rigid (c : NL K) (R : ℕ → Fin 2 → K) (i : ℕ) (hL : c.len i ≠ 0) (w : Vec4 K)
    (hR : ∀ a, R i a = 0 ∨ R i a = 1) (h0 : R i 0 = 1 → w 1 = (w 2 - w 0) / c.len i)
    (h1 : R i 1 = 1 → w 3 = (w 2 - w 0) / c.len i) (a : Fin 4) : (c.kR R i *ᵥ w) a = 0 := by
  unfold NL.kR
  rcases hR 0 with e0 | e0 <;> rcases hR 1 with e1 | e1
  · rw [e0, e1, if_pos le_rfl]
    simp
  · rw [e0, e1, if_neg (by simp), zero_smul, zero_add, sub_zero, one_smul]
    have := h1 e1
    rw [eq_div_iff hL] at this
    have e : w 2 = w 0 + w 3 * c.len i := by linear_combination -this
    fin_cases a <;>
    · simp only [NL.k1, nlPF, Matrix.mulVec, dotProduct, Fin.sum_univ_four, Matrix.smul_apply, smul_eq_mul]
      rw [e]
      simp
      try ring
  · rw [e0, e1, if_pos (by simp), zero_smul, zero_add, sub_zero, one_smul]
    have := h0 e0
    rw [eq_div_iff hL] at this
    have e : w 2 = w 0 + w 1 * c.len i := by linear_combination -this
    fin_cases a <;>
    · simp only [NL.k2, nlFP, Matrix.mulVec, dotProduct, Fin.sum_univ_four, Matrix.smul_apply, smul_eq_mul]
      rw [e]
      simp
      try ring
  · rw [e0, e1, if_pos le_rfl, one_smul, sub_self, zero_smul, add_zero]
    have h0 := h0 e0
    have h1 := h1 e1
    rw [← h0] at h1
    rw [eq_div_iff hL] at h0
    have e : w 2 = w 0 + w 1 * c.len i := by linear_combination -h0
    fin_cases a <;>
    · simp only [NL.ke, nlFF, Matrix.mulVec, dotProduct, Fin.sum_univ_four, Matrix.smul_apply, smul_eq_mul]
      rw [e, h1]
      simp
      ring

/-- The constrained matrix annihilates a vector that is zero at the supports and gives no
nodal forces. -/
theorem NL.bcK_null (c : NL K) (A : ℕ → ℕ → K) (u : ℕ → K) (N : ℕ) (h1 : ∀ p < N, p ∈ c.bc → u p = 0)
    (h2 : ∀ p < N, mulN N A u p = 0) : ∀ p < N, mulN N (c.bcK A) u p = 0 := by
  intro p hp
  by_cases hb : p ∈ c.bc
  · rw [mulN]
    refine Finset.sum_eq_zero fun q _ => ?_
    rw [NL.bcK, NL.bcK_eq, if_pos (Or.inl hb)]
    by_cases h : p = q
    · rw [← h, h1 p hp hb, mul_zero]
    · rw [if_neg h, zero_mul]
  · rw [← h2 p hp, mulN, mulN]
    refine Finset.sum_congr rfl fun q hq => ?_
    rw [NL.bcK, NL.bcK_eq]
    by_cases hqb : q ∈ c.bc
    · rw [h1 q (Finset.mem_range.1 hq) hqb, mul_zero, mul_zero]
    · rw [if_neg (by push Not; exact ⟨hb, hqb⟩)]

theorem NL.sum_block_zero (n : ℕ) (f : ℕ → Vec4 K) (h : ∀ i < n, ∀ a, f i a = 0) (p : ℕ) :
    ∑ i ∈ Finset.range n, blockVec (2 * i) (f i) p = 0 := by
  refine Finset.sum_eq_zero fun i hi => ?_
  rw [blockVec_eq_sum]
  refine Finset.sum_eq_zero fun a _ => ?_
  rw [h i (Finset.mem_range.1 hi)]
  simp

/-- **C85** (detection): if the representative hinges, two or more, allow a mechanism, a
rank test that finds singular matrices reports it. -/
theorem C85_detects_partial [FloorRing K] (L : List K) (EI : SpanArg (Rigidity K)) (R : List K)
    (Mp : SpanArg K) (My : Option (SpanArg K)) (q ms : K) (c : NL K)
    (h : NL.new L EI R Mp My q ms = .ok c) (hL : ∀ l ∈ L, 0 < l)
    (deficient : ℕ → (ℕ → ℕ → K) → Bool) (hd : RankComplete deficient) (hinged : List ℕ)
    (h2 : 2 ≤ (c.clusterHinges hinged).length) (v : ℕ → K)
    (hm : c.Motion (c.clusterHinges hinged) v) : c.isMechanism deficient hinged = true := by
  obtain ⟨g, -⟩ := NL.new_geo h hL
  set reps := c.clusterHinges hinged with hreps
  unfold NL.isMechanism
  rw [← hreps, if_neg (by omega)]
  have hN : c.nDof = 2 * c.nElem + 2 := by rw [NL.nDof, g.nodes]; ring
  rw [hN]
  -- displacements, with the rotation of the element next to a node
  set u : ℕ → K := fun p => if p % 2 = 0 then v (p / 2)
    else if p / 2 ∈ reps then 0
    else if p / 2 < c.nElem then c.chord v (p / 2)
    else if 0 < p / 2 then c.chord v (p / 2 - 1) else 0 with hu
  have hu0 : ∀ j, u (2 * j) = v j := by
    intro j
    simp only [hu]
    rw [if_pos (by omega), show 2 * j / 2 = j by omega]
  have hu1 : ∀ j, u (2 * j + 1) = if j ∈ reps then 0
      else if j < c.nElem then c.chord v j else if 0 < j then c.chord v (j - 1) else 0 := by
    intro j
    simp only [hu]
    rw [if_neg (by omega), show (2 * j + 1) / 2 = j by omega]
  obtain ⟨j₀, hj₀, hv₀⟩ := hm.moves
  have hlen : ∀ k < c.nElem, c.len k ≠ 0 := fun k hk => (g.step k hk).1.ne'
  refine hd _ _ u ⟨2 * j₀, by omega, by rw [hu0]; exact hv₀⟩ ?_
  apply NL.bcK_null
  · intro p hp hb
    rcases Nat.even_or_odd' p with ⟨j, rfl | rfl⟩
    · rw [hu0]
      exact hm.held j (by omega) hb
    · rw [hu1]
      split
      · rfl
      · rename_i hr
        split
        · rename_i hlt
          exact hm.clampedR j hlt hr hb
        · have hj : j = c.nElem := by omega
          subst hj
          split
          swap
          · rfl
          refine hm.clampedL (c.nElem - 1) (by omega) ?_ ?_
          · rw [show c.nElem - 1 + 1 = c.nElem by omega]; exact hr
          · rw [show c.nElem - 1 + 1 = c.nElem by omega]; exact hb
  · intro p _
    rw [NL.mulN_assembleK]
    apply NL.sum_block_zero
    intro i hi a
    apply NL.kR_rigid c _ i (hlen i hi)
    · intro a
      rw [c.testR_eq reps i hi]
      split
      · exact Or.inl rfl
      · exact Or.inr rfl
    · intro h1
      rw [c.testR_eq reps i hi] at h1
      have hr : i ∉ reps := by
        intro hr
        rw [if_pos (Or.inr ⟨rfl, hr⟩)] at h1
        exact zero_ne_one h1
      show u (2 * i + 1) = (u (2 * i + 2) - u (2 * i)) / _
      rw [hu1, if_neg hr, if_pos hi, show 2 * i + 2 = 2 * (i + 1) by ring, hu0, hu0, NL.chord]
    · intro h1
      rw [c.testR_eq reps i hi] at h1
      have hr : i + 1 ∉ reps := by
        intro hr
        rw [if_pos (Or.inl ⟨rfl, hr⟩)] at h1
        exact zero_ne_one h1
      show u (2 * i + 3) = (u (2 * i + 2) - u (2 * i)) / _
      rw [show 2 * i + 3 = 2 * (i + 1) + 1 by ring, hu1, if_neg hr,
        show 2 * i + 2 = 2 * (i + 1) by ring, hu0, hu0]
      have e : (v (i + 1) - v i) / c.len i = c.chord v i := rfl
      rw [e]
      split
      · rename_i hlt
        exact (hm.straight (i + 1) (by omega) hlt hr).symm
      · rw [if_pos (by omega)]
        rfl

/-- **C85 fails** (missed collapse): with fewer than two hinges the mechanism test is
never positive, whatever the rank of the stiffness matrix, so a single hinge that makes a
mechanism (every statically determinate beam) is not noticed. -/
theorem C85_single_hinge_violation (c : NL K) (deficient : ℕ → (ℕ → ℕ → K) → Bool) (hinged : List ℕ)
    (h : hinged.length < 2) : c.isMechanism deficient hinged = false := by
  unfold NL.isMechanism
  rw [if_pos]
  unfold NL.clusterHinges
  simp only [List.length_reverse, List.length_map]
  have := NL.clusters_length c.x (2 * (c.mesh.elemL.foldl min (c.mesh.elemL.headD 0)))
    (hinged.insertionSort (· ≤ ·)) []
  rw [List.length_insertionSort] at this
  simp only [List.length_nil] at this
  omega

/-- **C85 fails** (false collapse): with two representative hinges of which one has a
free rotation, the test matrix has a zero row, so every rank test that finds singular
matrices reports a mechanism, whether or not there is one. -/
theorem C85_false_collapse_violation (c : NL K) (hn : c.nNodes = c.nElem + 1)
    (deficient : ℕ → (ℕ → ℕ → K) → Bool) (hd : RankComplete deficient) (hinged : List ℕ)
    (h2 : 2 ≤ (c.clusterHinges hinged).length) (j : ℕ) (hj : j ∈ c.clusterHinges hinged)
    (hje : j ≤ c.nElem) (hb : 2 * j + 1 ∉ c.bc) : c.isMechanism deficient hinged = true := by
  set reps := c.clusterHinges hinged with hreps
  unfold NL.isMechanism
  rw [← hreps, if_neg (by omega)]
  have hN : c.nDof = 2 * c.nElem + 2 := by rw [NL.nDof, hn]; ring
  rw [hN]
  refine hd _ _ (fun p => if p = 2 * j + 1 then 1 else 0) ⟨2 * j + 1, by omega, by simp⟩ ?_
  apply NL.bcK_null
  · intro p _ hp
    rw [if_neg]
    rintro rfl
    exact hb hp
  · intro p _
    rw [NL.mulN_assembleK]
    apply NL.sum_block_zero
    intro i hi a
    have h0 := c.testR_eq reps i hi 0
    have h1 := c.testR_eq reps i hi 1
    have hw : elemVec (fun p => if p = 2 * j + 1 then (1 : K) else 0) i
        = fun b : Fin 4 => if 2 * i + (b : ℕ) = 2 * j + 1 then 1 else 0 := rfl
    by_cases e1 : i = j
    · subst e1
      rw [if_pos (Or.inr ⟨rfl, hj⟩)] at h0
      have hw' : elemVec (fun p => if p = 2 * i + 1 then (1 : K) else 0) i = ![0, 1, 0, 0] := by
        rw [hw]
        ext b
        fin_cases b <;> simp
      rw [hw']
      unfold NL.kR
      rw [h0]
      split
      · rename_i hle
        have : c.testR reps i 1 = 0 := by
          rw [h1] at hle ⊢
          split at hle
          · rw [if_pos (by assumption)]
          · exact absurd hle (by simp)
        rw [this]
        simp
      · rw [zero_smul, zero_add]
        fin_cases a <;>
          simp [NL.k1, nlPF, Matrix.mulVec, dotProduct, Fin.sum_univ_four, Matrix.smul_apply, smul_eq_mul]
    · by_cases e2 : i + 1 = j
      · rw [if_pos (Or.inl ⟨rfl, by rw [e2]; exact hj⟩)] at h1
        have hw' : elemVec (fun p => if p = 2 * j + 1 then (1 : K) else 0) i = ![0, 0, 0, 1] := by
          rw [hw, ← e2]
          ext b
          fin_cases b <;> simp <;> omega
        rw [hw']
        have hnn : c.testR reps i 1 ≤ c.testR reps i 0 := by
          rw [h1, h0]
          split <;> simp
        unfold NL.kR
        rw [if_pos hnn, h1, zero_smul, zero_add]
        fin_cases a <;>
          simp [NL.k2, nlFP, Matrix.mulVec, dotProduct, Fin.sum_univ_four, Matrix.smul_apply, smul_eq_mul]
      · have hw' : elemVec (fun p => if p = 2 * j + 1 then (1 : K) else 0) i = 0 := by
          rw [hw]
          ext b
          have := b.isLt
          simp only [Pi.zero_apply]
          rw [if_neg]
          omega
        rw [hw', Matrix.mulVec_zero]
        rfl

/-! ### Concrete cases -/

/-- A cantilever of length 1 held at the left, one element, plastic moment 1. -/
def exCantL : Except PyErr (NL ℚ) :=
  NL.new [1] (.all (.const 1)) [-1, -1, 0, 0] (.all 1) none (1 / 10) 1

/-- The same held at the right. -/
def exCantR : Except PyErr (NL ℚ) :=
  NL.new [1] (.all (.const 1)) [0, 0, -1, -1] (.all 1) none (1 / 10) 1

/-- Two spans of two elements each with different rigidities. -/
def exTwo : Except PyErr (NL ℚ) :=
  NL.new [2, 4] (.each [.const 1, .const 5]) [-1, 0, -1, 0, -1, 0] (.each [7, 9]) none (1 / 10) 2

-- C67, C84: the third element lies in the second span but has the rigidity of the first
example : (exTwo.toOption.map fun c => (c.mesh.nodes, c.EI, c.Mp, c.bc))
    = some ([0, 2, 4, 6], [1, 1, 5], [7, 7, 9, 9], [0, 2, 6]) := by decide +kernel

-- the hypotheses of C67, C68, C82, C84 hold there; one of each load
example : ∃ c, exTwo = .ok c ∧ (∀ k < c.nElem, (1 : ℚ) / 10 ^ 10 < c.len k) ∧
    ∀ r ∈ ([⟨1, 1, [3]⟩, ⟨2, 2, [5, 1]⟩] : List (Row ℚ)), nlSupported [2, 4] r := by
  obtain ⟨c, hc, h⟩ := ok_of_map (x := exTwo) (f := fun c => c.mesh.elemL) (y := [2, 2, 2]) (by decide +kernel)
  refine ⟨c, hc, ?_, ?_⟩
  · intro k hk
    rw [NL.nElem, h] at hk
    rw [NL.len, h]
    have : k = 0 ∨ k = 1 ∨ k = 2 := by simp at hk; omega
    rcases this with rfl | rfl | rfl <;> norm_num
  · intro r hr
    simp only [List.mem_cons, List.not_mem_nil, or_false] at hr
    rcases hr with rfl | rfl
    · exact ⟨by simp, by simp, Or.inl ⟨rfl, 3, [], rfl⟩⟩
    · refine ⟨by simp, by simp, Or.inr ⟨rfl, 5, 1, [], rfl, ?_, ?_⟩⟩ <;> norm_num

/-- The increments of the displacements of `exCantL` under a tip load of 9: elastic,
yielding, with a hinge. -/
def exCantLSolver : Solver ℚ :=
  listSolver [fun p => [0, 0, -3 / 10, -9 / 20].getD p 0,
    fun p => ([0, 0, -1137 / 3160, -1611 / 3160] : List ℚ).getD p 0,
    fun p => ([0, 0, -93 / 4000, -99 / 4000] : List ℚ).getD p 0]

set_option synthInstance.maxHeartbeats 200000 in
set_option synthInstance.maxSize 2000 in
/-- C65, C66, C82: three steps on the cantilever; the clamp yields in the first and
hinges in the second, and the moments go on in balance with the load. -/
example : ∃ c res, exCantL = .ok c ∧ exCantLSolver.Sound ∧
    c.analyze exCantLSolver (fun _ _ => true) [⟨1, 2, [9, 1]⟩] 1 1 3 = .ok res ∧
    res.lam = 201 / 1000 ∧ res.collapsed = false ∧
    res.st.events.map (fun e => (e.factor, e.node, e.plastic)) = [(1 / 10, 0, false), (1 / 5, 0, true)] ∧
    res.hist.map (fun h => (h.1, h.2 0)) = [(1 / 10, 9 / 10), (1 / 5, 9 / 5), (201 / 1000, 1809 / 1000)] ∧
    res.st.R 0 0 = 1 / 10 ∧ res.st.R 0 1 = 1 := by
  obtain ⟨r, hr, h⟩ := ok_of_map (x := match exCantL with
      | .error e => .error e
      | .ok c => match c.analyze exCantLSolver (fun _ _ => true) [⟨1, 2, [9, 1]⟩] 1 1 3 with
        | .error e => .error e
        | .ok res => .ok (c, res))
    (f := fun r => (r.2.lam, r.2.collapsed, r.2.st.events.map (fun e => (e.factor, e.node, e.plastic)),
      r.2.hist.map (fun h => (h.1, h.2 0)), r.2.st.R 0 0, r.2.st.R 0 1))
    (y := (201 / 1000, false, [(1 / 10, 0, false), (1 / 5, 0, true)],
      [(1 / 10, 9 / 10), (1 / 5, 9 / 5), (201 / 1000, 1809 / 1000)], 1 / 10, 1)) (by decide +kernel)
  split at hr
  · cases hr
  · rename_i c hc
    split at hr
    · cases hr
    · rename_i res hres
      cases hr
      simp only [Prod.mk.injEq] at h
      exact ⟨c, res, hc, listSolver_sound _, hres, h⟩

/-- C83: a load of 1 in one step stays elastic. -/
example : ∃ c res, exCantL = .ok c ∧
    c.analyze (listSolver [fun p => [0, 0, -1 / 30, -1 / 20].getD p 0]) (fun _ _ => true)
      [⟨1, 2, [1, 1]⟩] 1 1 2 = .ok res ∧ res.lam = 1 / 5 ∧ res.st.yielded = [] ∧ res.st.mom 0 = 1 / 5 := by
  obtain ⟨r, hr, h⟩ := ok_of_map (x := match exCantL with
      | .error e => .error e
      | .ok c => match c.analyze (listSolver [fun p => [0, 0, -1 / 30, -1 / 20].getD p 0])
          (fun _ _ => true) [⟨1, 2, [1, 1]⟩] 1 1 2 with
        | .error e => .error e
        | .ok res => .ok (c, res))
    (f := fun r => (r.2.lam, r.2.st.yielded, r.2.st.mom 0)) (y := (1 / 5, [], 1 / 5)) (by decide +kernel)
  split at hr
  · cases hr
  · rename_i c hc
    split at hr
    · cases hr
    · rename_i res hres
      cases hr
      simp only [Prod.mk.injEq] at h
      exact ⟨c, res, hc, hres, h⟩

/-- **C65 fails** at the first position of a moving load: a load of 5 on the free end of a
cantilever whose plastic moment is 1 puts five times that moment into the clamp, which
the history shows; yet the recorded demand stays zero, there is no event and no collapse,
because the moments after the last sub-increment at that position are not assessed. -/
theorem C65_first_position_violation :
    ∃ (c : NL ℚ) (solve : Solver ℚ) (res : NLResult ℚ), exCantR = .ok c ∧ solve.Sound ∧
      c.analyzeMoving solve (fun _ _ => true) [(5, 0)] 0 1 1 1 = .ok res ∧
      res.hist.map (fun h => (h.1, |h.2 1| / c.mp 1)) = [(0, 5), (1, 0)] ∧
      res.st.gmax 1 = 0 ∧ res.st.events.length = 0 ∧ res.collapsed = false := by
  refine (?_ : ∃ (c : NL ℚ) (res : NLResult ℚ), exCantR = .ok c ∧
      c.analyzeMoving (listSolver [fun p => ([-5 / 3, 5 / 2] : List ℚ).getD p 0,
        fun p => ([5 / 3, -5 / 2] : List ℚ).getD p 0, fun _ => 0]) (fun _ _ => true) [(5, 0)] 0 1 1 1
        = .ok res ∧ _).elim fun c h => h.elim fun res h => ⟨c, _, res, h.1, listSolver_sound _, h.2.1, h.2.2⟩
  obtain ⟨r, hr, h⟩ := ok_of_map (x := match exCantR with
      | .error e => .error e
      | .ok c => match c.analyzeMoving (listSolver [fun p => ([-5 / 3, 5 / 2] : List ℚ).getD p 0,
        fun p => ([5 / 3, -5 / 2] : List ℚ).getD p 0, fun _ => 0]) (fun _ _ => true) [(5, 0)] 0 1 1 1 with
        | .error e => .error e
        | .ok res => .ok (c, res))
    (f := fun r => (r.2.hist.map (fun h => (h.1, |h.2 1| / r.1.mp 1)), r.2.st.gmax 1,
      r.2.st.events.length, r.2.collapsed))
    (y := ([(0, 5), (1, 0)], 0, 0, false)) (by decide +kernel)
  split at hr
  · cases hr
  · rename_i c hc
    split at hr
    · cases hr
    · rename_i res hres
      cases hr
      simp only [Prod.mk.injEq] at h
      exact ⟨c, res, hc, hres, h⟩

/-- The single hinge at the clamp of the cantilever makes a mechanism, and is not
reported (`C85_single_hinge_violation`). -/
example : ∃ c, exCantL = .ok c ∧ c.Motion [0] (fun j => j) ∧
    ∀ deficient, c.isMechanism deficient [0] = false := by
  obtain ⟨c, hc, h⟩ := ok_of_map (x := exCantL) (f := fun c => (c.mesh.elemL, c.bc)) (y := ([1], [0, 1]))
    (by decide +kernel)
  simp only [Prod.mk.injEq] at h
  have hn : c.nElem = 1 := by rw [NL.nElem, h.1]; rfl
  refine ⟨c, hc, ⟨⟨1, by omega, by simp⟩, ?_, ?_, ?_, ?_⟩,
    fun d => C85_single_hinge_violation c d [0] (by simp)⟩
  · intro j hj hb
    rw [h.2] at hb
    have : j = 0 := by simp at hb; omega
    simp [this]
  · intro j h1 h2
    omega
  · intro j hj hr
    simp at hr
    omega
  · intro j hj _ hb
    rw [h.2] at hb
    simp at hb

/-- A propped cantilever with hinges at the clamp and at midspan. -/
def exProp : Except PyErr (NL ℚ) :=
  NL.new [6] (.all (.const 1)) [-1, -1, -1, 0] (.all 1) none (1 / 10) 1

-- C85, detection: the hypotheses are met
example : ∃ c, exProp = .ok c ∧ c.clusterHinges [3, 0] = [0, 3] ∧
    c.Motion [0, 3] (fun j => [0, 1, 2, 3, 2, 1, 0].getD j 0) := by
  obtain ⟨c, hc, h⟩ := ok_of_map (x := exProp)
    (f := fun c => (c.mesh.elemL, c.bc, c.clusterHinges [3, 0]))
    (y := ([1, 1, 1, 1, 1, 1], [0, 1, 12], [0, 3])) (by decide +kernel)
  simp only [Prod.mk.injEq] at h
  have hn : c.nElem = 6 := by rw [NL.nElem, h.1]; rfl
  refine ⟨c, hc, h.2.2, ⟨⟨3, by omega, by simp⟩, ?_, ?_, ?_, ?_⟩⟩
  · intro j hj hb
    rw [h.2.1] at hb
    have : j = 0 ∨ j = 6 := by simp at hb; omega
    rcases this with rfl | rfl <;> simp
  · intro j h1 h2 h3
    simp only [NL.chord, NL.len, h.1]
    have : j = 1 ∨ j = 2 ∨ j = 4 ∨ j = 5 := by simp at h3; omega
    rcases this with rfl | rfl | rfl | rfl <;> norm_num
  · intro j hj hr hb
    rw [h.2.1] at hb
    simp at hb hr
    omega
  · intro j hj _ hb
    rw [h.2.1] at hb
    simp at hb
    omega

/-- Three spans on simple supports. -/
def exThree : Except PyErr (NL ℚ) :=
  NL.new [3, 3, 3] (.all (.const 1)) [-1, 0, -1, 0, -1, 0, -1, 0] (.all 1) none (1 / 10) 1

/-- **C85 fails** (false collapse, concrete): hinges over the two inner supports of three
simple spans allow no motion, yet every rank test that finds singular matrices makes the
program report a mechanism. -/
theorem C85_three_spans_violation : ∃ c, exThree = .ok c ∧ (∀ v, ¬ c.Motion [3, 6] v) ∧
    ∀ deficient, RankComplete deficient → c.isMechanism deficient [3, 6] = true := by
  obtain ⟨c, hc, h⟩ := ok_of_map (x := exThree)
    (f := fun c => (c.mesh.elemL, c.bc, c.clusterHinges [3, 6], c.mesh.nodes.length))
    (y := ([1, 1, 1, 1, 1, 1, 1, 1, 1], [0, 6, 12, 18], [3, 6], 10)) (by decide +kernel)
  simp only [Prod.mk.injEq] at h
  obtain ⟨h1, h2, h3, h4⟩ := h
  have hn : c.nElem = 9 := by rw [NL.nElem, h1]; rfl
  refine ⟨c, hc, ?_, fun d hd => ?_⟩
  · intro v hm
    have hl : ∀ i < 9, c.len i = 1 := by
      intro i hi
      rw [NL.len, h1]
      interval_cases i <;> rfl
    have hz : ∀ j ≤ 9, j % 3 = 0 → v j = 0 := by
      intro j hj h0
      apply hm.held j (by omega)
      rw [h2]
      have : j = 0 ∨ j = 3 ∨ j = 6 ∨ j = 9 := by omega
      rcases this with rfl | rfl | rfl | rfl <;> simp
    have hs : ∀ j, 0 < j → j < 9 → j ≠ 3 → j ≠ 6 → v j - v (j - 1) = v (j + 1) - v j := by
      intro j a b e f
      have := hm.straight j a (by omega) (by simp [e, f])
      rw [NL.chord, NL.chord, hl _ (by omega), hl _ b, div_one, div_one,
        show j - 1 + 1 = j by omega] at this
      exact this
    obtain ⟨j, hj, hv⟩ := hm.moves
    apply hv
    have z0 := hz 0 (by omega) rfl
    have z3 := hz 3 (by omega) rfl
    have z6 := hz 6 (by omega) rfl
    have z9 := hz 9 (by omega) rfl
    have s1 := hs 1 (by omega) (by omega) (by omega) (by omega)
    have s2 := hs 2 (by omega) (by omega) (by omega) (by omega)
    have s4 := hs 4 (by omega) (by omega) (by omega) (by omega)
    have s5 := hs 5 (by omega) (by omega) (by omega) (by omega)
    have s7 := hs 7 (by omega) (by omega) (by omega) (by omega)
    have s8 := hs 8 (by omega) (by omega) (by omega) (by omega)
    norm_num at s1 s2 s4 s5 s7 s8
    rw [hn] at hj
    interval_cases j <;> linarith
  · refine C85_false_collapse_violation c (by rw [NL.nNodes, h4, hn]) d hd [3, 6] (by rw [h3]; simp)
      3 (by rw [h3]; simp) (by omega) ?_
    rw [h2]
    simp

end PyCBA
