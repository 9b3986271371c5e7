import Verif.Nonlinear.Loads
import Verif.Nonlinear.State
import Verif.Stiffness.Model
import Mathlib.Tactic.FinCases
import Mathlib.Tactic.LinearCombination

/-!
C82, C83: equilibrium of the nonlinear analyses, and their elastic range.
-/

set_option linter.unusedSectionVars false
set_option linter.unusedSimpArgs false

namespace PyCBA

open Matrix

variable {K : Type*} [Field K] [LinearOrder K] [IsStrictOrderedRing K]

namespace NL

/-! ### Boundary conditions -/

theorem bcK_eq (bc : List ℕ) (A : ℕ → ℕ → K) (p q : ℕ) :
    (bc.foldl (fun A d =>
      let A := fun p q => if p = d then 0 else A p q
      let A := fun p q => if q = d then 0 else A p q
      fun p q => if p = d ∧ q = d then 1 else A p q) A) p q
      = if p ∈ bc ∨ q ∈ bc then (if p = q then 1 else 0) else A p q := by
  induction bc generalizing A with
  | nil => simp
  | cons d bc ih =>
    rw [List.foldl_cons, ih]
    by_cases h : p ∈ bc ∨ q ∈ bc
    · have h' : p ∈ d :: bc ∨ q ∈ d :: bc := by
        rcases h with h | h
        · exact Or.inl (List.mem_cons_of_mem _ h)
        · exact Or.inr (List.mem_cons_of_mem _ h)
      rw [if_pos h, if_pos h']
    · rw [if_neg h]
      push Not at h
      by_cases h1 : p = d <;> by_cases h2 : q = d <;> simp_all
      exact fun h3 => h2 h3.symm

theorem bcF_eq (bc : List ℕ) (F : ℕ → K) (p : ℕ) :
    (bc.foldl (fun F d => fun p => if p = d then 0 else F p) F) p = if p ∈ bc then 0 else F p := by
  induction bc generalizing F with
  | nil => simp
  | cons d bc ih =>
    rw [List.foldl_cons, ih]
    by_cases h : p ∈ bc
    · rw [if_pos h, if_pos (List.mem_cons_of_mem _ h)]
    · rw [if_neg h]
      by_cases h1 : p = d <;> simp_all

/-- A solution of the constrained system is zero at the supports and satisfies the
unconstrained equations elsewhere. -/
theorem bc_solution (c : NL K) (A : ℕ → ℕ → K) (F u : ℕ → K) (N : ℕ)
    (h : ∀ p < N, mulN N (c.bcK A) u p = c.bcF F p) :
    (∀ p < N, p ∈ c.bc → u p = 0) ∧ ∀ p < N, p ∉ c.bc → mulN N A u p = F p := by
  have hz : ∀ p < N, p ∈ c.bc → u p = 0 := by
    intro p hp hb
    have h1 := h p hp
    rw [bcF, bcF_eq, if_pos hb, mulN, Finset.sum_eq_single p] at h1
    · rw [bcK, bcK_eq, if_pos (Or.inl hb), if_pos rfl, one_mul] at h1
      exact h1
    · intro q _ hq
      rw [bcK, bcK_eq, if_pos (Or.inl hb), if_neg (Ne.symm hq), zero_mul]
    · intro hn
      exact absurd (Finset.mem_range.2 hp) hn
  refine ⟨hz, fun p hp hb => ?_⟩
  have h1 := h p hp
  rw [bcF, bcF_eq, if_neg hb] at h1
  rw [← h1, mulN, mulN]
  refine Finset.sum_congr rfl fun q hq => ?_
  rw [bcK, bcK_eq]
  by_cases hqb : q ∈ c.bc
  · rw [hz q (Finset.mem_range.1 hq) hqb, mul_zero, mul_zero]
  · rw [if_neg (by push Not; exact ⟨hb, hqb⟩)]

/-- The assembled matrix times a vector. -/
theorem mulN_assembleK (c : NL K) (k : ℕ → Mat4 K) (u : ℕ → K) (p : ℕ) :
    mulN (2 * c.nElem + 2) (c.assembleK k) u p
      = ∑ i ∈ Finset.range c.nElem, blockVec (2 * i) (k i *ᵥ elemVec u i) p := by
  simp only [mulN, assembleK, blocks_foldl, zero_add, Finset.sum_mul]
  rw [Finset.sum_comm]
  apply Finset.sum_congr rfl
  intro i hi
  have hi' : 2 * i + 4 ≤ 2 * c.nElem + 2 := by
    have := Finset.mem_range.1 hi
    omega
  have hv : ∀ q, blockVec (2 * i) (fun a => blockVec (2 * i) (fun b => k i a b) q) p * u q
      = ∑ a : Fin 4, if p = 2 * i + a then u q * blockVec (2 * i) (fun b => k i a b) q else 0 := by
    intro q
    rw [blockVec_eq_sum, Finset.sum_mul]
    refine Finset.sum_congr rfl fun a _ => ?_
    split <;> ring
  simp only [hv]
  rw [Finset.sum_comm, blockVec_eq_sum]
  refine Finset.sum_congr rfl fun a _ => ?_
  by_cases h : p = 2 * i + a
  · simp only [if_pos h]
    rw [sum_blockVec _ _ hi']
    simp only [Matrix.mulVec, dotProduct, elemVec]
    exact Finset.sum_congr rfl fun b _ => mul_comm _ _
  · simp only [if_neg h, Finset.sum_const_zero]

/-! ### Element equilibrium -/

/-- End forces of an element in equilibrium: opposite shears, in balance with the end
moments. -/
def ElemEq (L : K) (f : Vec4 K) : Prop := f 0 * L = f 1 + f 3 ∧ f 2 = -f 0

theorem ElemEq.smul {L : K} {f : Vec4 K} (h : ElemEq L f) (a : K) : ElemEq L (a • f) := by
  refine ⟨?_, ?_⟩
  · simp only [Pi.smul_apply, smul_eq_mul]
    linear_combination a * h.1
  · simp only [Pi.smul_apply, smul_eq_mul]
    linear_combination a * h.2

theorem ElemEq.add {L : K} {f g : Vec4 K} (h : ElemEq L f) (h' : ElemEq L g) : ElemEq L (f + g) := by
  refine ⟨?_, ?_⟩
  · simp only [Pi.add_apply]
    linear_combination h.1 + h'.1
  · simp only [Pi.add_apply]
    linear_combination h.2 + h'.2

theorem nlFF_eq (EI : K) {L : K} (v : Vec4 K) (hL : L ≠ 0) : ElemEq L (nlFF EI L *ᵥ v) := by
  constructor <;>
  · simp only [nlFF, Matrix.mulVec, dotProduct, Fin.sum_univ_four, Matrix.smul_apply, smul_eq_mul]
    simp
    field_simp
    ring

theorem nlPF_eq (EI : K) {L : K} (v : Vec4 K) (hL : L ≠ 0) : ElemEq L (nlPF EI L *ᵥ v) := by
  constructor <;>
  · simp only [nlPF, Matrix.mulVec, dotProduct, Fin.sum_univ_four, Matrix.smul_apply, smul_eq_mul]
    simp
    field_simp
    try ring

theorem nlFP_eq (EI : K) {L : K} (v : Vec4 K) (hL : L ≠ 0) : ElemEq L (nlFP EI L *ᵥ v) := by
  constructor <;>
  · simp only [nlFP, Matrix.mulVec, dotProduct, Fin.sum_univ_four, Matrix.smul_apply, smul_eq_mul]
    simp
    field_simp
    try ring

theorem kR_eq (c : NL K) (R : ℕ → Fin 2 → K) (i : ℕ) (v : Vec4 K) (hL : c.len i ≠ 0) :
    ElemEq (c.len i) (c.kR R i *ᵥ v) := by
  unfold kR
  split
  · rw [Matrix.add_mulVec, Matrix.smul_mulVec, Matrix.smul_mulVec]
    exact ((nlFF_eq _ v hL).smul _).add ((nlFP_eq _ v hL).smul _)
  · rw [Matrix.add_mulVec, Matrix.smul_mulVec, Matrix.smul_mulVec]
    exact ((nlFF_eq _ v hL).smul _).add ((nlPF_eq _ v hL).smul _)

/-! ### Nodal equilibrium in terms of the moments -/

/-- The moment at the left end of element `i`, from the nodal moments and the applied
nodal moment. -/
def leftM (G m : ℕ → K) (i : ℕ) : K := if i = 0 then m 0 else G (2 * i + 1) - m i

/-- The shear of element `i`: the end moments over the length. -/
def shearM (c : NL K) (G m : ℕ → K) (i : ℕ) : K := (leftM G m i + m (i + 1)) / c.len i

/-- The rotation of node `i` is free, or the node is the first (where the moment is
taken from the element on the right). -/
def FreeRot (c : NL K) (i : ℕ) : Prop := i = 0 ∨ 2 * i + 1 ∉ c.bc

/-- The nodal moments are in equilibrium with nodal loads `G`: the shears of the elements
at a node without vertical support differ by the vertical load there, and free ends carry
the moment applied to them. -/
structure Balanced (c : NL K) (G m : ℕ → K) : Prop where
  inner : ∀ j, 0 < j → j < c.nElem → 2 * j ∉ c.bc → c.FreeRot (j - 1) → c.FreeRot j →
    c.shearM G m j - c.shearM G m (j - 1) = G (2 * j)
  left : 0 < c.nElem → 0 ∉ c.bc → c.shearM G m 0 = G 0
  right : 0 < c.nElem → 2 * c.nElem ∉ c.bc → c.FreeRot (c.nElem - 1) →
    -c.shearM G m (c.nElem - 1) = G (2 * c.nElem)
  leftM : 0 < c.nElem → 1 ∉ c.bc → m 0 = G 1
  rightM : 0 < c.nElem → 2 * c.nElem + 1 ∉ c.bc → m c.nElem = G (2 * c.nElem + 1)

theorem shearM_add (c : NL K) (G G' m m' : ℕ → K) (i : ℕ) :
    c.shearM (fun p => G p + G' p) (fun j => m j + m' j) i = c.shearM G m i + c.shearM G' m' i := by
  unfold shearM NL.leftM
  split <;> ring

theorem Balanced.add {c : NL K} {G G' m m' : ℕ → K} (h : c.Balanced G m) (h' : c.Balanced G' m') :
    c.Balanced (fun p => G p + G' p) (fun j => m j + m' j) := by
  refine ⟨?_, ?_, ?_, ?_, ?_⟩
  · intro j h1 h2 h3 h4 h5
    rw [shearM_add, shearM_add]
    linear_combination h.inner j h1 h2 h3 h4 h5 + h'.inner j h1 h2 h3 h4 h5
  · intro h1 h2
    rw [shearM_add]
    linear_combination h.left h1 h2 + h'.left h1 h2
  · intro h1 h2 h3
    rw [shearM_add]
    linear_combination h.right h1 h2 h3 + h'.right h1 h2 h3
  · intro h1 h2
    linear_combination h.leftM h1 h2 + h'.leftM h1 h2
  · intro h1 h2
    linear_combination h.rightM h1 h2 + h'.rightM h1 h2

theorem balanced_zero (c : NL K) : c.Balanced (fun _ => 0) (fun _ => 0) := by
  refine ⟨?_, ?_, ?_, ?_, ?_⟩ <;> intros <;> simp [shearM, NL.leftM]

theorem Balanced.congr {c : NL K} {G G' m : ℕ → K} (h : c.Balanced G m) (hG : ∀ p, G p = G' p) :
    c.Balanced G' m := by
  rw [← show G = G' from funext hG]
  exact h

/-- One increment with any elements in equilibrium. -/
theorem balanced_step (c : NL K) (hn : c.nNodes = c.nElem + 1) (hlen : ∀ k < c.nElem, c.len k ≠ 0)
    (k : ℕ → Mat4 K) (hk : ∀ i < c.nElem, ∀ v, ElemEq (c.len i) (k i *ᵥ v)) (G u : ℕ → K)
    (h : ∀ p < c.nDof, mulN c.nDof (c.bcK (c.assembleK k)) u p = c.bcF G p) :
    c.Balanced G (c.moments k u) := by
  have hN : c.nDof = 2 * c.nElem + 2 := by rw [nDof, hn]; ring
  rw [hN] at h
  obtain ⟨-, hfree⟩ := bc_solution c _ G u _ h
  set f : ℕ → Vec4 K := fun i => k i *ᵥ elemVec u i with hf
  -- the equations at a node
  have hnode : ∀ j ≤ c.nElem, ∀ r : Fin 2, 2 * j + (r : ℕ) ∉ c.bc →
      (if 0 < j then f (j - 1) ⟨2 + r, by omega⟩ else 0) + (if j < c.nElem then f j ⟨r, by omega⟩ else 0)
        = G (2 * j + r) := by
    intro j hj r hb
    have := hfree (2 * j + r) (by omega) hb
    rw [mulN_assembleK, sum_blocks_node _ _ _ hj] at this
    exact this
  have hm0 : 0 < c.nElem → c.moments k u 0 = f 0 1 := by
    intro h0
    unfold moments
    rw [if_neg (by omega), if_pos rfl]
  have hm : ∀ i < c.nElem, c.moments k u (i + 1) = f i 3 := by
    intro i hi
    unfold moments
    rw [if_neg (by omega), if_neg (by omega)]
    rfl
  have hleft : ∀ i < c.nElem, c.FreeRot i → NL.leftM G (c.moments k u) i = f i 1 := by
    intro i hi hr
    unfold NL.leftM
    by_cases h0 : i = 0
    · subst h0
      rw [if_pos rfl, hm0 hi]
    · rw [if_neg h0]
      have hb : 2 * i + 1 ∉ c.bc := hr.resolve_left h0
      have := hnode i hi.le 1 hb
      rw [if_pos (by omega), if_pos hi] at this
      have h2 := hm (i - 1) (by omega)
      rw [show i - 1 + 1 = i by omega] at h2
      rw [h2]
      have h3 : f (i - 1) 3 + f i 1 = G (2 * i + 1) := this
      linear_combination -h3
  have hshear : ∀ i < c.nElem, c.FreeRot i → c.shearM G (c.moments k u) i = f i 0 := by
    intro i hi hr
    unfold shearM
    rw [hleft i hi hr, hm i hi, div_eq_iff (hlen i hi)]
    exact (hk i hi _).1.symm
  refine ⟨?_, ?_, ?_, ?_, ?_⟩
  · intro j h1 h2 h3 h4 h5
    have := hnode j h2.le 0 h3
    rw [if_pos h1, if_pos h2] at this
    have h6 : f (j - 1) 2 + f j 0 = G (2 * j) := this
    rw [hshear j h2 h5, hshear (j - 1) (by omega) h4]
    have h7 := (hk (j - 1) (by omega) (elemVec u (j - 1))).2
    have h8 : f (j - 1) 2 = -f (j - 1) 0 := h7
    linear_combination h6 - h8
  · intro h0 hb
    have := hnode 0 (by omega) 0 hb
    rw [if_neg (by omega), if_pos h0, zero_add] at this
    rw [hshear 0 h0 (Or.inl rfl)]
    exact this
  · intro h0 hb hr
    have := hnode c.nElem le_rfl 0 hb
    rw [if_pos h0, if_neg (by omega), add_zero] at this
    rw [hshear _ (by omega) hr]
    have h8 : f (c.nElem - 1) 2 = -f (c.nElem - 1) 0 :=
      (hk (c.nElem - 1) (by omega) (elemVec u (c.nElem - 1))).2
    have h9 : f (c.nElem - 1) 2 = G (2 * c.nElem) := this
    linear_combination h9 - h8
  · intro h0 hb
    have := hnode 0 (by omega) 1 hb
    rw [if_neg (by omega), if_pos h0, zero_add] at this
    rw [hm0 h0]
    exact this
  · intro h0 hb
    have := hnode c.nElem le_rfl 1 hb
    rw [if_pos h0, if_neg (by omega), add_zero] at this
    have h2 := hm (c.nElem - 1) (by omega)
    rw [show c.nElem - 1 + 1 = c.nElem by omega] at h2
    rw [h2]
    exact this

/-! ### The update leaves the moments alone -/

theorem updateNode_mom (c : NL K) (lab : K) (s : NLState K × Bool) (j : ℕ) :
    (c.updateNode lab s j).1.mom = s.1.mom := by
  unfold updateNode
  simp only
  split_ifs <;> rfl

theorem updateR_mom (c : NL K) (lab : K) (st : NLState K) : (c.updateR lab st).1.mom = st.mom := by
  unfold updateR
  have : ∀ (l : List ℕ) (s : NLState K × Bool),
      (l.foldl (c.updateNode lab) s).1.mom = s.1.mom := by
    intro l
    induction l with
    | nil => intro s; rfl
    | cons j l ih => intro s; rw [List.foldl_cons, ih, updateNode_mom]
  exact this _ _

/-- What the equilibrium theorems need of the mesh. -/
structure Sized (c : NL K) : Prop where
  nodes : c.nNodes = c.nElem + 1
  len : ∀ k < c.nElem, c.len k ≠ 0

theorem Geo.sized {c : NL K} (g : c.Geo) : c.Sized := ⟨g.nodes, fun k hk => (g.step k hk).1.ne'⟩

theorem balanced_kR {c : NL K} (g : c.Sized) {solve : Solver K} (hs : solve.Sound) (R : ℕ → Fin 2 → K)
    (G u : ℕ → K) (h : solve c.nDof (c.bcK (c.assembleK (c.kR R))) (c.bcF G) = .ok u) :
    c.Balanced G (c.moments (c.kR R) u) :=
  c.balanced_step g.nodes g.len _ (fun i hi v => c.kR_eq R i v (g.len i hi)) G u (hs _ _ _ _ h)

theorem balanced_ke {c : NL K} (g : c.Sized) {solve : Solver K} (hs : solve.Sound)
    (G u : ℕ → K) (h : solve c.nDof (c.bcK (c.assembleK c.ke)) (c.bcF G) = .ok u) :
    c.Balanced G (c.moments c.ke u) :=
  c.balanced_step g.nodes g.len _ (fun i hi v => nlFF_eq _ v (g.len i hi)) G u (hs _ _ _ _ h)

theorem loop_balanced {c : NL K} (g : c.Sized) {solve : Solver K} (hs : solve.Sound)
    (deficient : ℕ → (ℕ → ℕ → K) → Bool) (F : ℕ → K) (lamMax : K) (every fuel : ℕ) :
    ∀ (step : ℕ) (lam : K) (u : ℕ → K) (hist : List (K × (ℕ → K))) (st : NLState K)
      (res : NLResult K), c.Balanced (fun p => lam * F p) st.mom →
      (∀ h ∈ hist, c.Balanced (fun p => h.1 * F p) h.2) →
      c.loop solve deficient F lamMax every fuel step lam u hist st = .ok res →
      c.Balanced (fun p => res.lam * F p) res.st.mom ∧
        ∀ h ∈ res.hist, c.Balanced (fun p => h.1 * F p) h.2 := by
  induction fuel with
  | zero =>
    intro step lam u hist st res h1 h2 h
    cases h
    exact ⟨h1, h2⟩
  | succ fuel ih =>
    intro step lam u hist st res h1 h2 h
    unfold loop at h
    by_cases hl : lam < lamMax
    · rw [if_pos hl] at h
      by_cases h0 : c.nElem = 0
      · rw [if_pos h0] at h
        cases h
      · rw [if_neg h0] at h
        simp only at h
        split at h
        · cases h
          refine ⟨h1.congr fun p => ?_, h2⟩
          simp only
          ring
        · rename_i du hdu
          have hb := balanced_kR g hs st.R _ du hdu
          have hb2 : c.Balanced (fun p => (lam + c.dl st.R lam lamMax) * F p)
              (fun j => st.mom j + c.moments (c.kR st.R) du j) :=
            (h1.add hb).congr fun p => by ring
          split at h
          · cases h
            refine ⟨?_, h2⟩
            simp only
            rw [updateR_mom]
            exact hb2
          · refine ih _ _ _ _ _ _ (by rw [updateR_mom]; exact hb2) ?_ h
            intro x hx
            split at hx
            · rcases List.mem_append.1 hx with hx | hx
              · exact h2 x hx
              · rw [List.mem_singleton] at hx
                rw [hx]
                simp only
                rw [updateR_mom]
                exact hb2
            · exact h2 x hx
    · rw [if_neg hl] at h
      cases h
      exact ⟨h1, h2⟩

theorem reload_balanced {c : NL K} (g : c.Sized) {solve : Solver K} (hs : solve.Sound) (F G : ℕ → K)
    (df lab : K) (st : NLState K) (h : c.Balanced G st.mom)
    (hns : (c.reload solve F df lab st).singular = false) :
    c.Balanced (fun p => G p + df * F p) (c.reload solve F df lab st).st.mom := by
  unfold reload at hns ⊢
  simp only at hns ⊢
  split
  · rename_i e he
    rw [he] at hns
    cases hns
  · rename_i u hu
    simp only
    rw [updateR_mom]
    exact h.add (balanced_kR g hs _ _ u hu)

theorem firstSub_balanced {c : NL K} (g : c.Sized) {solve : Solver K} (hs : solve.Sound) (F : ℕ → K)
    (df lab : K) (n : ℕ) : ∀ (G : ℕ → K) (st : NLState K), c.Balanced G st.mom →
      (c.firstSub solve F df lab n st).singular = false →
      c.Balanced (fun p => G p + n * df * F p) (c.firstSub solve F df lab n st).st.mom := by
  induction n with
  | zero => intro G st h _; exact h.congr fun p => by simp
  | succ n ih =>
    intro G st h hns
    unfold firstSub at hns ⊢
    simp only at hns ⊢
    by_cases hr : (c.reload solve F df lab st).singular = true
    · rw [if_pos hr, hr] at hns
      cases hns
    · rw [if_neg hr] at hns ⊢
      have hr' : (c.reload solve F df lab st).singular = false := by simpa using hr
      refine (ih _ _ (reload_balanced g hs F G df lab st h hr') hns).congr fun p => ?_
      push_cast
      ring

theorem laterSub_balanced {c : NL K} (g : c.Sized) {solve : Solver K} (hs : solve.Sound)
    (Fp F : ℕ → K) (df lab : K) (n : ℕ) : ∀ (G : ℕ → K) (st : NLState K) (r : NLStep K),
      c.Balanced G st.mom → c.laterSub solve Fp F df lab n st = .ok r → r.singular = false →
      c.Balanced (fun p => G p + n * df * (F p - Fp p)) r.st.mom := by
  induction n with
  | zero =>
    intro G st r h hr _
    cases hr
    exact h.congr fun p => by simp
  | succ n ih =>
    intro G st r h hr hns
    unfold laterSub at hr
    split at hr
    · cases hr
    · rename_i st' hst'
      have hb : c.Balanced (fun p => G p + -df * Fp p) st'.mom := by
        unfold unload at hst'
        split at hst'
        · cases hst'
        · rename_i u hu
          cases hst'
          exact h.add (balanced_ke g hs _ u hu)
      simp only at hr
      by_cases hsg : (c.reload solve F df lab st').singular = true
      · rw [if_pos hsg] at hr
        cases hr
        rw [hsg] at hns
        cases hns
      · rw [if_neg hsg] at hr
        have hsg' : (c.reload solve F df lab st').singular = false := by simpa using hsg
        refine (ih _ _ _ (reload_balanced g hs F _ df lab st' hb hsg') hr hns).congr fun p => ?_
        push_cast
        ring

theorem moveLoop_balanced {c : NL K} (g : c.Sized) {solve : Solver K} (hs : solve.Sound)
    (deficient : ℕ → (ℕ → ℕ → K) → Bool) (axles : List (K × K)) (nsub every : ℕ) (hn : nsub ≠ 0)
    (xs : List K) : ∀ (i : ℕ) (last : K) (hist : List (K × (ℕ → K))) (st : NLState K)
      (res : NLResult K), c.Balanced (c.vehicleF axles last) st.mom →
      (∀ h ∈ hist, c.Balanced (c.vehicleF axles h.1) h.2) →
      c.moveLoop solve deficient axles nsub every xs i last (c.vehicleF axles last) hist st = .ok res →
      (res.collapsed = false → c.Balanced (c.vehicleF axles res.lam) res.st.mom) ∧
        ∀ h ∈ res.hist, c.Balanced (c.vehicleF axles h.1) h.2 := by
  have hnK : (nsub : K) ≠ 0 := by exact_mod_cast hn
  induction xs with
  | nil =>
    intro i last hist st res h1 h2 h
    cases h
    exact ⟨fun _ => h1, h2⟩
  | cons x xs ih =>
    intro i last hist st res h1 h2 h
    unfold moveLoop at h
    simp only at h
    split at h
    · cases h
    · rename_i r hr
      by_cases hsg : r.singular = true
      · rw [if_pos hsg] at h
        cases h
        exact ⟨fun hc => by simp at hc, h2⟩
      · rw [if_neg hsg] at h
        have hsg' : r.singular = false := by simpa using hsg
        have hb : c.Balanced (c.vehicleF axles x) r.st.mom :=
          (laterSub_balanced g hs _ _ _ _ _ _ _ _ h1 hr hsg').congr fun p => by
            field_simp
            ring
        split at h
        · cases h
          exact ⟨fun hc => by simp at hc, h2⟩
        · refine ih _ _ _ _ _ (by rw [updateR_mom]; exact hb) ?_ h
          intro y hy
          split at hy
          · rcases List.mem_append.1 hy with hy | hy
            · exact h2 y hy
            · rw [List.mem_singleton] at hy
              rw [hy]
              simp only
              rw [updateR_mom]
              exact hb
          · exact h2 y hy

end NL

/-- **C82** (proportional loading): whatever has yielded, and however the analysis ends,
the reported moments, and those of every history entry, are in equilibrium with the load
factor times the load vector. -/
theorem C82_static [FloorRing K] (L : List K) (EI : SpanArg (Rigidity K)) (R : List K)
    (Mp : SpanArg K) (My : Option (SpanArg K)) (q ms : K) (c : NL K)
    (h : NL.new L EI R Mp My q ms = .ok c) (hL : ∀ l ∈ L, 0 < l) (solve : Solver K)
    (hs : solve.Sound) (deficient : ℕ → (ℕ → ℕ → K) → Bool) (LM : List (Row K)) (lamMax : K)
    (every maxSteps : ℕ) (res : NLResult K)
    (hr : c.analyze solve deficient LM lamMax every maxSteps = .ok res) :
    ∃ F, c.forces (fun _ => 0) LM = .ok F ∧
      c.Balanced (fun p => res.lam * F p) res.st.mom ∧
      ∀ e ∈ res.hist, c.Balanced (fun p => e.1 * F p) e.2 := by
  obtain ⟨g, -⟩ := NL.new_geo h hL
  unfold NL.analyze at hr
  split at hr
  · cases hr
  · rename_i F hF
    refine ⟨F, hF, ?_⟩
    exact NL.loop_balanced g.sized hs deficient F lamMax every maxSteps 0 0 _ [] NL.start res
      ((NL.balanced_zero c).congr fun p => by simp) (by simp) hr

/-- **C82** (moving load): without collapse the final moments, and in any case those of
every history entry, are in equilibrium with the axle loads at the position reported with
them, whatever has yielded before. -/
theorem C82_moving [FloorRing K] (L : List K) (EI : SpanArg (Rigidity K)) (R : List K)
    (Mp : SpanArg K) (My : Option (SpanArg K)) (q ms : K) (c : NL K)
    (h : NL.new L EI R Mp My q ms = .ok c) (hL : ∀ l ∈ L, 0 < l) (solve : Solver K)
    (hs : solve.Sound) (deficient : ℕ → (ℕ → ℕ → K) → Bool) (axles : List (K × K)) (vL step : K)
    (nsub every : ℕ) (res : NLResult K)
    (hr : c.analyzeMoving solve deficient axles vL step nsub every = .ok res) :
    (res.collapsed = false → c.Balanced (c.vehicleF axles res.lam) res.st.mom) ∧
      ∀ e ∈ res.hist, c.Balanced (c.vehicleF axles e.1) e.2 := by
  obtain ⟨g, -⟩ := NL.new_geo h hL
  unfold NL.analyzeMoving at hr
  by_cases h0 : step = 0
  · rw [if_pos h0] at hr
    cases hr
  rw [if_neg h0] at hr
  by_cases hn : nsub = 0
  · rw [if_pos hn] at hr
    cases hr
  rw [if_neg hn] at hr
  have hnK : (nsub : K) ≠ 0 := by exact_mod_cast hn
  split at hr
  · cases hr
  · rename_i x xs _
    simp only at hr
    by_cases hsg : (c.firstSub solve (c.vehicleF axles x) (1 / nsub) x nsub NL.start).singular = true
    · rw [if_pos hsg] at hr
      cases hr
      exact ⟨fun hc => by simp at hc, by simp⟩
    · rw [if_neg hsg] at hr
      have hsg' : (c.firstSub solve (c.vehicleF axles x) (1 / nsub) x nsub NL.start).singular = false := by
        simpa using hsg
      have hb : c.Balanced (c.vehicleF axles x)
          (c.firstSub solve (c.vehicleF axles x) (1 / nsub) x nsub NL.start).st.mom :=
        (NL.firstSub_balanced g.sized hs _ _ _ _ _ NL.start (NL.balanced_zero c) hsg').congr fun p => by
          field_simp
          ring
      refine NL.moveLoop_balanced g.sized hs deficient axles nsub every hn xs _ _ _ _ _ hb ?_ hr
      intro e he
      split at he
      · rw [List.mem_singleton] at he
        rw [he]
        exact hb
      · cases he

/-! ### The elastic range -/

/-- The element matrices are those of the linear analysis. -/
theorem nlFF_linear (EI : K) {L : K} (hL : L ≠ 0) :
    nlFF EI L = kFF EI L ∧ nlPF EI L = kPF EI L ∧ nlFP EI L = kFP EI L := by
  refine ⟨?_, ?_, ?_⟩ <;>
  · ext p q
    fin_cases p <;> fin_cases q <;>
      simp [nlFF, nlPF, nlFP, kFF, kPF, kFP, Matrix.smul_apply, smul_eq_mul] <;> field_simp

namespace NL

theorem kR_one (c : NL K) (R : ℕ → Fin 2 → K) (h : ∀ i a, R i a = 1) : c.kR R = c.ke := by
  funext i
  unfold kR
  rw [h, h, if_pos le_rfl, sub_self, one_smul, zero_smul, add_zero]

/-- Without a yielded section all factors are still one. -/
def Elastic (st : NLState K) : Prop := st.yielded = [] → ∀ i a, st.R i a = 1

theorem setR_one (R : ℕ → Fin 2 → K) (j : ℕ) (v : K) (hv : v = 1) (h : ∀ i a, R i a = 1) :
    ∀ i a, setR R j v i a = 1 := by
  intro i a
  by_cases hc : i = j - 1 ∧ a = (if 0 < j then 1 else 0)
  · exact (if_pos hc).trans hv
  · exact (if_neg hc).trans (h i a)

theorem updateNode_elastic (c : NL K) (lab : K) (s : NLState K × Bool) (j : ℕ) (h : Elastic s.1) :
    Elastic (c.updateNode lab s j).1 ∧ ((c.updateNode lab s j).1.yielded = [] → s.1.yielded = []) := by
  obtain ⟨st, nh⟩ := s
  have hy : (c.updateNode lab (st, nh) j).1.yielded
      = if c.gy j ≤ c.gamma st.mom j ∧ j ∉ st.yielded then j :: st.yielded else st.yielded := by
    unfold updateNode
    simp only
    split_ifs <;> rfl
  have hR : (c.updateNode lab (st, nh) j).1.R
      = if st.gmax j ≤ c.gamma st.mom j then setR st.R j (c.factor (c.gamma st.mom j) j)
        else setR st.R j 1 := by
    unfold updateNode
    simp only
    split_ifs <;> rfl
  have key : (c.updateNode lab (st, nh) j).1.yielded = [] →
      st.yielded = [] ∧ c.gamma st.mom j < c.gy j := by
    intro he
    rw [hy] at he
    split at he
    · cases he
    · rename_i hc
      refine ⟨he, ?_⟩
      push Not at hc
      by_contra hlt
      have := hc (not_lt.1 hlt)
      rw [he] at this
      cases this
  refine ⟨fun he => ?_, fun he => (key he).1⟩
  obtain ⟨h1, h2⟩ := key he
  rw [hR]
  split
  · apply setR_one _ _ _ _ (h h1)
    unfold factor
    rw [if_pos h2.le]
  · exact setR_one _ _ _ rfl (h h1)

theorem updateR_elastic (c : NL K) (lab : K) (st : NLState K) (h : Elastic st) :
    Elastic (c.updateR lab st).1 ∧ ((c.updateR lab st).1.yielded = [] → st.yielded = []) := by
  unfold updateR
  have : ∀ (l : List ℕ) (s : NLState K × Bool), Elastic s.1 →
      Elastic (l.foldl (c.updateNode lab) s).1 ∧
        ((l.foldl (c.updateNode lab) s).1.yielded = [] → s.1.yielded = []) := by
    intro l
    induction l with
    | nil => intro s h; exact ⟨h, id⟩
    | cons j l ih =>
      intro s h
      rw [List.foldl_cons]
      obtain ⟨h1, h2⟩ := c.updateNode_elastic lab s j h
      obtain ⟨h3, h4⟩ := ih _ h1
      exact ⟨h3, fun h => h2 (h4 h)⟩
  exact this _ _ h

theorem moments_add (c : NL K) (k : ℕ → Mat4 K) (u v : ℕ → K) (j : ℕ) :
    c.moments k (fun p => u p + v p) j = c.moments k u j + c.moments k v j := by
  have : ∀ i, elemVec (fun p => u p + v p) i = elemVec u i + elemVec v i := fun i => rfl
  unfold moments
  rw [this, this, Matrix.mulVec_add, Matrix.mulVec_add]
  split_ifs <;> simp

theorem moments_zero (c : NL K) (k : ℕ → Mat4 K) (j : ℕ) : c.moments k (fun _ => 0) j = 0 := by
  have : ∀ i, elemVec (fun _ => (0 : K)) i = 0 := fun i => rfl
  unfold moments
  rw [this, this, Matrix.mulVec_zero, Matrix.mulVec_zero]
  split_ifs <;> simp

/-- The displacements solve the elastic problem for `lam` times the load and the moments
are theirs. -/
structure ElasticAt (c : NL K) (F : ℕ → K) (lam : K) (u m : ℕ → K) : Prop where
  solves : ∀ p < c.nDof, mulN c.nDof (c.bcK (c.assembleK c.ke)) u p = lam * c.bcF F p
  mom : ∀ j, m j = c.moments c.ke u j

theorem loop_elastic {c : NL K} {solve : Solver K} (hs : solve.Sound)
    (deficient : ℕ → (ℕ → ℕ → K) → Bool) (F : ℕ → K) (lamMax : K) (every fuel : ℕ) :
    ∀ (step : ℕ) (lam : K) (u : ℕ → K) (hist : List (K × (ℕ → K))) (st : NLState K)
      (res : NLResult K), Elastic st → (st.yielded = [] → c.ElasticAt F lam u st.mom) →
      c.loop solve deficient F lamMax every fuel step lam u hist st = .ok res →
      (res.st.yielded = [] → st.yielded = [] ∧ c.ElasticAt F res.lam res.u res.st.mom) := by
  induction fuel with
  | zero =>
    intro step lam u hist st res h1 h2 h hy
    cases h
    exact ⟨hy, h2 hy⟩
  | succ fuel ih =>
    intro step lam u hist st res h1 h2 h hy
    unfold loop at h
    by_cases hl : lam < lamMax
    · rw [if_pos hl] at h
      by_cases h0 : c.nElem = 0
      · rw [if_pos h0] at h
        cases h
      · rw [if_neg h0] at h
        simp only at h
        split at h
        · cases h
          refine ⟨hy, ?_⟩
          simp only
          rw [add_sub_cancel_right]
          exact h2 hy
        · rename_i du hdu
          have hE : st.yielded = [] → c.ElasticAt F (lam + c.dl st.R lam lamMax)
              (fun p => u p + du p) (fun j => st.mom j + c.moments (c.kR st.R) du j) := by
            intro hy
            have hk := c.kR_one st.R (h1 hy)
            obtain ⟨a1, a2⟩ := h2 hy
            have hsol := hs _ _ _ _ hdu
            rw [hk] at hsol ⊢
            refine ⟨fun p hp => ?_, fun j => ?_⟩
            · have e : mulN c.nDof (c.bcK (c.assembleK c.ke)) (fun p => u p + du p) p
                  = mulN c.nDof (c.bcK (c.assembleK c.ke)) u p
                    + mulN c.nDof (c.bcK (c.assembleK c.ke)) du p := by
                simp only [mulN, mul_add, Finset.sum_add_distrib]
              rw [e, a1 p hp, hsol p hp]
              simp only [bcF, bcF_eq]
              split <;> ring
            · rw [moments_add, a2]
          have h1' : Elastic { st with mom := fun j => st.mom j + c.moments (c.kR st.R) du j } := h1
          obtain ⟨e1, e2⟩ := c.updateR_elastic (lam + c.dl st.R lam lamMax) _ h1'
          have h2' : (c.updateR (lam + c.dl st.R lam lamMax)
              { st with mom := fun j => st.mom j + c.moments (c.kR st.R) du j }).1.yielded = [] →
              c.ElasticAt F (lam + c.dl st.R lam lamMax) (fun p => u p + du p)
                (c.updateR (lam + c.dl st.R lam lamMax)
                  { st with mom := fun j => st.mom j + c.moments (c.kR st.R) du j }).1.mom := by
            intro hy'
            rw [updateR_mom]
            exact hE (e2 hy')
          split at h
          · cases h
            exact ⟨e2 hy, h2' hy⟩
          · obtain ⟨b1, b2⟩ := ih _ _ _ _ _ _ e1 h2' h hy
            exact ⟨e2 b1, b2⟩
    · rw [if_neg hl] at h
      cases h
      exact ⟨hy, h2 hy⟩

end NL

/-- **C83**: as long as no section is reported to have yielded, the nonlinear analysis is
the elastic one: its displacements solve the elastic equations (element matrices of the
linear analysis, supported rows replaced) for the load factor times the load vector, and
its moments are the elastic end moments of these displacements. -/
theorem C83_elastic (c : NL K) (solve : Solver K)
    (hs : solve.Sound) (deficient : ℕ → (ℕ → ℕ → K) → Bool) (LM : List (Row K)) (lamMax : K)
    (every maxSteps : ℕ) (res : NLResult K)
    (hr : c.analyze solve deficient LM lamMax every maxSteps = .ok res)
    (hy : res.st.yielded = []) :
    ∃ F, c.forces (fun _ => 0) LM = .ok F ∧
      (∀ p < c.nDof, mulN c.nDof (c.bcK (c.assembleK c.ke)) res.u p = res.lam * c.bcF F p) ∧
      (∀ j, res.st.mom j = c.moments c.ke res.u j) ∧
      ∀ i, c.len i ≠ 0 → c.ke i = kFF (c.EI.getD i 0) (c.len i) := by
  unfold NL.analyze at hr
  split at hr
  · cases hr
  · rename_i F hF
    have h0 : c.ElasticAt F 0 (fun _ => 0) NL.start.mom :=
      ⟨fun p _ => by simp [mulN], fun j => by rw [NL.moments_zero]; rfl⟩
    obtain ⟨-, h1⟩ := NL.loop_elastic hs deficient F lamMax every maxSteps 0 0 _ [] NL.start res
      (fun _ _ _ => rfl) (fun _ => h0) hr hy
    exact ⟨F, hF, h1.solves, h1.mom, fun i hi => (nlFF_linear _ hi).1⟩

end PyCBA
