import Verif.Render.Model
import Verif.Exact.Props
import Verif.LoadCases.Comb
import Mathlib.Tactic.FinCases

/-!
C94: the schematic shows the supports and hinges that are analysed.
-/

set_option linter.unusedSectionVars false
set_option linter.unusedSimpArgs false

namespace PyCBA

variable {K : Type*} [Field K] [LinearOrder K] [IsStrictOrderedRing K]

/-! ### What a symbol says -/

/-- How a degree of freedom is supported. -/
inductive Hold where
  | held
  | sprung
  | free
  deriving DecidableEq, Repr

/-- How the analysis supports a degree of freedom with restraint `r` (held if negative,
`analysis.py` 722-727, 777; a spring if positive, 679-684). -/
def holdOf (r : K) : Hold := if r < 0 then .held else if 0 < r then .sprung else .free

/-- What a symbol tells an engineer about the deflection and the rotation of its node. -/
def DrawnSup.says (s : DrawnSup K) : Hold × Hold :=
  match s.kind with
  | .fixed => (.held, .held)
  | .pin | .roller => (.held, if s.rotSpring then .sprung else .free)
  | .spring => (.sprung, .free)
  | .guided => (.free, .held)
  | .torsion => (.free, .sprung)

/-- What the drawing tells about a node: nothing drawn means free. -/
def shown (ss : List (DrawnSup K)) (i : ℕ) : Hold × Hold :=
  (ss.find? fun s => s.node = i).elim (.free, .free) DrawnSup.says

theorem supLoop_mem (x R : ℕ → K) (n left : ℕ) : ∀ (i : ℕ) (p : Bool), ∀ s ∈ supLoop x R n left i p,
    i ≤ s.node ∧ s.node < i + left ∧ s.x = x s.node ∧ s.atLeft = (s.node == 0) ∧
      s.atRight = (s.node == n) := by
  induction left with
  | zero => intro i p s hs; cases hs
  | succ left ih =>
    intro i p s hs
    rw [supLoop] at hs
    split at hs
    · obtain ⟨a, b, c⟩ := ih _ _ s hs
      exact ⟨by omega, by omega, c⟩
    · rcases List.mem_cons.1 hs with rfl | hs
      · exact ⟨le_rfl, by simp, rfl, rfl, rfl⟩
      · obtain ⟨a, b, c⟩ := ih _ _ s hs
        exact ⟨by omega, by omega, c⟩

theorem supLoop_sorted (x R : ℕ → K) (n left : ℕ) : ∀ (i : ℕ) (p : Bool),
    ((supLoop x R n left i p).map DrawnSup.node).Pairwise (· < ·) := by
  induction left with
  | zero => intro i p; exact List.Pairwise.nil
  | succ left ih =>
    intro i p
    rw [supLoop]
    split
    · exact ih _ _
    · rw [List.map_cons, List.pairwise_cons]
      refine ⟨?_, ih _ _⟩
      intro a ha
      obtain ⟨s, hs, rfl⟩ := List.mem_map.1 ha
      have := (supLoop_mem x R n left _ _ s hs).1
      simp only
      omega

/-- The symbol of a node says what its restraints are. -/
theorem supKind_says (v r : K) (p : Bool) (x : K) (i : ℕ) (a c : Bool)
    (hv : v < 0 → v = -1) (hr : r < 0 → r = -1) (hs : 0 < v → r = 0) :
    (supKind v r p).elim (.free, .free)
      (fun k => DrawnSup.says ⟨x, k, i, a, c, decide (v = -1 ∧ 0 < r)⟩) = (holdOf v, holdOf r) := by
  unfold supKind holdOf DrawnSup.says
  rcases lt_trichotomy v 0 with h | h | h
  · have h1 := hv h
    subst h1
    rcases lt_trichotomy r 0 with g | g | g
    · have g1 := hr g
      subst g1
      simp
    · subst g
      cases p <;> simp
    · have g1 : r ≠ -1 := by
        intro g1
        rw [g1] at g
        linarith
      cases p <;> simp [g, g1, not_lt.2 g.le]
  · subst h
    rcases lt_trichotomy r 0 with g | g | g
    · have g1 := hr g
      subst g1
      simp
    · subst g
      simp
    · have g1 : r ≠ -1 := by
        intro g1
        rw [g1] at g
        linarith
      simp [g, g1, not_lt.2 g.le]
  · have h1 : v ≠ -1 := by
      intro h1
      rw [h1] at h
      linarith
    have h2 := hs h
    subst h2
    simp [h, h1, not_lt.2 h.le]

theorem find_none_of_lt (x R : ℕ → K) (n left i j : ℕ) (p : Bool) (hj : j < i) :
    (supLoop x R n left i p).find? (fun s => s.node = j) = none := by
  rw [List.find?_eq_none]
  intro s hs
  have := (supLoop_mem x R n left i p s hs).1
  simp only [decide_eq_true_eq]
  omega

theorem supLoop_shown (x R : ℕ → K) (n : ℕ) (hneg : ∀ i, R i < 0 → R i = -1)
    (hsp : ∀ j, 0 < R (2 * j) → R (2 * j + 1) = 0) (left : ℕ) : ∀ (i : ℕ) (p : Bool) (j : ℕ),
    i ≤ j → j < i + left →
    shown (supLoop x R n left i p) j = (holdOf (R (2 * j)), holdOf (R (2 * j + 1))) := by
  induction left with
  | zero => intro i p j h1 h2; omega
  | succ left ih =>
    intro i p j h1 h2
    have hsay := supKind_says (R (2 * i)) (R (2 * i + 1)) p (x i) i (i == 0) (i == n)
      (hneg _) (hneg _) (hsp i)
    rw [supLoop]
    rcases Nat.eq_or_lt_of_le h1 with he | hlt
    · subst he
      split
      · rename_i hk
        rw [hk] at hsay
        unfold shown
        rw [find_none_of_lt _ _ _ _ _ _ _ (Nat.lt_succ_self i)]
        exact hsay
      · rename_i k hk
        rw [hk] at hsay
        unfold shown
        rw [List.find?_cons_of_pos (by simp)]
        exact hsay
    · have := ih (i + 1) (p || supKind (R (2 * i)) (R (2 * i + 1)) p == some .pin) j (by omega) (by omega)
      split
      · exact this
      · unfold shown at this ⊢
        rw [List.find?_cons_of_neg (by simp only [decide_eq_true_eq]; omega)]
        exact this

/-- **C94**, supports: if every rigid restraint is written `-1` and a vertical spring stands
alone, the drawing tells of every node exactly how the analysis supports it; every symbol
stands at its node, and no node has two.  The other restraints:
`C94_negative_violation`, `C94_spring_violation`. -/
theorem C94_supports_partial (b : BeamDef K) (ss : List (DrawnSup K)) (h : inferSupports b = .ok ss)
    (hneg : ∀ r ∈ b.restraints, r < 0 → r = -1)
    (hsp : ∀ j, 0 < b.restraints.getD (2 * j) 0 → b.restraints.getD (2 * j + 1) 0 = 0) :
    (∀ j ≤ b.members.length, shown ss j
      = (holdOf (b.restraints.getD (2 * j) 0), holdOf (b.restraints.getD (2 * j + 1) 0))) ∧
    (∀ s ∈ ss, s.node ≤ b.members.length ∧ s.x = b.nodeX s.node ∧
      (s.atLeft = true ↔ s.node = 0) ∧ (s.atRight = true ↔ s.node = b.members.length)) ∧
    (ss.map DrawnSup.node).Nodup := by
  unfold inferSupports at h
  simp only at h
  split at h
  · cases h
  · have h := (Except.ok.inj h).symm
    subst h
    refine ⟨?_, ?_, ?_⟩
    · intro j hj
      refine supLoop_shown _ _ _ ?_ hsp _ _ _ j (by omega) (by omega)
      intro i hi
      by_cases hl : i < b.restraints.length
      · rw [List.getD_eq_getElem _ _ hl] at hi ⊢
        exact hneg _ (List.getElem_mem hl) hi
      · rw [List.getD_eq_default _ _ (not_lt.1 hl)] at hi
        exact absurd hi (lt_irrefl 0)
    · intro s hs
      obtain ⟨-, h2, h3, h4, h5⟩ := supLoop_mem _ _ _ _ _ _ s hs
      refine ⟨by omega, h3, ?_, ?_⟩
      · rw [h4]; simp
      · rw [h5]; simp
    · exact (supLoop_sorted _ _ _ _ _ _).imp fun h => Nat.ne_of_lt h

theorem supLoop_pins (x R : ℕ → K) (n left : ℕ) : ∀ (i : ℕ) (p : Bool),
    ((supLoop x R n left i p).filter fun s => s.kind = .pin).length ≤ (if p then 0 else 1) ∧
    (p = false → (∃ s ∈ supLoop x R n left i p, s.kind = .roller) →
      ∃ s ∈ supLoop x R n left i p, s.kind = .pin) := by
  induction left with
  | zero => intro i p; simp [supLoop]
  | succ left ih =>
    intro i p
    rw [supLoop]
    obtain ⟨a1, a2⟩ := ih (i + 1) (p || supKind (R (2 * i)) (R (2 * i + 1)) p == some .pin)
    generalize hk : supKind (R (2 * i)) (R (2 * i + 1)) p = q at a1 a2 ⊢
    cases q with
    | none =>
      have hb : ((none : Option SupKind) == some SupKind.pin) = false := rfl
      simp only [hb, Bool.or_false] at a1 a2 ⊢
      exact ⟨a1, a2⟩
    | some k =>
      by_cases hp : k = .pin
      · subst hp
        simp only [beq_self_eq_true, Bool.or_true, ↓reduceIte, Nat.le_zero] at a1
        have hpf : p = false := by
          cases p with
          | false => rfl
          | true =>
            exfalso
            unfold supKind at hk
            split_ifs at hk <;> simp_all
        subst hpf
        refine ⟨?_, fun _ _ => ⟨_, List.mem_cons_self, rfl⟩⟩
        rw [List.filter_cons_of_pos (by simp), List.length_cons]
        simp only [beq_self_eq_true, Bool.or_true, Bool.false_eq_true, ↓reduceIte]
        omega
      · have hb : (some k == some SupKind.pin) = false := by
          simpa using hp
        simp only [hb, Bool.or_false] at a1 a2 ⊢
        refine ⟨?_, ?_⟩
        · rw [List.filter_cons_of_neg (by simpa using hp)]
          exact a1
        · intro hpf hr
          subst hpf
          obtain ⟨s, hs, hsk⟩ := hr
          rcases List.mem_cons.1 hs with rfl | hs
          · exfalso
            simp only at hsk
            subst hsk
            unfold supKind at hk
            split_ifs at hk <;> simp_all
          · obtain ⟨s', hs', hk'⟩ := a2 rfl ⟨s, hs, hsk⟩
            exact ⟨s', List.mem_cons_of_mem _ hs', hk'⟩

theorem supLoop_fixed (x R : ℕ → K) (n left : ℕ) : ∀ (i : ℕ) (p : Bool) (j : ℕ), i ≤ j → j < i + left →
    R (2 * j) = -1 → R (2 * j + 1) = -1 → ∃ s ∈ supLoop x R n left i p, s.kind = .fixed := by
  induction left with
  | zero => intro i p j h1 h2; omega
  | succ left ih =>
    intro i p j h1 h2 hv hr
    rw [supLoop]
    rcases Nat.eq_or_lt_of_le h1 with he | hlt
    · subst he
      have hk : supKind (R (2 * i)) (R (2 * i + 1)) p = some .fixed := by
        unfold supKind
        rw [if_pos ⟨hv, hr⟩]
      rw [hk]
      exact ⟨_, List.mem_cons_self, rfl⟩
    · obtain ⟨s, hs, hk⟩ := ih (i + 1) (p || supKind (R (2 * i)) (R (2 * i + 1)) p == some .pin) j
        (by omega) (by omega) hv hr
      split
      · exact ⟨s, hs, hk⟩
      · exact ⟨s, List.mem_cons_of_mem _ hs, hk⟩

theorem supLoop_fixed_conv (x R : ℕ → K) (n left : ℕ) : ∀ (i : ℕ) (p : Bool),
    ∀ s ∈ supLoop x R n left i p, s.kind = .fixed → R (2 * s.node) = -1 ∧ R (2 * s.node + 1) = -1 := by
  induction left with
  | zero => intro i p s hs; cases hs
  | succ left ih =>
    intro i p s hs hk
    rw [supLoop] at hs
    split at hs
    · exact ih _ _ s hs hk
    · rename_i k hk'
      rcases List.mem_cons.1 hs with rfl | hs
      · simp only at hk ⊢
        subst hk
        by_contra hcon
        unfold supKind at hk'
        rw [if_neg hcon] at hk'
        split_ifs at hk' <;> simp_all
      · exact ih _ _ s hs hk

/-- **C94**, horizontal restraint: a drawing with a support that holds the deflection has
exactly one kind of horizontal restraint: some fixed end and no pin, or exactly one pin. -/
theorem C94_one_pin (b : BeamDef K) (ss : List (DrawnSup K)) (h : inferSupports b = .ok ss)
    (hs : ∃ s ∈ ss, s.says.1 = .held) :
    ((∃ s ∈ ss, s.kind = .fixed) ∧ ∀ s ∈ ss, s.kind ≠ .pin) ∨
    ((∀ s ∈ ss, s.kind ≠ .fixed) ∧ (ss.filter fun s => s.kind = .pin).length = 1) := by
  unfold inferSupports at h
  simp only at h
  split at h
  · cases h
  · have h := (Except.ok.inj h).symm
    generalize hf : ((List.range (b.members.length + 1)).any fun i =>
      decide (b.restraints.getD (2 * i) 0 = -1 ∧ b.restraints.getD (2 * i + 1) 0 = -1)) = f at h
    subst h
    obtain ⟨p1, p2⟩ := supLoop_pins b.nodeX (fun i => b.restraints.getD i 0) b.members.length
      (b.members.length + 1) 0 f
    cases f with
    | true =>
      left
      rw [List.any_eq_true] at hf
      obtain ⟨i, hi, hr⟩ := hf
      rw [List.mem_range] at hi
      simp only [decide_eq_true_eq] at hr
      refine ⟨supLoop_fixed _ _ _ _ _ _ i (by omega) (by omega) hr.1 hr.2, ?_⟩
      intro s hs hk
      simp only [↓reduceIte, Nat.le_zero, List.length_eq_zero_iff] at p1
      have := List.filter_eq_nil_iff.1 p1 s hs
      simp [hk] at this
    | false =>
      right
      have hnf : ∀ s ∈ supLoop b.nodeX (fun i => b.restraints.getD i 0) b.members.length
          (b.members.length + 1) 0 false, s.kind ≠ .fixed := by
        intro s hs hk
        have hn := supLoop_fixed_conv _ _ _ _ _ _ s hs hk
        have hl := (supLoop_mem _ _ _ _ _ _ s hs).2.1
        rw [List.any_eq_false] at hf
        have := hf s.node (List.mem_range.2 (by omega))
        simp only [decide_eq_true_eq] at this
        exact this hn
      refine ⟨hnf, ?_⟩
      have hex : ∃ s ∈ supLoop b.nodeX (fun i => b.restraints.getD i 0) b.members.length
          (b.members.length + 1) 0 false, s.kind = .pin := by
        obtain ⟨s, hs, hh⟩ := hs
        cases hk : s.kind with
        | pin => exact ⟨s, hs, hk⟩
        | roller => exact p2 rfl ⟨s, hs, hk⟩
        | fixed => exact absurd hk (hnf s hs)
        | spring => simp [DrawnSup.says, hk] at hh
        | guided => simp [DrawnSup.says, hk] at hh
        | torsion => simp [DrawnSup.says, hk] at hh
      obtain ⟨s, hs, hk⟩ := hex
      have : 0 < ((supLoop b.nodeX (fun i => b.restraints.getD i 0) b.members.length
          (b.members.length + 1) 0 false).filter fun s => s.kind = .pin).length :=
        List.length_pos_of_mem (List.mem_filter.2 ⟨hs, by simp [hk]⟩)
      simp only [Bool.false_eq_true, ↓reduceIte] at p1
      omega

/-- **C94 fails** for restraints that are negative but not `-1`: the analysis holds the
degree of freedom, and nothing is drawn. -/
theorem C94_negative_violation (m : Member K) :
    ∃ (b : BeamDef K) (ss : List (DrawnSup K)), b.members = [m] ∧ inferSupports b = .ok ss ∧
      shown ss 0 = (.free, .free) ∧ holdOf (b.restraints.getD 0 0) = .held ∧
      ∀ s, b.system = .ok s → s.constr 0 = some 0 := by
  refine ⟨⟨[m], [-2, 0, -1, 0], [none, none, none, none], []⟩, _, rfl, rfl, ?_, ?_, ?_⟩
  · have h0 : ¬ ((-2 : K) = -1) := by norm_num
    have h1 : ¬ ((0 : K) < -2) := by norm_num
    have h2 : ¬ ((-2 : K) = 0) := by norm_num
    have h3 : ¬ ((0 : K) = -1) := by norm_num
    simp [shown, supLoop, supKind, h0, h1, h2, h3]
  · simp [holdOf]
  · intro s hs
    obtain ⟨-, -, -, hr, hp, -⟩ := BeamDef.system_ok hs
    simp [System.constr, hr, hp]

/-- **C94 fails** for a vertical spring at a node whose rotation is held (or has a spring of
its own): only the vertical spring is drawn. -/
theorem C94_spring_violation (m : Member K) (k r : K) (hk : 0 < k) (hr : r ≠ 0) :
    ∃ (b : BeamDef K) (ss : List (DrawnSup K)), b.members = [m] ∧ b.restraints = [k, r, -1, 0] ∧
      inferSupports b = .ok ss ∧ shown ss 0 = (.sprung, .free) ∧ holdOf r ≠ .free := by
  refine ⟨⟨[m], [k, r, -1, 0], [none, none, none, none], []⟩, _, rfl, rfl, rfl, ?_, ?_⟩
  · have h0 : ¬ (k = -1) := by
      intro h
      rw [h] at hk
      linarith
    simp [shown, supLoop, supKind, h0, hk, DrawnSup.says]
  · rcases lt_or_gt_of_ne hr with h | h
    · simp [holdOf, h]
    · simp [holdOf, h, not_lt.2 h.le]

/-! ### Hinges -/

/-- The end of a member passes no moment to its node, whatever the displacements. -/
def NoMoment (m : Member K) (end_ : Fin 4) : Prop :=
  ∃ k, m.spanK = .ok k ∧ ∀ d, (Matrix.mulVec k d) end_ = 0

theorem noMoment_iff (m : Member K) (e : K) (hEI : m.EI = .const e) (hG : m.GAv = none) (he : e ≠ 0)
    (hL : m.L ≠ 0) :
    (NoMoment m 1 ↔ m.et = .PF ∨ m.et = .PP) ∧ (NoMoment m 3 ↔ m.et = .FP ∨ m.et = .PP) := by
  have h4 : 4 * e / m.L ≠ 0 := div_ne_zero (mul_ne_zero (by norm_num) he) hL
  have h3 : 3 * e / m.L ≠ 0 := div_ne_zero (mul_ne_zero (by norm_num) he) hL
  unfold NoMoment Member.spanK
  rw [hEI, hG]
  cases het : m.et with
  | FF =>
    simp only [Except.ok.injEq, exists_eq_left', reduceCtorEq, or_self, iff_false]
    refine ⟨fun h => h4 ?_, fun h => h4 ?_⟩
    · simpa [kFF, Matrix.mulVec, dotProduct, Fin.sum_univ_four] using h (Pi.single 1 1)
    · simpa [kFF, Matrix.mulVec, dotProduct, Fin.sum_univ_four] using h (Pi.single 3 1)
  | FP =>
    simp only [Except.ok.injEq, exists_eq_left', reduceCtorEq, or_self, iff_false, or_false, iff_true]
    refine ⟨fun h => h3 ?_, fun d => ?_⟩
    · simpa [kFP, Matrix.mulVec, dotProduct, Fin.sum_univ_four] using h (Pi.single 1 1)
    · simp [kFP, Matrix.mulVec, dotProduct, Fin.sum_univ_four]
  | PF =>
    simp only [Except.ok.injEq, exists_eq_left', reduceCtorEq, or_self, iff_false, or_false, iff_true]
    refine ⟨fun d => ?_, fun h => h3 ?_⟩
    · simp [kPF, Matrix.mulVec, dotProduct, Fin.sum_univ_four]
    · simpa [kPF, Matrix.mulVec, dotProduct, Fin.sum_univ_four] using h (Pi.single 3 1)
  | PP =>
    simp [kPP]

/-- **C94**, hinges: a hinge is drawn at an inner node exactly if one of the two members
that meet there passes no moment to it. -/
theorem C94_hinges (b : BeamDef K)
    (hb : ∀ m ∈ b.members, m.GAv = none ∧ m.L ≠ 0 ∧ ∃ e, e ≠ 0 ∧ m.EI = .const e) (i : ℕ) :
    i ∈ inferHinges b ↔ ∃ (h0 : 0 < i) (h1 : i < b.members.length),
      NoMoment (b.members[i - 1]'(by omega)) 3 ∨ NoMoment b.members[i] 1 := by
  unfold inferHinges
  rw [List.mem_filter, List.mem_range'_1]
  constructor
  · rintro ⟨⟨a, c⟩, h⟩
    have h1 : i < b.members.length := by omega
    refine ⟨by omega, h1, ?_⟩
    have h2 : i - 1 < b.members.length := by omega
    rw [List.getElem?_eq_getElem h1, List.getElem?_eq_getElem h2] at h
    simp only [Option.any_some, Bool.or_eq_true, decide_eq_true_eq] at h
    obtain ⟨g1, l1, e1, ne1, E1⟩ := hb _ (List.getElem_mem h1)
    obtain ⟨g2, l2, e2, ne2, E2⟩ := hb _ (List.getElem_mem h2)
    rcases h with h | h
    · exact Or.inl ((noMoment_iff _ e2 E2 g2 ne2 l2).2.2 h)
    · exact Or.inr ((noMoment_iff _ e1 E1 g1 ne1 l1).1.2 h)
  · rintro ⟨h0, h1, h⟩
    have h2 : i - 1 < b.members.length := by omega
    refine ⟨by omega, ?_⟩
    rw [List.getElem?_eq_getElem h1, List.getElem?_eq_getElem h2]
    simp only [Option.any_some, Bool.or_eq_true, decide_eq_true_eq]
    obtain ⟨g1, l1, e1, ne1, E1⟩ := hb _ (List.getElem_mem h1)
    obtain ⟨g2, l2, e2, ne2, E2⟩ := hb _ (List.getElem_mem h2)
    rcases h with h | h
    · exact Or.inl ((noMoment_iff _ e2 E2 g2 ne2 l2).2.1 h)
    · exact Or.inr ((noMoment_iff _ e1 E1 g1 ne1 l1).1.1 h)

/-! ### A concrete case -/

/-- Four spans with a hinge: a roller with a rotational spring, a spring, a free node, a
guided end. -/
def exDrawn : BeamDef ℚ :=
  ⟨[⟨.const 1, 2, .FF, none⟩, ⟨.const 1, 3, .FP, none⟩, ⟨.const 1, 2, .FF, none⟩,
    ⟨.const 1, 4, .FF, none⟩],
   [-1, 0, -1, 7, 5, 0, 0, 0, 0, -1], List.replicate 10 none, []⟩

-- C94: the hypotheses are met and the drawing is as expected
example : ∃ ss, inferSupports exDrawn = .ok ss ∧
    ss.map (fun s => (s.kind, s.node, s.x, s.rotSpring)) =
      [(.pin, 0, 0, false), (.roller, 1, 2, true), (.spring, 2, 5, false), (.guided, 4, 11, false)] ∧
    inferHinges exDrawn = [2] ∧ (∀ r ∈ exDrawn.restraints, r < 0 → r = -1) := by
  obtain ⟨ss, h1, h2⟩ := ok_of_map (x := inferSupports exDrawn)
    (f := fun ss => ss.map (fun s => (s.kind, s.node, s.x, s.rotSpring)))
    (y := [(.pin, 0, 0, false), (.roller, 1, 2, true), (.spring, 2, 5, false), (.guided, 4, 11, false)])
    (by decide +kernel)
  refine ⟨ss, h1, h2, by decide +kernel, ?_⟩
  decide +kernel

end PyCBA
