import Verif.LoadCases.Props

set_option linter.unusedSectionVars false
set_option linter.unusedSimpArgs false

/-!
Properties of generated load cases: patterned UDL segments (C40), dead and live load
patterns (C42), UDL over a stretch of the beam (C80).
-/

namespace PyCBA

variable {K : Type*} [Field K] [LinearOrder K] [IsStrictOrderedRing K]

/-! ### Numbers in names -/

/-- The characters of the decimal representation of a number. -/
def digitsOf (n : ℕ) : List Char := Nat.toDigits 10 n

theorem digitsOf_inj {a b : ℕ} (h : digitsOf a = digitsOf b) : a = b := by
  have := congrArg (fun l => Nat.ofDigitChars 10 l 0) h
  simpa [digitsOf, Nat.ofDigitChars_ten_toDigits] using this

theorem digitsOf_digit {n : ℕ} {c : Char} (h : c ∈ digitsOf n) : c.isDigit = true :=
  Nat.isDigit_of_mem_toDigits (by decide) (by decide) h

/-- Digits up to a character that is not a digit are determined by the whole. -/
theorem digits_split {c : Char} (hc : c.isDigit = false) :
    ∀ (d1 d2 r1 r2 : List Char), (∀ x ∈ d1, x.isDigit = true) → (∀ x ∈ d2, x.isDigit = true) →
      d1 ++ c :: r1 = d2 ++ c :: r2 → d1 = d2 ∧ r1 = r2 := by
  intro d1
  induction d1 with
  | nil =>
    intro d2 r1 r2 _ h2 h
    cases d2 with
    | nil => simpa using h
    | cons x d2 =>
      simp only [List.nil_append, List.cons_append, List.cons.injEq] at h
      have := h2 x List.mem_cons_self
      rw [← h.1, hc] at this
      cases this
  | cons y d1 ih =>
    intro d2 r1 r2 h1 h2 h
    cases d2 with
    | nil =>
      simp only [List.nil_append, List.cons_append, List.cons.injEq] at h
      have := h1 y List.mem_cons_self
      rw [h.1, hc] at this
      cases this
    | cons x d2 =>
      simp only [List.cons_append, List.cons.injEq] at h
      obtain ⟨e1, e2⟩ := ih d2 r1 r2 (fun z hz => h1 z (List.mem_cons_of_mem _ hz))
        (fun z hz => h2 z (List.mem_cons_of_mem _ hz)) h.2
      exact ⟨by rw [h.1, e1], e2⟩

theorem segName_inj {i j i' j' : ℕ}
    (h : s!"UDL span {i} segment {j}" = s!"UDL span {i'} segment {j'}") : i = i' ∧ j = j' := by
  have := congrArg String.toList h
  simp only [String.toList_append, Nat.toString_eq_repr, Nat.toList_repr, List.append_assoc,
    show (toString " segment ").toList = ' ' :: "segment ".toList by decide +kernel] at this
  have := List.append_cancel_left this
  obtain ⟨h1, h2⟩ := digits_split (c := ' ') (by decide) (digitsOf i) (digitsOf i') _ _
    (fun _ => digitsOf_digit) (fun _ => digitsOf_digit) this
  exact ⟨digitsOf_inj h1, digitsOf_inj (List.append_cancel_left h2)⟩

theorem spanName_inj {i i' : ℕ} (h : s!"UDL on span {i}" = s!"UDL on span {i'}") : i = i' := by
  have := congrArg String.toList h
  simp only [String.toList_append, Nat.toString_eq_repr, Nat.toList_repr, List.append_assoc] at this
  exact digitsOf_inj (by simpa [digitsOf] using List.append_cancel_left this)

theorem hogName_inj {i j i' j' : ℕ}
    (h : s!"Max hogging spans {i}-{j}" = s!"Max hogging spans {i'}-{j'}") : i = i' ∧ j = j' := by
  have := congrArg String.toList h
  simp only [String.toList_append, Nat.toString_eq_repr, Nat.toList_repr, List.append_assoc,
    show (toString "-").toList = '-' :: [] by decide +kernel] at this
  have := List.append_cancel_left this
  obtain ⟨h1, h2⟩ := digits_split (c := '-') (by decide) (digitsOf i) (digitsOf i') _ _
    (fun _ => digitsOf_digit) (fun _ => digitsOf_digit) this
  exact ⟨digitsOf_inj h1, digitsOf_inj (by simpa [digitsOf] using h2)⟩

/-- Adding cases whose names are new and pairwise different never raises. -/
theorem lcAddAll_ok (cs l : List (LCase K)) (h : (lcNames (cs ++ l)).Nodup) :
    lcAddAll cs l = .ok (cs ++ l) := by
  induction l generalizing cs with
  | nil => simp [lcAddAll]
  | cons c l ih =>
    have hc : c.name ∉ lcNames cs := by
      simp only [lcNames, List.map_append, List.map_cons] at h
      rw [List.nodup_append] at h
      intro hc
      exact h.2.2 _ hc c.name List.mem_cons_self rfl
    simp only [lcAddAll, lcAdd, hc, if_false]
    rw [ih (cs ++ [c]) (by simpa using h)]
    simp

/-! ## C40 -/

theorem segCover_eq (L : K) (n j : ℕ) (hj : j < n) : segCover L n j = L / n := by
  unfold segCover
  split
  · rename_i h
    have hn : (n : K) ≠ 0 := by
      have : 0 < n := by omega
      exact_mod_cast this.ne'
    have hj' : (j : K) = (n : K) - 1 := by
      have : n = j + 1 := by omega
      rw [this]
      push_cast
      ring
    rw [hj']
    field_simp
    ring
  · rfl

/-- The stations of a uniform subdivision. -/
theorem exists_cell (h : K) (n : ℕ) (x : K) (h0 : 0 ≤ x) (hx : x < (n : K) * h) :
    ∃ j < n, (j : K) * h ≤ x ∧ x < (j : K) * h + h := by
  induction n with
  | zero => simp at hx; exact absurd h0 (not_le.2 hx)
  | succ n ih =>
    by_cases hn : x < (n : K) * h
    · obtain ⟨j, hj, h1⟩ := ih hn
      exact ⟨j, by omega, h1⟩
    · refine ⟨n, by omega, not_lt.1 hn, ?_⟩
      push_cast at hx
      linarith

theorem cell_unique {h x : K} {i j : ℕ} (hi1 : (i : K) * h ≤ x) (hi2 : x < (i : K) * h + h)
    (hj1 : (j : K) * h ≤ x) (hj2 : x < (j : K) * h + h) (hh : 0 < h) : i = j := by
  by_contra hne
  rcases Nat.lt_or_gt_of_ne hne with hlt | hlt
  · have : ((i : K) + 1) * h ≤ j * h := by
      apply mul_le_mul_of_nonneg_right _ hh.le
      exact_mod_cast hlt
    linarith
  · have : ((j : K) + 1) * h ≤ i * h := by
      apply mul_le_mul_of_nonneg_right _ hh.le
      exact_mod_cast hlt
    linarith

theorem mem_patterned {Ls : List K} {w : K} {n : ℕ} {c : LCase K} :
    c ∈ (Ls.zipIdx.flatMap fun Li => (List.range n).map fun j =>
      segCase w Li.1 n (Li.2 + 1) j (Li.2 * n + j)) ↔
    ∃ i, ∃ hi : i < Ls.length, ∃ j < n, c = segCase w Ls[i] n (i + 1) j (i * n + j) := by
  simp only [List.mem_flatMap, List.mem_map, List.mem_range]
  constructor
  · rintro ⟨⟨L, i⟩, hLi, j, hj, rfl⟩
    obtain ⟨_, hi, hL⟩ := List.mem_zipIdx hLi
    exact ⟨i, by simpa using hi, j, hj, by simp [hL]⟩
  · rintro ⟨i, hi, j, hj, rfl⟩
    exact ⟨(Ls[i], i), List.mk_mem_zipIdx_iff_getElem?.2 (List.getElem?_eq_getElem hi), j, hj, rfl⟩

theorem patterned_names (Ls : List K) (w : K) (n k : ℕ) :
    (lcNames ((Ls.zipIdx k).flatMap fun Li => (List.range n).map fun j =>
      segCase w Li.1 n (Li.2 + 1) j (Li.2 * n + j))).Nodup := by
  induction Ls generalizing k with
  | nil => simp [lcNames]
  | cons L Ls ih =>
    simp only [List.zipIdx_cons, List.flatMap_cons, lcNames, List.map_append, List.map_map] at ih ⊢
    rw [List.nodup_append]
    refine ⟨?_, ih (k + 1), ?_⟩
    · refine List.Nodup.map_on ?_ List.nodup_range
      intro a _ c _ h
      simp only [Function.comp, segCase] at h
      have := (segName_inj h).2
      omega
    · intro a ha c hc hac
      simp only [List.mem_map, List.mem_range, Function.comp] at ha
      obtain ⟨j, _, rfl⟩ := ha
      obtain ⟨d, hd, rfl⟩ := List.mem_map.1 hc
      simp only [List.mem_flatMap, List.mem_map, List.mem_range] at hd
      obtain ⟨⟨L', i⟩, hLi, j', _, rfl⟩ := hd
      have hki := (List.mem_zipIdx hLi).1
      simp only [segCase] at hac
      have := (segName_inj hac).1
      omega

theorem patternedUdl_eq (Ls : List K) (w : K) (n : ℤ) (hn : 1 ≤ n) :
    patternedUdl Ls w n = .ok (Ls.zipIdx.flatMap fun Li =>
      (List.range n.toNat).map fun j =>
        segCase w Li.1 n.toNat (Li.2 + 1) j (Li.2 * n.toNat + j)) := by
  unfold patternedUdl
  rw [if_neg (by omega), lcAddAll_ok]
  · simp
  · simpa using patterned_names Ls w n.toNat 0

/-- Case `c` loads the point `x` of span `i` (from 0) with intensity `w`. -/
def LCase.Covers (c : LCase K) (w : K) (i : ℕ) (x : K) : Prop :=
  ∃ a l, (⟨(i : ℤ) + 1, 3, [w, a, l]⟩ : Row K) ∈ c.loads ∧ a ≤ x ∧ x < a + l

/-- **C40**: cutting a UDL into `n ≥ 1` patches per span never raises; the cases have different
names, each has one patch of positive length lying on its span, and every point of
every span is loaded by exactly one of them. -/
theorem C40_partition (Ls : List K) (hL : ∀ L ∈ Ls, 0 < L) (w : K) (n : ℤ) (hn : 1 ≤ n) :
    ∃ cs, patternedUdl Ls w n = .ok cs ∧ (cs.length : ℤ) = Ls.length * n ∧ (lcNames cs).Nodup ∧
      (∀ c ∈ cs, ∃ i, ∃ hi : i < Ls.length, ∃ a l, c.loads = [⟨(i : ℤ) + 1, 3, [w, a, l]⟩] ∧
        0 ≤ a ∧ 0 < l ∧ a + l ≤ Ls[i]) ∧
      ∀ i (hi : i < Ls.length) (x : K), 0 ≤ x → x < Ls[i] →
        ∃! c, c ∈ cs ∧ c.Covers w i x := by
  have hn0 : 0 < n.toNat := by omega
  have hnK : (0 : K) < (n.toNat : K) := by exact_mod_cast hn0
  refine ⟨_, patternedUdl_eq Ls w n hn, ?_, ?_, ?_, ?_⟩
  · rw [List.length_flatMap]
    simp only [List.length_map, List.length_range]
    rw [List.map_const']
    simp
    omega
  · exact patterned_names Ls w n.toNat 0
  · intro c hc
    obtain ⟨i, hi, j, hj, rfl⟩ := mem_patterned.1 hc
    have hpos := hL _ (List.getElem_mem hi)
    refine ⟨i, hi, _, _, rfl, ?_, ?_, ?_⟩
    · positivity
    · rw [segCover_eq _ _ _ hj]
      positivity
    · rw [segCover_eq _ _ _ hj]
      have h1 : ((j : K) + 1) * (Ls[i] / (n.toNat : K)) ≤ (n.toNat : K) * (Ls[i] / (n.toNat : K)) := by
        apply mul_le_mul_of_nonneg_right
        · exact_mod_cast hj
        · positivity
      rw [mul_div_cancel₀ _ hnK.ne'] at h1
      linarith
  · intro i hi x h0 hx
    have hpos := hL _ (List.getElem_mem hi)
    have hh : 0 < Ls[i] / (n.toNat : K) := by positivity
    obtain ⟨j, hj, j1, j2⟩ := exists_cell (Ls[i] / (n.toNat : K)) n.toNat x h0 (by
      rw [mul_div_cancel₀ _ hnK.ne']; exact hx)
    refine ⟨segCase w Ls[i] n.toNat (i + 1) j (i * n.toNat + j), ⟨?_, ?_⟩, ?_⟩
    · exact mem_patterned.2 ⟨i, hi, j, hj, rfl⟩
    · exact ⟨_, segCover Ls[i] n.toNat j, by simp [segCase], j1, by
        rw [segCover_eq _ _ _ hj]; exact j2⟩
    · rintro c ⟨hc, a, l, hm, h1, h2⟩
      obtain ⟨i', hi', j', hj', rfl⟩ := mem_patterned.1 hc
      simp only [segCase, List.mem_singleton, Row.mk.injEq, List.cons.injEq, and_true,
        true_and, Nat.cast_add, Nat.cast_one, add_left_inj] at hm
      obtain ⟨e1, e2, e3⟩ := hm
      have e1' : i = i' := by exact_mod_cast e1
      subst e1'
      rw [segCover_eq _ _ _ hj'] at e3
      rw [e2] at h1
      rw [e2, e3] at h2
      have := cell_unique j1 j2 h1 h2 hh
      subst this
      rfl

/-- The parsed loads of the segment cases. -/
def segLoads (Ls : List K) (w : K) (n k : ℕ) : List (SpanLoad K) :=
  (Ls.zipIdx k).flatMap fun Li => (List.range n).map fun j : ℕ =>
    ⟨(Li.2 : ℤ), .pudl w ((j : K) * (Li.1 / n)) (segCover Li.1 n j)⟩

theorem parseLM_flatMap {β : Type*} (l : List β) (c : β → LCase K) (sl : β → SpanLoad K)
    (h : ∀ x ∈ l, ∃ r, (c x).loads = [r] ∧ parseRow r = .ok (some (sl x))) :
    parseLM (l.flatMap fun x => (c x).loads) = .ok (l.map sl) := by
  induction l with
  | nil => rfl
  | cons x l ih =>
    obtain ⟨r, h1, h2⟩ := h x List.mem_cons_self
    have := ih fun y hy => h y (List.mem_cons_of_mem _ hy)
    simp only [List.flatMap_cons, h1, List.cons_append, List.nil_append, parseLM, h2, this,
      List.map_cons]

theorem seg_parse (Ls : List K) (w : K) (n : ℕ) :
    parseLM ((Ls.zipIdx.flatMap fun Li => (List.range n).map fun j =>
      segCase w Li.1 n (Li.2 + 1) j (Li.2 * n + j)).flatMap LCase.loads) =
      .ok (segLoads Ls w n 0) := by
  let P := Ls.zipIdx.flatMap fun Li => (List.range n).map fun j => (Li, j)
  have e1 : (Ls.zipIdx.flatMap fun Li => (List.range n).map fun j =>
      segCase w Li.1 n (Li.2 + 1) j (Li.2 * n + j)) =
      P.map fun q => segCase w q.1.1 n (q.1.2 + 1) q.2 (q.1.2 * n + q.2) := by
    simp [P, List.map_flatMap, Function.comp_def]
  have e2 : segLoads Ls w n 0 = P.map fun q =>
      ⟨(q.1.2 : ℤ), .pudl w ((q.2 : K) * (q.1.1 / n)) (segCover q.1.1 n q.2)⟩ := by
    simp [P, segLoads, List.map_flatMap, Function.comp_def]
  rw [e1, e2, List.flatMap_map]
  refine parseLM_flatMap P (fun q => segCase w q.1.1 n (q.1.2 + 1) q.2 (q.1.2 * n + q.2)) _ ?_
  intro q _
  refine ⟨_, rfl, ?_⟩
  simp [parseRow]

theorem segLoads_own (Ls : List K) (w : K) (n k i : ℕ) (φ : Load K → K) :
    ((ownLoads i (segLoads Ls w n k)).map φ).sum =
      ((Ls.zipIdx k).map fun Li => if Li.2 = i then ((List.range n).map fun j : ℕ =>
        φ (.pudl w ((j : K) * (Li.1 / n)) (segCover Li.1 n j))).sum else 0).sum := by
  unfold segLoads
  induction Ls.zipIdx k with
  | nil => simp [ownLoads]
  | cons Li l ih =>
    simp only [List.flatMap_cons, ownLoads, List.filter_append, List.map_append, List.sum_append,
      List.map_cons, List.sum_cons] at ih ⊢
    rw [ih]
    congr 1
    by_cases h : Li.2 = i
    · rw [if_pos h, List.filter_eq_self.2]
      · simp [Function.comp_def]
      · intro a ha
        obtain ⟨j, _, rfl⟩ := List.mem_map.1 ha
        simp [h]
    · rw [if_neg h, List.filter_eq_nil_iff.2]
      · simp
      · intro a ha
        obtain ⟨j, _, rfl⟩ := List.mem_map.1 ha
        simpa using h

theorem zipIdx_pick (Ls : List K) (k i : ℕ) (hi : i < Ls.length) (g : K → K) :
    ((Ls.zipIdx k).map fun Li => if Li.2 = k + i then g Li.1 else 0).sum = g Ls[i] := by
  induction Ls generalizing k i with
  | nil => simp at hi
  | cons L Ls ih =>
    simp only [List.zipIdx_cons, List.map_cons, List.sum_cons]
    cases i with
    | zero =>
      have : ((Ls.zipIdx (k + 1)).map fun Li => if Li.2 = k + 0 then g Li.1 else 0).sum = 0 := by
        apply List.sum_eq_zero
        intro v hv
        obtain ⟨⟨L', j⟩, hj, rfl⟩ := List.mem_map.1 hv
        have := (List.mem_zipIdx hj).1
        rw [if_neg]
        simp only
        omega
      rw [this]
      simp
    | succ i =>
      have := ih (k + 1) i (by simpa using hi)
      rw [if_neg (by omega), zero_add, List.getElem_cons_succ, ← this]
      congr 1
      apply List.map_congr_left
      intro a _
      rw [show k + (i + 1) = k + 1 + i by omega]

theorem pudl_resultants (w a c L : ℝ) (hL : 0 < L) (ha : 0 ≤ a) (hc : 0 ≤ c) (hb : a + c ≤ L) :
    Load.total L (.pudl w a c) = w * c ∧
      Load.momentAboutLeft L (.pudl w a c) = w * c * (a + c / 2) := by
  obtain ⟨f, h1, h2, h3⟩ := C01_fixed_end_equilibrium (.pudl w a c) L hL
    ⟨ha, by linarith, hc⟩
  simp only [Load.getCnl] at h1
  rw [if_neg (by linarith), if_neg (by linarith)] at h1
  cases h1
  rw [← h2, ← h3]
  simp only [pudlCnl]
  constructor
  · ring
  · field_simp
    ring

theorem udl_resultants (w L : ℝ) (hL : 0 < L) :
    Load.total L (.udl w) = w * L ∧ Load.momentAboutLeft L (.udl w) = w * L * (L / 2) := by
  obtain ⟨f, h1, h2, h3⟩ := C01_fixed_end_equilibrium (.udl w) L hL trivial
  cases h1
  rw [← h2, ← h3]
  simp only [udlCnl]
  constructor
  · field_simp; ring
  · field_simp; ring

theorem sum_segments (w h : ℝ) (n : ℕ) :
    ((List.range n).map fun _ : ℕ => w * h).sum = w * (n * h) ∧
    ((List.range n).map fun j : ℕ => w * h * ((j : ℝ) * h + h / 2)).sum =
      w * (n * h) * (n * h / 2) := by
  induction n with
  | zero => simp
  | succ n ih =>
    rw [List.range_succ, List.map_append, List.map_append, List.sum_append, List.sum_append,
      ih.1, ih.2]
    simp only [List.map_cons, List.map_nil, List.sum_cons, List.sum_nil]
    push_cast
    constructor <;> ring

/-- **C40**, resultants: all the patches together have, on every span, the total and the
moment of the full UDL. -/
theorem C40_resultants (Ls : List ℝ) (hL : ∀ L ∈ Ls, 0 < L) (w : ℝ) (n : ℤ) (hn : 1 ≤ n) :
    ∃ cs ls, patternedUdl Ls w n = .ok cs ∧ parseLM (cs.flatMap LCase.loads) = .ok ls ∧
      (∀ l ∈ ls, 0 ≤ l.iSpan ∧ l.iSpan < Ls.length) ∧
      ∀ i (hi : i < Ls.length),
        ((ownLoads i ls).map (Load.total Ls[i])).sum = Load.total Ls[i] (.udl w) ∧
        ((ownLoads i ls).map (Load.momentAboutLeft Ls[i])).sum =
          Load.momentAboutLeft Ls[i] (.udl w) := by
  refine ⟨_, _, patternedUdl_eq Ls w n hn, seg_parse Ls w n.toNat, ?_, fun i hi => ?_⟩
  · intro l hl
    simp only [segLoads, List.mem_flatMap, List.mem_map] at hl
    obtain ⟨⟨L, i⟩, hLi, j, _, rfl⟩ := hl
    have := (List.mem_zipIdx hLi).2.1
    constructor <;> simp only <;> omega
  have hn0 : 0 < n.toNat := by omega
  have hnK : (0 : ℝ) < (n.toNat : ℝ) := by exact_mod_cast hn0
  have hpos := hL _ (List.getElem_mem hi)
  have e := fun φ : Load ℝ → ℝ => (segLoads_own Ls w n.toNat 0 i φ).trans (by
    have := zipIdx_pick Ls 0 i hi fun L => ((List.range n.toNat).map fun j : ℕ =>
        φ (.pudl w ((j : ℝ) * (L / n.toNat)) (segCover L n.toNat j))).sum
    simp only [Nat.zero_add] at this
    exact this)
  rw [e, e]
  have hseg : ∀ j ∈ List.range n.toNat,
      Load.total Ls[i] (.pudl w ((j : ℝ) * (Ls[i] / n.toNat)) (segCover Ls[i] n.toNat j)) =
        w * (Ls[i] / n.toNat) ∧
      Load.momentAboutLeft Ls[i]
        (.pudl w ((j : ℝ) * (Ls[i] / n.toNat)) (segCover Ls[i] n.toNat j)) =
        w * (Ls[i] / n.toNat) * ((j : ℝ) * (Ls[i] / n.toNat) + Ls[i] / n.toNat / 2) := by
    intro j hj
    have hj := List.mem_range.1 hj
    rw [segCover_eq _ _ _ hj]
    apply pudl_resultants _ _ _ _ hpos
    · positivity
    · positivity
    · have h1 : ((j : ℝ) + 1) * (Ls[i] / (n.toNat : ℝ)) ≤
          (n.toNat : ℝ) * (Ls[i] / (n.toNat : ℝ)) := by
        apply mul_le_mul_of_nonneg_right
        · exact_mod_cast hj
        · positivity
      rw [mul_div_cancel₀ _ hnK.ne'] at h1
      linarith
  obtain ⟨s1, s2⟩ := sum_segments w (Ls[i] / n.toNat) n.toNat
  rw [mul_div_cancel₀ _ hnK.ne'] at s1 s2
  obtain ⟨u1, u2⟩ := udl_resultants w Ls[i] hpos
  rw [u1, u2, ← s2, ← s1]
  exact ⟨congrArg List.sum (List.map_congr_left fun j hj => (hseg j hj).1),
    congrArg List.sum (List.map_congr_left fun j hj => (hseg j hj).2)⟩

/-- **C40**, one case per span: the cases made by `make_span_udl_cases` never clash, and case
`i` is the full UDL on span `i` and nothing else. -/
theorem C40_span_cases (Ls : List K) (w : K) :
    ∃ cs, spanUdl [] Ls w = .ok cs ∧ cs.length = Ls.length ∧ (lcNames cs).Nodup ∧
      ∀ i (hi : i < cs.length), cs[i].loads = [⟨(i : ℤ) + 1, 1, [w]⟩] ∧ cs[i].loadedSpans = [(i : ℤ)] := by
  have hnd : (lcNames ((List.range Ls.length).map fun i : ℕ =>
      (⟨s!"UDL on span {i + 1}", [⟨(i : ℤ) + 1, 1, [w]⟩], [(i : ℤ)], none⟩ : LCase K))).Nodup := by
    simp only [lcNames, List.map_map]
    refine List.Nodup.map_on ?_ List.nodup_range
    intro a _ c _ h
    have := spanName_inj h
    omega
  refine ⟨_, lcAddAll_ok [] _ (by simpa using hnd), by simp, by simpa using hnd, ?_⟩
  intro i hi
  simp

/-- C40 at two spans and three patches each; `n < 1` is refused. -/
example : (patternedUdl ([6, 3] : List ℚ) 5 3).toOption.map
      (fun cs => (lcNames cs, cs.map LCase.loads)) = some
    (["UDL span 1 segment 1", "UDL span 1 segment 2", "UDL span 1 segment 3",
      "UDL span 2 segment 1", "UDL span 2 segment 2", "UDL span 2 segment 3"],
     [[⟨1, 3, [5, 0, 2]⟩], [⟨1, 3, [5, 2, 2]⟩], [⟨1, 3, [5, 4, 2]⟩],
      [⟨2, 3, [5, 0, 1]⟩], [⟨2, 3, [5, 1, 1]⟩], [⟨2, 3, [5, 2, 1]⟩]]) ∧
    patternedUdl ([6, 3] : List ℚ) 5 0 = .error .valueError := by
  refine ⟨by decide +kernel, rfl⟩

/-! ## C42 -/

/-- The spans a pattern loads with the maximum: pattern `k < N - 1` the pair `k + 1`, `k + 2`,
then the odd spans, the even spans, and everything. -/
def Designated (N k : ℕ) (s : ℤ) : Prop :=
  if k < N - 1 then s = (k : ℤ) + 1 ∨ s = (k : ℤ) + 2
  else if k = N - 1 then 1 ≤ s ∧ s ≤ N ∧ s % 2 = 1
  else if k = N then 1 ≤ s ∧ s ≤ N ∧ s % 2 = 0
  else True

theorem factorLM_ok {g : K} {LM LM' : List (Row K)} (h : factorLM g LM = .ok LM') :
    LM'.length = LM.length ∧
      ∀ i (hi : i < LM.length) (hi' : i < LM'.length), factorRow g LM[i] = .ok LM'[i] := by
  induction LM generalizing LM' with
  | nil => cases h; simp
  | cons r LM ih =>
    simp only [factorLM] at h
    split at h
    · cases h
    · rename_i r' hr
      split at h
      · cases h
      · rename_i rs' hrs
        cases h
        obtain ⟨h1, h2⟩ := ih hrs
        refine ⟨by simp [h1], fun i hi hi' => ?_⟩
        cases i with
        | zero => exact hr
        | succ i => exact h2 i (by simpa using hi) (by simpa using hi')

theorem factorRow_span {g : K} {r r' : Row K} (h : factorRow g r = .ok r') : r'.span = r.span := by
  unfold factorRow at h
  repeat' split at h
  all_goals (cases h <;> rfl)

theorem chooseMax_get (lo hi : List (Row K)) (spans : List ℤ) (h : lo.length = hi.length) :
    (chooseMax lo hi spans).length = hi.length ∧
      ∀ r (h1 : r < hi.length) (h2 : r < (chooseMax lo hi spans).length),
        (chooseMax lo hi spans)[r] =
          if hi[r].span ∈ spans then hi[r] else lo[r]'(h ▸ h1) := by
  simp [chooseMax, h]

/-- What C42 says of pattern `k`: every row once, in order, with the factor the designated
spans call for. -/
def PatternOf (N k : ℕ) (g q : List (Row K)) (gmax gmin qmax qmin : K) (c : LCase K) : Prop :=
  c.loads.length = g.length + q.length ∧
  (∀ r (h : r < g.length) (h' : r < c.loads.length),
    (Designated N k g[r].span → factorRow gmax g[r] = .ok c.loads[r]) ∧
    (¬ Designated N k g[r].span → factorRow gmin g[r] = .ok c.loads[r])) ∧
  (∀ r (h : r < q.length) (h' : g.length + r < c.loads.length),
    (Designated N k q[r].span → factorRow qmax q[r] = .ok c.loads[g.length + r]) ∧
    (¬ Designated N k q[r].span → factorRow qmin q[r] = .ok c.loads[g.length + r]))

theorem patternOf_choose (N k : ℕ) {g q g1 q1 g0 q0 : List (Row K)} {gmax gmin qmax qmin : K}
    (h1 : factorLM gmax g = .ok g1) (h2 : factorLM qmax q = .ok q1)
    (h3 : factorLM gmin g = .ok g0) (h4 : factorLM qmin q = .ok q0)
    (nm : String) (spans ld : List ℤ) (hs : ∀ s, s ∈ spans ↔ Designated N k s) :
    PatternOf N k g q gmax gmin qmax qmin
      ⟨nm, chooseMax (g0 ++ q0) (g1 ++ q1) spans, ld, none⟩ := by
  obtain ⟨a1, b1⟩ := factorLM_ok h1
  obtain ⟨a2, b2⟩ := factorLM_ok h2
  obtain ⟨a3, b3⟩ := factorLM_ok h3
  obtain ⟨a4, b4⟩ := factorLM_ok h4
  obtain ⟨c1, c2⟩ := chooseMax_get (g0 ++ q0) (g1 ++ q1) spans (by simp [a1, a2, a3, a4])
  refine ⟨by simp [c1, a1, a2], fun r h h' => ?_, fun r h h' => ?_⟩
  · have hr1 : r < g1.length := by omega
    have hr0 : r < g0.length := by omega
    have e := c2 r (by simp; omega) h'
    rw [List.getElem_append_left hr1, List.getElem_append_left hr0] at e
    simp only
    rw [e, factorRow_span (b1 r h hr1), ← hs]
    constructor <;> intro hd
    · rw [if_pos hd]; exact b1 r h hr1
    · rw [if_neg hd]; exact b3 r h hr0
  · have hr1 : r < q1.length := by omega
    have hr0 : r < q0.length := by omega
    have e := c2 (g.length + r) (by simp; omega) h'
    rw [List.getElem_append_right (by omega), List.getElem_append_right (by omega)] at e
    simp only [a1, a3, Nat.add_sub_cancel_left] at e
    simp only
    rw [e, factorRow_span (b2 r h hr1), ← hs]
    constructor <;> intro hd
    · rw [if_pos hd]; exact b2 r h hr1
    · rw [if_neg hd]; exact b4 r h hr0

theorem patternSpans_get (N k : ℕ) (hN : 1 ≤ N) (hk : k < (patternSpans N).length) :
    k ≤ N ∧ ∀ s, s ∈ (patternSpans N)[k].2 ↔ Designated N k s := by
  have hlen : (patternSpans N).length = N + 1 := by simp [patternSpans]; omega
  refine ⟨by omega, fun s => ?_⟩
  unfold Designated
  rcases Nat.lt_trichotomy k (N - 1) with h | h | h
  · rw [if_pos h]
    simp [patternSpans, List.getElem_append_left, h]
  · rw [if_neg (by omega), if_pos h]
    subst h
    simp only [patternSpans, List.length_map, List.length_range, le_refl,
      List.getElem_append_right, Nat.sub_self, List.getElem_cons_zero, List.mem_map,
      List.mem_filter, List.mem_range, decide_eq_true_eq]
    constructor
    · rintro ⟨i, ⟨h1, h2⟩, rfl⟩
      omega
    · rintro ⟨h1, h2, h3⟩
      exact ⟨(s - 1).toNat, by omega, by omega⟩
  · have hk' : k = N := by omega
    subst hk'
    rw [if_neg (by omega), if_neg (by omega), if_pos rfl]
    have e : k - (k - 1) = 1 := by omega
    simp only [patternSpans, List.length_map, List.length_range, Nat.sub_le,
      List.getElem_append_right, e, List.getElem_cons_succ, List.getElem_cons_zero, List.mem_map,
      List.mem_filter, List.mem_range, decide_eq_true_eq]
    constructor
    · rintro ⟨i, ⟨h1, h2⟩, rfl⟩
      omega
    · rintro ⟨h1, h2, h3⟩
      exact ⟨(s - 1).toNat, by omega, by omega⟩

theorem hog_ne {i j : ℕ} {s : String} (hs : s.toList.getD 4 'h' ≠ 'h') :
    s!"Max hogging spans {i}-{j}" ≠ s := by
  rintro rfl
  apply hs
  simp only [String.toList_append, List.append_assoc]
  rw [show (toString "Max hogging spans ").toList = "Max hogging spans ".toList from rfl]
  rfl

/-- **C42** — with both loads set and factorable, patterning gives `N + 2` cases of distinct
names; case `k` holds every dead and live load once, at the maximum on the spans its pattern
designates and the minimum elsewhere. -/
theorem C42_patterns (N : ℕ) (hN : 1 ≤ N) (g q g1 q1 g0 q0 : List (Row K)) (gmax gmin qmax qmin : K)
    (h1 : factorLM gmax g = .ok g1) (h2 : factorLM qmax q = .ok q1)
    (h3 : factorLM gmin g = .ok g0) (h4 : factorLM qmin q = .ok q0) :
    ∃ cs, loadPattern N (some g) (some q) gmax gmin qmax qmin = .ok cs ∧
      cs.length = N + 2 ∧ (lcNames cs).Nodup ∧
      ∀ k (hk : k < cs.length), PatternOf N k g q gmax gmin qmax qmin cs[k] ∧
        (k ≤ N → ∀ s, s ∈ cs[k].loadedSpans ↔ Designated N k (s + 1)) := by
  have hlen : (patternSpans N).length = N + 1 := by simp [patternSpans]; omega
  set cs : List (LCase K) := ((patternSpans N).map fun p =>
        ⟨p.1, chooseMax (g0 ++ q0) (g1 ++ q1) p.2, p.2.map (· - 1), none⟩) ++
        [⟨"All spans max", g1 ++ q1, (List.range N).map (fun i : ℕ => (i : ℤ)), none⟩] with hcs
  have hnd : (lcNames cs).Nodup := by
    have e : lcNames cs = ((List.range (N - 1)).map fun i : ℕ =>
        s!"Max hogging spans {i + 1}-{i + 2}") ++
        ["Max odd spans", "Max even spans", "All spans max"] := by
      simp [hcs, lcNames, patternSpans, Function.comp_def]
    rw [e, List.nodup_append]
    refine ⟨?_, by decide +kernel, ?_⟩
    · refine List.Nodup.map_on ?_ List.nodup_range
      intro a _ b _ h
      have := (hogName_inj h).1
      omega
    · intro a ha b hb
      obtain ⟨i, _, rfl⟩ := List.mem_map.1 ha
      apply hog_ne
      simp only [List.mem_cons, List.not_mem_nil, or_false] at hb
      rcases hb with rfl | rfl | rfl <;> decide +kernel
  refine ⟨cs, ?_, by simp [hcs, hlen], hnd, fun k hk => ?_⟩
  · simp only [loadPattern, h1, h2, h3, h4]
    exact lcAddAll_ok [] _ (by simpa using hnd)
  by_cases hk' : k < (patternSpans N).length
  · obtain ⟨hkN, hs⟩ := patternSpans_get N k hN hk'
    have e : cs[k] = ⟨(patternSpans N)[k].1, chooseMax (g0 ++ q0) (g1 ++ q1) (patternSpans N)[k].2,
        (patternSpans N)[k].2.map (· - 1), none⟩ := by
      simp only [hcs]
      rw [List.getElem_append_left (by simpa using hk')]
      simp
    rw [e]
    refine ⟨patternOf_choose N k h1 h2 h3 h4 _ _ _ hs, fun _ s => ?_⟩
    rw [← hs]
    simp only [List.mem_map]
    constructor
    · rintro ⟨a, ha, rfl⟩
      simpa using ha
    · intro h
      exact ⟨_, h, by ring⟩
  · have hkN : k = N + 1 := by
      have : cs.length = N + 2 := by simp [hcs, hlen]
      omega
    have e : cs[k] = ⟨"All spans max", g1 ++ q1,
        (List.range N).map (fun i : ℕ => (i : ℤ)), none⟩ := by
      simp only [hcs]
      rw [List.getElem_append_right (by simpa using hk')]
      simp
    have hD : ∀ s, Designated N k s := by
      intro s
      unfold Designated
      rw [if_neg (by omega), if_neg (by omega), if_neg (by omega)]
      trivial
    rw [e]
    obtain ⟨a1, b1⟩ := factorLM_ok h1
    obtain ⟨a2, b2⟩ := factorLM_ok h2
    refine ⟨⟨by simp [a1, a2], fun r h h' => ⟨fun _ => ?_, fun hd => absurd (hD _) hd⟩,
      fun r h h' => ⟨fun _ => ?_, fun hd => absurd (hD _) hd⟩⟩, by omega⟩
    · simp only
      rw [List.getElem_append_left (by omega)]
      exact b1 r h (by omega)
    · simp only
      rw [List.getElem_append_right (by omega)]
      simp only [a1, Nat.add_sub_cancel_left]
      exact b2 r h (by omega)

/-- **C42** — unset loads are refused. -/
theorem C42_unset (N : ℕ) (LMg LMq : Option (List (Row K))) (gmax gmin qmax qmin : K)
    (h : LMg = none ∨ LMq = none) :
    loadPattern N LMg LMq gmax gmin qmax qmin = .error .valueError := by
  rcases h with rfl | rfl
  · rfl
  · cases LMg <;> rfl

/-- C42 at three spans, a UDL on each and one live point load. -/
example : (loadPattern 3 (some [⟨1, 1, [10]⟩, ⟨2, 1, [10]⟩, ⟨3, 1, [10]⟩])
      (some [⟨2, 2, [7, 1]⟩]) (2 : ℚ) 1 3 0).toOption.map
      (fun cs => (lcNames cs, ((cs[2]?).map LCase.loads))) = some
    (["Max hogging spans 1-2", "Max hogging spans 2-3", "Max odd spans", "Max even spans",
      "All spans max"],
     some [⟨1, 1, [20]⟩, ⟨2, 1, [10]⟩, ⟨3, 1, [20]⟩, ⟨2, 2, [0, 1]⟩]) := by
  decide +kernel

/-! ## C80 -/

/-- Row `r` puts `w` on the point `t` of span `i` (from 0). -/
def Row.LoadsAt (r : Row K) (i : ℕ) (w t : K) : Prop :=
  r = ⟨(i : ℤ) + 1, 1, [w]⟩ ∨
    ∃ a l, r = ⟨(i : ℤ) + 1, 3, [w, a, l]⟩ ∧ a ≤ t ∧ t < a + l

theorem segmentRow_loads (x0 x1 w : K) (i : ℕ) (s e : K) (hse : s < e) (h0 : x0 < x1) :
    (min x1 e - max x0 s ≤ 1 / 10 ^ 9 ∧ segmentRow x0 x1 w i s e = none) ∨
    (1 / 10 ^ 9 < min x1 e - max x0 s ∧ ∃ r, segmentRow x0 x1 w i s e = some r ∧
      r.span = (i : ℤ) + 1 ∧ ∃ a' l',
      (a' = max x0 s - s ∨ a' = 0 ∧ max x0 s - s ≤ 1 / 10 ^ 9) ∧
      (l' = min x1 e - max x0 s ∧
          1 / 10 ^ 9 + 1 / 10 ^ 5 * (e - s) < (e - s) - (min x1 e - max x0 s) ∨
        l' = e - s ∧ (e - s) - (min x1 e - max x0 s) ≤ 1 / 10 ^ 9 + 1 / 10 ^ 5 * (e - s)) ∧
      ∀ t, 0 ≤ t → t < e - s → (r.LoadsAt i w t ↔ a' ≤ t ∧ t < a' + l')) := by
  by_cases hc : min x1 e - max x0 s ≤ 1 / 10 ^ 9
  · exact Or.inl ⟨hc, by simp only [segmentRow]; rw [if_pos hc]⟩
  right
  have hmax : s ≤ max x0 s := le_max_right _ _
  have hmin : min x1 e ≤ e := min_le_right _ _
  refine ⟨not_le.1 hc, ?_⟩
  simp only [segmentRow]
  rw [if_neg hc]
  set a := max x0 s - s with ha
  set c := min x1 e - max x0 s with hcv
  have ha0 : 0 ≤ a := by rw [ha]; linarith
  have hcL : c ≤ e - s := by rw [hcv]; linarith
  set a' : K := if isClose a 0 (1 / 10 ^ 9) then 0 else a with ha'
  set l' : K := if isClose c (e - s) (1 / 10 ^ 9) then e - s else c with hl'
  have hA : a' = a ∨ a' = 0 ∧ a ≤ 1 / 10 ^ 9 := by
    rw [ha']
    split
    · rename_i h
      simp only [isClose, decide_eq_true_eq, sub_zero, abs_zero, mul_zero, add_zero] at h
      exact Or.inr ⟨rfl, (le_abs_self a).trans h⟩
    · exact Or.inl rfl
  have hB : l' = c ∧ 1 / 10 ^ 9 + 1 / 10 ^ 5 * (e - s) < (e - s) - c ∨ l' = e - s ∧ (e - s) - c ≤ 1 / 10 ^ 9 + 1 / 10 ^ 5 * (e - s) := by
    rw [hl']
    split
    · rename_i h
      simp only [isClose, decide_eq_true_eq] at h
      rw [abs_of_pos (by linarith : 0 < e - s), abs_sub_comm,
        abs_of_nonneg (by linarith : 0 ≤ e - s - c)] at h
      exact Or.inr ⟨rfl, h⟩
    · rename_i h
      simp only [isClose, decide_eq_true_eq] at h
      rw [abs_of_pos (by linarith : 0 < e - s), abs_sub_comm,
        abs_of_nonneg (by linarith : 0 ≤ e - s - c)] at h
      exact Or.inl ⟨rfl, not_le.1 h⟩
  by_cases hf : a' = 0 ∧ l' = e - s
  · rw [if_pos hf]
    refine ⟨_, rfl, rfl, a', l', hA, hB, fun t h1 h2 => ?_⟩
    rw [hf.1, hf.2]
    simp [Row.LoadsAt, h1, h2]
  · rw [if_neg hf]
    refine ⟨_, rfl, rfl, a', l', hA, hB, fun t h1 h2 => ?_⟩
    constructor
    · rintro (h | ⟨a2, l2, h, h3, h4⟩)
      · simp at h
      · simp only [Row.mk.injEq, true_and, List.cons.injEq, and_true] at h
        rw [h.1, h.2]
        exact ⟨h3, h4⟩
    · exact fun h => Or.inr ⟨a', l', rfl, h⟩

theorem boundary_succ (Ls : List K) (i : ℕ) (hi : i < Ls.length) :
    boundary Ls (i + 1) = boundary Ls i + Ls[i] := by
  exact List.sum_take_succ Ls i hi

theorem segmentUdl_rows {Ls : List K} {x0 x1 w : K} (h0 : 0 ≤ x0) (h1 : x0 < x1)
    (h2 : x1 ≤ Ls.sum) :
    segmentUdl Ls x0 x1 w = .ok ((List.range Ls.length).filterMap fun i =>
      segmentRow x0 x1 w i (boundary Ls i) (boundary Ls (i + 1))) := by
  have e0 : max 0 (min x0 Ls.sum) = x0 := by
    rw [min_eq_left (by linarith), max_eq_right h0]
  have e1 : max 0 (min x1 Ls.sum) = x1 := by
    rw [min_eq_left h2, max_eq_right (by linarith)]
  have ht : (0 : K) < 1 / 10 ^ 9 := by positivity
  unfold segmentUdl
  dsimp only
  rw [e0, e1, if_neg (not_le.2 h1), if_neg]
  push Not
  constructor <;> linarith

theorem segmentUdl_loads {Ls : List K} (hL : ∀ L ∈ Ls, 0 < L) {x0 x1 w : K} (h1 : x0 < x1)
    (i : ℕ) (hi : i < Ls.length) (t : K) :
    (∃ r ∈ (List.range Ls.length).filterMap fun i =>
      segmentRow x0 x1 w i (boundary Ls i) (boundary Ls (i + 1)), r.LoadsAt i w t) ↔
    ∃ r, segmentRow x0 x1 w i (boundary Ls i) (boundary Ls (i + 1)) = some r ∧
      r.LoadsAt i w t := by
  constructor
  · rintro ⟨r, hr, hl⟩
    obtain ⟨j, hj, hrj⟩ := List.mem_filterMap.1 hr
    have hj := List.mem_range.1 hj
    have hse : boundary Ls j < boundary Ls (j + 1) := by
      rw [boundary_succ Ls j hj]
      linarith [hL _ (List.getElem_mem hj)]
    rcases segmentRow_loads x0 x1 w j _ _ hse h1 with ⟨_, h⟩ | ⟨_, r', h, hs, _⟩
    · rw [h] at hrj; cases hrj
    · rw [h] at hrj
      cases hrj
      have : r.span = (i : ℤ) + 1 := by
        rcases hl with rfl | ⟨a, l, rfl, _⟩ <;> rfl
      have : j = i := by omega
      subst this
      exact ⟨r, h, hl⟩
  · rintro ⟨r, hr, hl⟩
    exact ⟨r, List.mem_filterMap.2 ⟨i, List.mem_range.2 hi, hr⟩, hl⟩

theorem segmentUdl_spans {Ls : List K} (hL : ∀ L ∈ Ls, 0 < L) {x0 x1 w : K} (h1 : x0 < x1) :
    (((List.range Ls.length).filterMap fun i =>
      segmentRow x0 x1 w i (boundary Ls i) (boundary Ls (i + 1))).map Row.span).Pairwise
        (· < ·) := by
  have key : ∀ j < Ls.length, ∀ r,
      segmentRow x0 x1 w j (boundary Ls j) (boundary Ls (j + 1)) = some r →
      r.span = (j : ℤ) + 1 := by
    intro j hj r hr
    have hse : boundary Ls j < boundary Ls (j + 1) := by
      rw [boundary_succ Ls j hj]
      linarith [hL _ (List.getElem_mem hj)]
    rcases segmentRow_loads x0 x1 w j _ _ hse h1 with ⟨_, h⟩ | ⟨_, r', h, hs, _⟩
    · rw [h] at hr; cases hr
    · rw [h] at hr; cases hr; exact hs
  rw [List.pairwise_map, List.pairwise_filterMap]
  refine List.Pairwise.imp_of_mem ?_ List.pairwise_lt_range
  intro i j hi hj hij r hr r' hr'
  rw [key i (List.mem_range.1 hi) r hr, key j (List.mem_range.1 hj) r' hr']
  omega

/-- The slivers that the tolerances of `_make_segment_udl` swallow do not occur. -/
def NoSliver (Ls : List K) (x0 x1 : K) : Prop :=
  ∀ i (hi : i < Ls.length),
    let s := boundary Ls i
    let o := min x1 (s + Ls[i]) - max x0 s
    (o ≤ 0 ∨ 1 / 10 ^ 9 < o) ∧ (max x0 s = s ∨ 1 / 10 ^ 9 < max x0 s - s) ∧
      (o = Ls[i] ∨ 1 / 10 ^ 9 + 1 / 10 ^ 5 * Ls[i] < Ls[i] - o)

/-- **C80**, partial: where no sliver is swallowed, the rows of a segment UDL put `w` exactly on
the points between `x0` and `x1`, with at most one row on each span.  Missing: the
segments whose ends fall within the tolerances of a support, for which see
`C80_segment_error` and `C80_segment_violation`. -/
theorem C80_segment_partial (Ls : List K) (hL : ∀ L ∈ Ls, 0 < L) (x0 x1 w : K) (h0 : 0 ≤ x0)
    (h1 : x0 < x1) (h2 : x1 ≤ Ls.sum) (hns : NoSliver Ls x0 x1) :
    ∃ rows, segmentUdl Ls x0 x1 w = .ok rows ∧ (rows.map Row.span).Pairwise (· < ·) ∧
      ∀ i (hi : i < Ls.length) (t : K), 0 ≤ t → t < Ls[i] →
        ((∃ r ∈ rows, r.LoadsAt i w t) ↔ x0 ≤ boundary Ls i + t ∧ boundary Ls i + t < x1) := by
  refine ⟨_, segmentUdl_rows h0 h1 h2, segmentUdl_spans hL h1, fun i hi t ht0 htL => ?_⟩
  rw [segmentUdl_loads hL h1 i hi t]
  have hpos := hL _ (List.getElem_mem hi)
  obtain ⟨n1, n2, n3⟩ := hns i hi
  rw [boundary_succ Ls i hi]
  set s := boundary Ls i with hs
  have ht9 : (0 : K) < 1 / 10 ^ 9 := by positivity
  rcases segmentRow_loads x0 x1 w i s (s + Ls[i]) (by linarith) h1 with
    ⟨hc, h⟩ | ⟨hc, r, h, _, a', l', hA, hB, hload⟩
  · simp only [h, reduceCtorEq, false_and, exists_false, false_iff, not_and, not_lt]
    intro hx
    have ho : min x1 (s + Ls[i]) - max x0 s ≤ 0 := by
      rcases n1 with h | h
      · exact h
      · linarith
    have hm : max x0 s ≤ s + t := max_le hx (by linarith)
    by_contra hcon
    push Not at hcon
    have : s + t < min x1 (s + Ls[i]) := lt_min hcon (by linarith)
    linarith
  · have ea : a' = max x0 s - s := by
      rcases hA with h | ⟨h, h'⟩
      · exact h
      · rcases n2 with h2 | h2
        · rw [h, h2, sub_self]
        · linarith
    have el : l' = min x1 (s + Ls[i]) - max x0 s := by
      rcases hB with ⟨h, _⟩ | ⟨h, h'⟩
      · exact h
      · rcases n3 with h2 | h2
        · rw [h, h2]; ring
        · rw [add_sub_cancel_left] at h'
          linarith
    have := hload t ht0 (by linarith)
    simp only [h, Option.some.injEq, exists_eq_left']
    rw [this, ea, el]
    constructor
    · rintro ⟨p, q⟩
      exact ⟨by linarith [le_max_left x0 s], by linarith [min_le_left x1 (s + Ls[i])]⟩
    · rintro ⟨p, q⟩
      have hm : max x0 s ≤ s + t := max_le p (by linarith)
      have : s + t < min x1 (s + Ls[i]) := lt_min q (by linarith)
      exact ⟨by linarith, by linarith⟩

/-- **C80**, the error of the tolerances: for every segment within the beam, points further
from both its ends than `2e-9 + 1e-5 L` are loaded just when they are inside. -/
theorem C80_segment_error (Ls : List K) (hL : ∀ L ∈ Ls, 1 / 10 ^ 9 < L) (x0 x1 w : K) (h0 : 0 ≤ x0)
    (h1 : x0 < x1) (h2 : x1 ≤ Ls.sum) :
    ∃ rows, segmentUdl Ls x0 x1 w = .ok rows ∧
      ∀ i (hi : i < Ls.length) (t : K), 0 ≤ t → t < Ls[i] →
        2 / 10 ^ 9 + 1 / 10 ^ 5 * Ls[i] < |boundary Ls i + t - x0| →
        2 / 10 ^ 9 + 1 / 10 ^ 5 * Ls[i] < |boundary Ls i + t - x1| →
        ((∃ r ∈ rows, r.LoadsAt i w t) ↔ x0 ≤ boundary Ls i + t ∧ boundary Ls i + t < x1) := by
  have ht9 : (0 : K) < 1 / 10 ^ 9 := by positivity
  refine ⟨_, segmentUdl_rows h0 h1 h2, fun i hi t ht0 htL hx0 hx1 => ?_⟩
  rw [segmentUdl_loads (fun L h => ht9.trans (hL L h)) h1 i hi t]
  have hpos := hL _ (List.getElem_mem hi)
  rw [boundary_succ Ls i hi]
  set s := boundary Ls i with hs
  have e2 : (2 : K) / 10 ^ 9 = 1 / 10 ^ 9 + 1 / 10 ^ 9 := by norm_num
  have e5 : 0 < 1 / 10 ^ 5 * Ls[i] := mul_pos (by positivity) (by linarith)
  rw [e2] at hx0 hx1
  rcases segmentRow_loads x0 x1 w i s (s + Ls[i]) (by linarith) h1 with
    ⟨hc, h⟩ | ⟨hc, r, h, _, a', l', hA, hB, hload⟩
  · simp only [h, reduceCtorEq, false_and, exists_false, false_iff, not_and, not_lt]
    intro hx
    by_contra hcon
    push Not at hcon
    rw [abs_of_nonneg (by linarith)] at hx0
    rw [abs_of_neg (by linarith)] at hx1
    rcases max_choice x0 s with hm | hm <;> rcases min_choice x1 (s + Ls[i]) with hm' | hm' <;>
      rw [hm, hm'] at hc <;> linarith
  · have := hload t ht0 (by linarith)
    simp only [h, Option.some.injEq, exists_eq_left']
    rw [this]
    have m1 := le_max_left x0 s
    have m2 := le_max_right x0 s
    have m3 := min_le_left x1 (s + Ls[i])
    have m4 := min_le_right x1 (s + Ls[i])
    rw [add_sub_cancel_left] at hB
    constructor
    · rintro ⟨p, q⟩
      constructor
      · by_contra hcon
        push Not at hcon
        rw [abs_of_neg (by linarith)] at hx0
        rcases hA with h | ⟨h, h'⟩ <;> linarith
      · by_contra hcon
        push Not at hcon
        rw [abs_of_nonneg (by linarith)] at hx1
        rcases hA with h | ⟨h, h'⟩ <;> rcases hB with ⟨g, g'⟩ | ⟨g, g'⟩ <;> linarith
    · rintro ⟨p, q⟩
      have hm : max x0 s ≤ s + t := max_le p (by linarith)
      have hm' : s + t < min x1 (s + Ls[i]) := lt_min q (by linarith)
      rw [abs_of_nonneg (by linarith)] at hx0
      rw [abs_of_neg (by linarith)] at hx1
      constructor
      · rcases hA with h | ⟨h, h'⟩ <;> linarith
      · rcases hA with h | ⟨h, h'⟩ <;> rcases hB with ⟨g, g'⟩ | ⟨g, g'⟩
        · linarith
        · linarith
        · rcases min_choice x1 (s + Ls[i]) with hm2 | hm2 <;>
            rcases max_choice x0 s with hm3 | hm3 <;> rw [hm2] at g g' m4 hm' <;>
            rw [hm3] at g g' h' m1 m2 hm <;> linarith
        · linarith

/-- **C80**: reversed and out-of-range segments are refused. -/
theorem C80_refusal (Ls : List K) (x0 x1 w : K)
    (h : x1 ≤ x0 ∨ x0 < -(1 / 10 ^ 9) ∨ Ls.sum + 1 / 10 ^ 9 < x1) :
    segmentUdl Ls x0 x1 w = .error .valueError := by
  unfold segmentUdl
  dsimp only
  rcases h with h | h
  · rw [if_pos h]
  · rw [if_pos h, ite_self]

/-- C80's full statement fails: on a span of length 1 the segment from 0 to `1 - 1e-6` comes
out as a UDL on the whole span, loading the point `1 - 1e-7`. -/
theorem C80_segment_violation :
    ∃ (Ls : List ℚ) (x0 x1 w : ℚ) (rows : List (Row ℚ)) (t : ℚ), (∀ L ∈ Ls, 0 < L) ∧ 0 ≤ x0 ∧
      x0 < x1 ∧ x1 ≤ Ls.sum ∧ segmentUdl Ls x0 x1 w = .ok rows ∧ 0 ≤ t ∧ t < 1 ∧
      (∃ r ∈ rows, r.LoadsAt 0 w t) ∧ x1 < t := by
  refine ⟨[1], 0, 1 - 1 / 10 ^ 6, 5, [⟨1, 1, [5]⟩], 1 - 1 / 10 ^ 7, by simp, le_refl _,
    by norm_num, by norm_num, by decide +kernel, by norm_num, by norm_num,
    ⟨_, List.mem_cons_self, Or.inl rfl⟩, by norm_num⟩

/-- C80's hypotheses hold on three spans for a segment from inside the first to inside the
third; the middle span gets a full UDL. -/
example : NoSliver ([4, 5, 6] : List ℚ) 3 11 ∧ segmentUdl ([4, 5, 6] : List ℚ) 3 11 2 =
    .ok [⟨1, 3, [2, 3, 1]⟩, ⟨2, 1, [2]⟩, ⟨3, 3, [2, 0, 2]⟩] := by
  refine ⟨fun i hi => ?_, by decide +kernel⟩
  simp only [List.length_cons, List.length_nil] at hi
  interval_cases i <;> simp [boundary] <;> norm_num

end PyCBA
