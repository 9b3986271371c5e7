import Verif.LoadCases.Rows
import Verif.LoadCases.Nested
import Verif.Influence.Props
import Verif.Plot.Model

/-!
Model of `plot_response_envelope` and `plot_load_patterns` (`load_cases.py` 1225-1334) and of
`InfluenceLines.plot_il` (`inf_lines.py` 197-237), with C143.  Colours, line styles, grids and sizes
are not modelled.
-/

set_option linter.unusedSectionVars false
set_option linter.unusedSimpArgs false

namespace PyCBA

variable {K : Type*} [Field K] [LinearOrder K] [IsStrictOrderedRing K]

/-! ### The model -/

/-- One case of `plot_load_patterns`: the strip from `lo` to `hi` over the whole beam, the bars
(start and width) in it, and the label of its tick at height `at`. -/
structure PatternRow (K : Type*) where
  lo : K
  hi : K
  back : List (K × K)
  bars : List (K × K)
  tick : K
  label : String

/-- What `plot_load_patterns` draws. -/
structure PatternPlot (K : Type*) where
  rows : List (PatternRow K)
  lines : List K
  xlo : K
  xhi : K
  ylo : K
  yhi : K
  inverted : Bool

/-- `_span_boundaries`, `load_cases.py` 790-791. -/
def spanBoundaries (Ls : List K) : List K := (List.range (Ls.length + 1)).map (boundary Ls)

/-- `plot_load_patterns`, `load_cases.py` 1294-1334. -/
def plotPatterns (Ls : List K) (cs : List (LCSource K)) : PatternPlot K :=
  { rows := cs.zipIdx.map fun ci : LCSource K × ℕ =>
      { lo := (ci.2 : K) - 3 / 10
        hi := (ci.2 : K) - 3 / 10 + 6 / 10
        back := (List.range Ls.length).map fun i => (boundary Ls i, boundary Ls (i + 1) - boundary Ls i)
        bars := loadedRegions Ls ci.1
        tick := (ci.2 : K)
        label := ci.1.name ci.2 }
    lines := spanBoundaries Ls
    xlo := boundary Ls 0
    xhi := boundary Ls Ls.length
    ylo := -(7 / 10)
    yhi := (cs.length : K) - 3 / 10
    inverted := true }

/-- What `plot_response_envelope` draws: labelled curves, the lines at the boundaries of spans, and
the names of the spans with their places. -/
structure ResponsePlot (K : Type*) where
  curves : List (String × List (K × K))
  lines : List K
  spans : List (K × String)

/-- `plot_response_envelope`, `load_cases.py` 1240-1273; a beam or no beam, cases or no cases; the
arrays have the length of `x`.  Fewer cases than rows raise `IndexError`. -/
def plotResponse (x : List K) (B : List (List K)) (neg pos : List K) (Ls : Option (List K))
    (cs : Option (List (LCSource K))) : Except PyErr (ResponsePlot K) :=
  let name : ℕ → Except PyErr String := fun j => match cs with
    | none => .ok s!"LC {j + 1}"
    | some cs => match cs[j]? with
      | none => .error .indexError
      | some c => .ok (c.name j)
  match mapE (fun rj : List K × ℕ => match name rj.2 with
      | .error e => .error e
      | .ok l => .ok (l, x.zip rj.1)) B.zipIdx with
  | .error e => .error e
  | .ok rows => .ok
    { curves := rows ++ [("Additive negative envelope", x.zip neg), ("Additive positive envelope", x.zip pos)]
      lines := match Ls with
        | none => []
        | some Ls => spanBoundaries Ls
      spans := match Ls with
        | none => []
        | some Ls => (List.range Ls.length).map fun i : ℕ =>
            (1 / 2 * (boundary Ls i + boundary Ls (i + 1)), s!"S{i + 1}") }

/-- `plot_il`, `inf_lines.py` 224-237. -/
def ILState.plot [FloorRing K] (A : Analyser K) (us : UnitSystem) (s : ILState K) (poi : K) (e : ILEffect) :
    ILState K × Except PyErr (Panel K) :=
  match s.get A poi e with
  | (s', .error er) => (s', .error er)
  | (s', .ok (x, y)) =>
    (s', .ok ⟨"Influence Ordinate", [zeroLine s'.beam.length, x.zip y], false, false, some us.distanceAxis⟩)

/-! ### C143: load patterns -/

theorem boundary_mono (Ls : List K) (hL : ∀ L ∈ Ls, 0 < L) : ∀ {a b : ℕ}, a ≤ b → boundary Ls a ≤ boundary Ls b := by
  intro a b hab
  induction b with
  | zero => rw [show a = 0 by omega]
  | succ b ih =>
    rcases Nat.lt_or_ge a (b + 1) with h | h
    · have h1 := ih (by omega)
      by_cases hb : b < Ls.length
      · rw [boundary_succ Ls b hb]
        linarith [hL _ (List.getElem_mem hb)]
      · have e : boundary Ls (b + 1) = boundary Ls b := by
          unfold boundary
          rw [List.take_of_length_le (by omega), List.take_of_length_le (by omega)]
        rw [e]
        exact h1
    · rw [show a = b + 1 by omega]

theorem rowRegion_inside (Ls : List K) (hL : ∀ L ∈ Ls, 0 < L) (r : Row K) (rc : K × K)
    (h : rowRegion Ls r = some rc) : 0 ≤ rc.1 ∧ 0 < rc.2 ∧ rc.1 + rc.2 ≤ boundary Ls Ls.length := by
  unfold rowRegion at h
  dsimp only at h
  by_cases h0 : r.span - 1 < 0 ∨ (Ls.length : ℤ) ≤ r.span - 1
  · rw [if_pos h0] at h; cases h
  rw [if_neg h0] at h
  push Not at h0
  split at h
  · cases h
  · rename_i a c hac
    by_cases hc : 0 < max 0 (min c (Ls.getD (r.span - 1).toNat 0 - max 0 (min a (Ls.getD (r.span - 1).toNat 0))))
    · rw [if_pos hc] at h
      obtain rfl := Option.some.inj h
      set i := (r.span - 1).toNat
      have hi : i < Ls.length := by omega
      have hg : Ls.getD i 0 = Ls[i] := by simp [List.getD_eq_getElem?_getD, hi]
      have hp : 0 < Ls[i] := hL _ (List.getElem_mem hi)
      have b0 : 0 ≤ boundary Ls i := by
        have := boundary_mono Ls hL (Nat.zero_le i)
        simpa [boundary] using this
      have b1 : boundary Ls i + Ls[i] ≤ boundary Ls Ls.length := by
        rw [← boundary_succ Ls i hi]
        exact boundary_mono Ls hL (by omega)
      rw [hg] at hc ⊢
      set a' := max 0 (min a Ls[i])
      have ha0 : 0 ≤ a' := le_max_left _ _
      have ha1 : a' ≤ Ls[i] := max_le hp.le (min_le_right _ _)
      set c' := max 0 (min c (Ls[i] - a'))
      have hc1 : c' ≤ Ls[i] - a' := max_le (by linarith) (min_le_right _ _)
      exact ⟨by dsimp only; linarith, hc, by dsimp only; linarith⟩
    · rw [if_neg hc] at h; cases h

theorem loadedRegions_inside (Ls : List K) (hL : ∀ L ∈ Ls, 0 < L) (s : LCSource K) :
    ∀ rc ∈ loadedRegions Ls s, 0 ≤ rc.1 ∧ 0 < rc.2 ∧ rc.1 + rc.2 ≤ boundary Ls Ls.length := by
  intro rc hrc
  unfold loadedRegions at hrc
  dsimp only at hrc
  by_cases h : s.loads.filterMap (rowRegion Ls) ≠ []
  · rw [if_pos h] at hrc
    obtain ⟨r, -, hr⟩ := List.mem_filterMap.1 hrc
    exact rowRegion_inside Ls hL r rc hr
  · rw [if_neg h] at hrc
    obtain ⟨z, hz, rfl⟩ := List.mem_map.1 hrc
    have hz := (List.mem_filter.1 hz).2
    simp only [decide_eq_true_eq] at hz
    have hi : z.toNat < Ls.length := by omega
    have hg : Ls.getD z.toNat 0 = Ls[z.toNat] := by simp [List.getD_eq_getElem?_getD, hi]
    refine ⟨?_, ?_, ?_⟩
    · have := boundary_mono Ls hL (Nat.zero_le z.toNat)
      simpa [boundary] using this
    · dsimp only
      rw [hg]
      exact hL _ (List.getElem_mem hi)
    · dsimp only
      rw [hg, ← boundary_succ Ls _ hi]
      exact boundary_mono Ls hL (by omega)

theorem mem_spanBoundaries (Ls : List K) (X : K) :
    X ∈ spanBoundaries Ls ↔ ∃ i ≤ Ls.length, X = (Ls.take i).sum := by
  unfold spanBoundaries
  rw [List.mem_map]
  constructor
  · rintro ⟨i, hi, rfl⟩
    rw [List.mem_range] at hi
    exact ⟨i, by omega, rfl⟩
  · rintro ⟨i, hi, rfl⟩
    exact ⟨i, List.mem_range.2 (by omega), rfl⟩

/-- **C143**, `plot_load_patterns`: one strip for each case, from top to bottom in order, apart from
each other, labelled with the name of the case, over the whole beam; the bars in it are within
the beam and cover exactly the points on which distributed loads of the case act (for the cases
of `C103_regions_partial`), or the loaded spans; everything lies within the axes, whose limits
are the ends of the beam; lines stand at the boundaries of the spans. -/
theorem C143_patterns_partial (Ls : List K) (hL : ∀ L ∈ Ls, 0 < L) (cs : List (LCSource K)) :
    (plotPatterns Ls cs).rows.length = cs.length ∧ (plotPatterns Ls cs).inverted = true ∧
    (plotPatterns Ls cs).xlo = 0 ∧ (plotPatterns Ls cs).xhi = Ls.sum ∧
    (∀ X, X ∈ (plotPatterns Ls cs).lines ↔ ∃ i ≤ Ls.length, X = (Ls.take i).sum) ∧
    ∀ j (hj : j < cs.length) (hj' : j < (plotPatterns Ls cs).rows.length),
      (plotPatterns Ls cs).rows[j].label = cs[j].name j ∧
      (plotPatterns Ls cs).ylo < (plotPatterns Ls cs).rows[j].lo ∧
      (plotPatterns Ls cs).rows[j].lo < (plotPatterns Ls cs).rows[j].tick ∧
      (plotPatterns Ls cs).rows[j].tick < (plotPatterns Ls cs).rows[j].hi ∧
      (plotPatterns Ls cs).rows[j].hi < (plotPatterns Ls cs).yhi ∧
      (∀ i (hi : i < (plotPatterns Ls cs).rows.length), j < i →
        (plotPatterns Ls cs).rows[j].hi < (plotPatterns Ls cs).rows[i].lo) ∧
      (∀ rc ∈ (plotPatterns Ls cs).rows[j].bars, 0 ≤ rc.1 ∧ 0 < rc.2 ∧ rc.1 + rc.2 ≤ Ls.sum) ∧
      (∀ X, (∃ rc ∈ (plotPatterns Ls cs).rows[j].back, inRegion rc X) ↔ Ls ≠ [] ∧ 0 ≤ X ∧ X ≤ Ls.sum) ∧
      (∀ ls, parseLM cs[j].loads = .ok ls → (∀ r ∈ cs[j].loads, r.ltype = 5 → r.args.length ≠ 3) →
        (∀ sl ∈ ls, sl.StartsOn Ls) → (∃ sl ∈ ls, ∃ X, sl.At Ls X) →
        ∀ X, (∃ rc ∈ (plotPatterns Ls cs).rows[j].bars, inRegion rc X) ↔ ∃ sl ∈ ls, sl.At Ls X) ∧
      (cs[j].loads.filterMap (rowRegion Ls) = [] →
        ∀ X, (∃ rc ∈ (plotPatterns Ls cs).rows[j].bars, inRegion rc X) ↔
          ∃ i : ℕ, i < Ls.length ∧ (i : ℤ) ∈ cs[j].loadedSpans ∧ boundary Ls i ≤ X ∧
            X ≤ boundary Ls (i + 1)) := by
  have hsum : boundary Ls Ls.length = Ls.sum := by
    unfold boundary
    rw [List.take_length]
  refine ⟨by simp [plotPatterns], rfl, by simp [plotPatterns, boundary], by simp [plotPatterns, hsum],
    fun X => mem_spanBoundaries Ls X, ?_⟩
  intro j hj hj'
  have hjn : ((j : ℕ) : K) + 1 ≤ (cs.length : K) := by exact_mod_cast hj
  have h0 : (0 : K) ≤ (j : K) := Nat.cast_nonneg j
  have erow : ∀ i (hi : i < (plotPatterns Ls cs).rows.length), (plotPatterns Ls cs).rows[i] =
      { lo := (i : K) - 3 / 10, hi := (i : K) - 3 / 10 + 6 / 10
        back := (List.range Ls.length).map fun i => (boundary Ls i, boundary Ls (i + 1) - boundary Ls i)
        bars := loadedRegions Ls (cs[i]'(by simpa [plotPatterns] using hi)), tick := (i : K)
        label := (cs[i]'(by simpa [plotPatterns] using hi)).name i } := by
    intro i hi
    simp [plotPatterns]
  rw [erow j hj']
  dsimp only
  refine ⟨rfl, ?_, ?_, ?_, ?_, ?_, ?_, ?_, ?_, ?_⟩
  · show -(7 / 10) < _; linarith
  · linarith
  · linarith
  · show _ < (cs.length : K) - 3 / 10; linarith
  · intro i hi hji
    rw [erow i hi]
    dsimp only
    have : ((j : ℕ) : K) + 1 ≤ (i : K) := by exact_mod_cast hji
    linarith
  · intro rc hrc
    have := loadedRegions_inside Ls hL cs[j] rc hrc
    rwa [hsum] at this
  · intro X
    constructor
    · rintro ⟨rc, hrc, h1, h2⟩
      obtain ⟨i, hi, rfl⟩ := List.mem_map.1 hrc
      rw [List.mem_range] at hi
      dsimp only at h1 h2
      refine ⟨?_, ?_, ?_⟩
      · rintro rfl; simp at hi
      · have := boundary_mono Ls hL (Nat.zero_le i)
        have e0 : boundary Ls 0 = 0 := by simp [boundary]
        linarith
      · have := boundary_mono Ls hL (show i + 1 ≤ Ls.length by omega)
        rw [hsum] at this
        linarith
    · rintro ⟨hne, hX0, hX1⟩
      have key : ∀ n ≤ Ls.length, 0 < n → X ≤ boundary Ls n →
          ∃ i < n, boundary Ls i ≤ X ∧ X ≤ boundary Ls (i + 1) := by
        intro n hn hpos hX
        induction n with
        | zero => omega
        | succ n ih =>
          by_cases hb : boundary Ls n ≤ X
          · exact ⟨n, by omega, hb, hX⟩
          · push Not at hb
            have hn0 : 0 < n := by
              rcases Nat.eq_zero_or_pos n with rfl | h
              · have e0 : boundary Ls 0 = 0 := by simp [boundary]
                rw [e0] at hb
                exact absurd hX0 (not_le.2 hb)
              · exact h
            obtain ⟨i, hi, h⟩ := ih (by omega) hn0 hb.le
            exact ⟨i, by omega, h⟩
      obtain ⟨i, hi, h1, h2⟩ := key Ls.length le_rfl (List.length_pos_iff.2 hne) (by rw [hsum]; exact hX1)
      exact ⟨_, List.mem_map.2 ⟨i, List.mem_range.2 hi, rfl⟩, h1, by dsimp only; linarith⟩
  · intro ls h1 h2 h3 h4 X
    exact C103_regions_partial Ls hL cs[j] ls h1 h2 h3 h4 X
  · intro h X
    exact C103_whole_spans Ls cs[j] h X

/-! ### C143: responses -/

/-- **C143**, `plot_response_envelope`: drawn whenever there are at least as many cases as rows (or
none given); the response of each case, in order and under its name (its number if no cases are
given), then the two envelopes; the lines stand at the boundaries of the spans and the names of
the spans, numbered from one, at their middles. -/
theorem C143_response (x : List K) (B : List (List K)) (neg pos : List K) (Ls : List K)
    (cs : List (LCSource K)) (hc : B.length ≤ cs.length) :
    ∃ rows pl, plotResponse x B neg pos (some Ls) (some cs) = .ok pl ∧
      pl.curves = rows ++ [("Additive negative envelope", x.zip neg), ("Additive positive envelope", x.zip pos)] ∧
      rows.length = B.length ∧
      (∀ j (hj : j < B.length) (hj' : j < rows.length), rows[j] = ((cs[j]'(by omega)).name j, x.zip B[j])) ∧
      (∀ X, X ∈ pl.lines ↔ ∃ i ≤ Ls.length, X = (Ls.take i).sum) ∧
      pl.spans.length = Ls.length ∧
      ∀ i (hi : i < Ls.length), pl.spans[i]? = some ((Ls.take i).sum + Ls[i] / 2, s!"S{i + 1}") := by
  set f : List K × ℕ → Except PyErr (String × List (K × K)) := fun rj =>
    match (match cs[rj.2]? with
      | none => (.error .indexError : Except PyErr String)
      | some c => .ok (c.name rj.2)) with
      | .error e => .error e
      | .ok l => .ok (l, x.zip rj.1) with hf
  have hfv : ∀ rj : List K × ℕ, ∀ h : rj.2 < cs.length, f rj = .ok ((cs[rj.2]).name rj.2, x.zip rj.1) := by
    intro rj h
    simp only [hf, List.getElem?_eq_getElem h]
  have hz : ∀ rj ∈ B.zipIdx, rj.2 < cs.length := by
    intro rj hrj
    have := List.snd_lt_of_mem_zipIdx hrj
    omega
  obtain ⟨rows, hrows⟩ := mapE_of_ok (f := f) B.zipIdx fun rj hrj => ⟨_, hfv rj (hz rj hrj)⟩
  obtain ⟨h1, h2⟩ := mapE_ok hrows
  rw [List.length_zipIdx] at h1
  refine ⟨rows, ⟨rows ++ [("Additive negative envelope", x.zip neg), ("Additive positive envelope", x.zip pos)],
    spanBoundaries Ls, (List.range Ls.length).map fun i : ℕ =>
      (1 / 2 * (boundary Ls i + boundary Ls (i + 1)), s!"S{i + 1}")⟩, ?_, rfl, h1, ?_, ?_, by simp, ?_⟩
  · unfold plotResponse
    dsimp only
    have : mapE f B.zipIdx = .ok rows := hrows
    rw [hf] at this
    rw [this]
  · intro j hj hj'
    have := h2 j (by simpa using hj) hj'
    rw [List.getElem_zipIdx, Nat.zero_add, hfv _ (by dsimp only; omega)] at this
    exact (Except.ok.inj this).symm
  · exact mem_spanBoundaries Ls
  · intro i hi
    rw [List.getElem?_map, List.getElem?_range hi]
    simp only [Option.map_some, Option.some.injEq, Prod.mk.injEq, and_true]
    rw [boundary_succ Ls i hi]
    unfold boundary
    ring

/-- **C143**, `plot_response_envelope` with fewer cases than rows raises; without cases and without a
beam the responses are named by number from one, followed by the envelopes, with no lines and
no names of spans. -/
theorem C143_response_bare (x : List K) (B : List (List K)) (neg pos : List K) (Ls : Option (List K))
    (cs : List (LCSource K)) :
    (cs.length < B.length → ∃ e, plotResponse x B neg pos Ls (some cs) = .error e) ∧
    ∃ rows pl, plotResponse x B neg pos none none = .ok pl ∧
      pl.curves = rows ++ [("Additive negative envelope", x.zip neg), ("Additive positive envelope", x.zip pos)] ∧
      rows.length = B.length ∧ pl.lines = [] ∧ pl.spans = [] ∧
      ∀ j (hj : j < B.length) (hj' : j < rows.length), rows[j] = (s!"LC {j + 1}", x.zip B[j]) := by
  refine ⟨fun hc => ?_, ?_⟩
  · cases h : plotResponse x B neg pos Ls (some cs) with
    | error e => exact ⟨e, rfl⟩
    | ok pl =>
      exfalso
      unfold plotResponse at h
      dsimp only at h
      split at h
      · cases h
      · rename_i rows hrows
        obtain ⟨h1, h2⟩ := mapE_ok hrows
        rw [List.length_zipIdx] at h1
        have := h2 cs.length (by simpa using hc) (by omega)
        rw [List.getElem_zipIdx, Nat.zero_add] at this
        simp only [List.getElem?_eq_none (le_refl cs.length)] at this
        cases this
  · obtain ⟨rows, hrows⟩ := mapE_of_ok (f := fun rj : List K × ℕ =>
      (.ok (s!"LC {rj.2 + 1}", x.zip rj.1) : Except PyErr (String × List (K × K)))) B.zipIdx
      fun rj _ => ⟨_, rfl⟩
    obtain ⟨h1, h2⟩ := mapE_ok hrows
    rw [List.length_zipIdx] at h1
    refine ⟨rows, ⟨rows ++ [("Additive negative envelope", x.zip neg),
      ("Additive positive envelope", x.zip pos)], [], []⟩, ?_, rfl, h1, rfl, rfl, ?_⟩
    · unfold plotResponse
      dsimp only
      rw [hrows]
    · intro j hj hj'
      have := h2 j (by simpa using hj) hj'
      rw [List.getElem_zipIdx, Nat.zero_add] at this
      exact (Except.ok.inj this).symm

/-- **C143**, with the sign-selective envelope every response drawn lies between the two envelopes
drawn. -/
theorem C143_response_between (x : List K) (B : List (List K)) (Ls : List K)
    (cs : List (LCSource K)) (hc : B.length ≤ cs.length) (hB : ∀ r ∈ B, r.length = x.length)
    (sp : Option (List ℕ)) (mn mx : List K) (nm pm : List ℕ)
    (hs : signSelective B x.length sp = .ok (mn, mx, nm, pm)) (hmn : mn.length = x.length)
    (hmx : mx.length = x.length) :
    ∃ pl, plotResponse x B mn mx (some Ls) (some cs) = .ok pl ∧
      ∀ j (_ : j < B.length) (k : ℕ) (_ : k < x.length), ∃ l u y X,
        ((pl.curves.getD j ("", [])).2.getD k (0, 0)) = (X, y) ∧
        ((pl.curves.getD B.length ("", [])).2.getD k (0, 0)) = (X, l) ∧
        ((pl.curves.getD (B.length + 1) ("", [])).2.getD k (0, 0)) = (X, u) ∧ l ≤ y ∧ y ≤ u := by
  obtain ⟨rows, pl, h, hcv, hl, hr, -⟩ := C143_response x B mn mx Ls cs hc
  refine ⟨pl, h, fun j hj k hk => ?_⟩
  have hz : ∀ (r : List K) (hrl : r.length = x.length), (x.zip r).getD k (0, 0) = (x[k], r.getD k 0) := by
    intro r hrl
    rw [List.getD_eq_getElem?_getD, List.getD_eq_getElem?_getD,
      List.getElem?_eq_getElem (by simp; omega), List.getElem_zip,
      List.getElem?_eq_getElem (by omega)]
    rfl
  obtain ⟨s1, -, -⟩ := C37_extreme_over_subsets B x.length sp mn mx nm pm hs k hk
  have sub : ({j} : Finset ℕ) ⊆ Finset.range B.length := by simpa using hj
  have hb := s1 {j} sub
  rw [subsetSum_singleton B k j hj] at hb
  refine ⟨mn.getD k 0, mx.getD k 0, B[j].getD k 0, x[k], ?_, ?_, ?_, hb.1, hb.2⟩
  · have g : pl.curves.getD j ("", []) = ((cs[j]'(by omega)).name j, x.zip B[j]) := by
      rw [hcv, List.getD_eq_getElem?_getD, List.getElem?_append_left (by omega),
        List.getElem?_eq_getElem (by omega), Option.getD_some, hr j hj (by omega)]
    rw [g]
    exact hz _ (hB _ (List.getElem_mem hj))
  · have g : pl.curves.getD B.length ("", []) = ("Additive negative envelope", x.zip mn) := by
      rw [hcv, List.getD_eq_getElem?_getD, List.getElem?_append_right (by omega), hl, Nat.sub_self]
      rfl
    rw [g]
    exact hz _ hmn
  · have g : pl.curves.getD (B.length + 1) ("", []) = ("Additive positive envelope", x.zip mx) := by
      rw [hcv, List.getD_eq_getElem?_getD, List.getElem?_append_right (by omega), hl, Nat.add_sub_cancel_left]
      rfl
    rw [g]
    exact hz _ hmx

/-! ### C143: influence lines -/

/-- **C143**, `plot_il`: draws exactly when `get_il` gives a line, and then a curve with one point
for every position of the unit load, in order, at that position and with that ordinate; it
leaves the same state as `get_il`. -/
theorem C143_il [FloorRing K] (A : Analyser K) (us : UnitSystem) (s : ILState K) (poi : K) (e : ILEffect) :
    (s.plot A us poi e).1 = (s.get A poi e).1 ∧
    (∀ er, (s.get A poi e).2 = .error er ↔ (s.plot A us poi e).2 = .error er) ∧
    ∀ x y, (s.get A poi e).2 = .ok (x, y) → ∃ p z c, (s.plot A us poi e).2 = .ok p ∧ p.curves = [z, c] ∧
      p.inverted = false ∧ c.length = min x.length y.length ∧
      ∀ i (hx : i < x.length) (hy : i < y.length), c[i]? = some (x[i], y[i]) := by
  unfold ILState.plot
  rcases h : s.get A poi e with ⟨s', r⟩
  cases r with
  | error er =>
    dsimp only
    exact ⟨rfl, fun er' => ⟨fun hh => by cases hh; rfl, fun hh => by cases hh; rfl⟩, fun x y hh => by cases hh⟩
  | ok v =>
    obtain ⟨x, y⟩ := v
    dsimp only
    refine ⟨rfl, fun er' => ⟨nofun, nofun⟩, ?_⟩
    intro x' y' hh
    have hh := Except.ok.inj hh
    simp only [Prod.mk.injEq] at hh
    obtain ⟨rfl, rfl⟩ := hh
    refine ⟨_, _, _, rfl, rfl, rfl, List.length_zip, fun i hx hy => ?_⟩
    rw [List.getElem?_eq_getElem (by simp; omega), List.getElem_zip]

/-! ### Cases -/

-- C143: two cases on two spans: a patch on the first span, and a load on the second
example : ((plotPatterns [2, 3] [LCSource.matrix [⟨1, 3, [5, 1 / 2, 1]⟩], LCSource.matrix [⟨2, 1, [5]⟩]]).rows.map
    fun r : PatternRow ℚ => (r.label, r.bars, r.tick)) =
    [("LC 1", [(1 / 2, 1)], 0), ("LC 2", [(2, 3)], 1)] := by decide +kernel

-- the hypotheses of `C143_patterns_partial` on the loads hold for the first
example : ∃ ls : List (SpanLoad ℚ), parseLM [⟨1, 3, [5, 1 / 2, 1]⟩] = .ok ls ∧
    (∀ sl ∈ ls, sl.StartsOn [2, 3]) ∧ ∃ sl ∈ ls, ∃ X, sl.At [2, 3] X := by
  refine ⟨[⟨0, .pudl 5 (1 / 2) 1⟩], by simp [parseLM, parseRow], ?_, ?_⟩
  · intro sl hsl
    obtain rfl := List.mem_singleton.1 hsl
    intro lo hi h
    simp only [Load.range, Option.some.injEq, Prod.mk.injEq] at h
    rw [← h.1]
    norm_num
  · refine ⟨_, List.mem_singleton.2 rfl, 1, 0, by simp, rfl, 1 / 2, 3 / 2, ?_, ?_, ?_, ?_⟩ <;>
      norm_num [Load.range, boundary]

-- C143: the sign-selective envelope of two cases at two stations
example : ∃ r, signSelective [[1, -2], [-3, 4]] 2 none = .ok r ∧ r.1 = [-3, (-2 : ℚ)] ∧ r.2.1 = [1, 4] := by
  obtain ⟨r, h1, h2⟩ := ok_of_map (x := signSelective [[1, -2], [-3, (4 : ℚ)]] 2 none)
    (f := fun r => (r.1, r.2.1)) (y := ([-3, -2], [1, 4])) (by decide +kernel)
  simp only [Prod.mk.injEq] at h2
  exact ⟨r, h1, h2⟩

end PyCBA
