import Verif.Build.Text
import Mathlib.Algebra.Order.BigOperators.Group.List

/-!
C41, C43 and C46: the parts of a beam stay in step, positions along it, and the copy made for
a load case.
-/

set_option linter.unusedSectionVars false
set_option linter.unusedSimpArgs false

namespace PyCBA

variable {K : Type*} [Field K] [LinearOrder K]

/-! ## C46 -/

/-- The member data of a beam agree: one entry per span everywhere, the length is the sum of
the spans, and terminal `i` lies at the sum of the first `i` spans. -/
structure BeamB.InStep (b : BeamB K) : Prop where
  noSpans : b.noSpans = b.lens.length
  EIs : b.EIs.length = b.lens.length
  GAvs : b.GAvs.length = b.lens.length
  kfs : b.kfs.length = b.lens.length
  types : b.types.length = b.lens.length
  length : b.length = b.lens.sum
  coords : b.coords = (List.range (b.lens.length + 1)).map fun i => (b.lens.take i).sum

theorem BeamB.empty_inStep : (BeamB.empty : BeamB K).InStep := by
  constructor <;> simp [BeamB.empty, List.range_succ]

theorem coords_snoc (l : List K) (x : K) :
    ((List.range ((l ++ [x]).length + 1)).map fun i => ((l ++ [x]).take i).sum) =
      ((List.range (l.length + 1)).map fun i => (l.take i).sum) ++ [l.sum + x] := by
  rw [List.length_append, List.length_singleton, List.range_succ (n := l.length + 1),
    List.map_append]
  congr 1
  · apply List.map_congr_left
    intro i hi
    rw [List.take_append_of_le_length (by have := List.mem_range.1 hi; omega)]
  · simp [List.take_append, List.take_of_length_le]

theorem coords_last (l : List K) :
    ((List.range (l.length + 1)).map fun i => (l.take i).sum).getLastD 0 = l.sum := by
  simp [List.range_succ]

/-- A successful `add_span` appends one entry to each list. -/
theorem addSpan_ok {fits : Rigidity K → K → Bool} {b b' : BeamB K} {s : SpanSpec K}
    (h : b.addSpan fits s = (b', none)) :
    ∃ t, coerce s.et = .ok t ∧ fits s.EI s.L = true ∧ (∀ g ∈ s.GAv, fits g s.L = true) ∧
      b' = { b with
        lens := b.lens ++ [s.L], EIs := b.EIs ++ [s.EI], GAvs := b.GAvs ++ [s.GAv],
        kfs := b.kfs ++ [s.kf], types := b.types ++ [t], noSpans := b.lens.length + 1,
        length := b.length + s.L, coords := b.coords ++ [b.coords.getLastD 0 + s.L],
        version := b.version + 1 } := by
  unfold BeamB.addSpan at h
  by_cases h1 : fits s.EI s.L = true
  swap
  · rw [if_pos h1] at h; cases h
  rw [if_neg (not_not.2 h1)] at h
  by_cases h2 : s.GAv.any (fun g => ¬ fits g s.L) = true
  · rw [if_pos h2] at h; cases h
  rw [if_neg h2] at h
  cases hc : coerce s.et with
  | error e => rw [hc] at h; cases h
  | ok t =>
    rw [hc] at h
    refine ⟨t, rfl, h1, ?_, ?_⟩
    · intro g hg
      cases hG : s.GAv with
      | none => rw [hG] at hg; cases hg
      | some g' =>
        rw [hG] at hg h2
        cases hg
        simpa using h2
    · simp only [Prod.mk.injEq, and_true] at h
      rw [← h]
      simp

/-- **C46** — a successful `add_span` keeps the member data in step, adds the span's length to
the total, and appends exactly what was passed. -/
theorem C46_add_span_partial (fits : Rigidity K → K → Bool) (b b' : BeamB K) (s : SpanSpec K)
    (hb : b.InStep) (h : b.addSpan fits s = (b', none)) :
    b'.InStep ∧ b'.lens = b.lens ++ [s.L] ∧ b'.EIs = b.EIs ++ [s.EI] ∧
      b'.GAvs = b.GAvs ++ [s.GAv] ∧ b'.kfs = b.kfs ++ [s.kf] ∧
      (∃ t, coerce s.et = .ok t ∧ b'.types = b.types ++ [t]) ∧
      b'.restraints = b.restraints ∧ b'.presc = b.presc ∧ b'.LM = b.LM ∧
      b'.version = b.version + 1 := by
  obtain ⟨t, ht, _, _, rfl⟩ := addSpan_ok h
  refine ⟨⟨by simp, by simp [hb.EIs], by simp [hb.GAvs], by simp [hb.kfs], by simp [hb.types],
    by simp [hb.length], ?_⟩, rfl, rfl, rfl, rfl, ⟨t, ht, rfl⟩, rfl, rfl, rfl, rfl⟩
  simp only
  rw [coords_snoc, ← hb.coords, hb.coords, coords_last, ← hb.coords]

/-- A rejected section leaves the beam alone. -/
theorem C46_rejected_section (fits : Rigidity K → K → Bool) (b : BeamB K) (s : SpanSpec K)
    (h : fits s.EI s.L = false ∨ ∃ g ∈ s.GAv, fits g s.L = false) :
    b.addSpan fits s = (b, some .valueError) := by
  unfold BeamB.addSpan
  by_cases h1 : fits s.EI s.L = true
  swap
  · rw [if_pos h1]
  rw [if_neg (not_not.2 h1), if_pos]
  rcases h with h | ⟨g, hg, h⟩
  · rw [h] at h1; cases h1
  · rw [Option.mem_def] at hg
    simp [hg, h]

/-- **C46**: any number of `add_span` calls keeps the member data in step. -/
theorem C46_add_spans (fits : Rigidity K → K → Bool) (ss : List (SpanSpec K)) (b b' : BeamB K)
    (hb : b.InStep) (h : b.addSpans fits ss = .ok b') :
    b'.InStep ∧ b'.lens = b.lens ++ ss.map SpanSpec.L ∧ b'.EIs = b.EIs ++ ss.map SpanSpec.EI ∧
      b'.GAvs = b.GAvs ++ ss.map SpanSpec.GAv ∧ b'.kfs = b.kfs ++ ss.map SpanSpec.kf ∧
      (∃ ts, List.Forall₂ (fun s t => coerce s.et = .ok t) ss ts ∧ b'.types = b.types ++ ts) ∧
      b'.restraints = b.restraints ∧ b'.presc = b.presc ∧ b'.LM = b.LM := by
  induction ss generalizing b with
  | nil => cases h; simpa using hb
  | cons s ss ih =>
    simp only [BeamB.addSpans] at h
    cases ha : b.addSpan fits s with
    | mk b1 e =>
      cases e with
      | some e => rw [ha] at h; cases h
      | none =>
        rw [ha] at h
        obtain ⟨h1, e1, e2, e3, e4, ⟨t, ht, e5⟩, e6, e7, e8, _⟩ :=
          C46_add_span_partial fits b b1 s hb ha
        obtain ⟨g0, g1, g2, g3, g4, ⟨ts, hts, g5⟩, g6, g7, g8⟩ := ih b1 h1 h
        refine ⟨g0, ?_, ?_, ?_, ?_, ⟨t :: ts, hts.cons ht, ?_⟩, by rw [g6, e6], by rw [g7, e7],
          by rw [g8, e8]⟩
        · rw [g1, e1]; simp
        · rw [g2, e2]; simp
        · rw [g3, e3]; simp
        · rw [g4, e4]; simp
        · rw [g5, e5]; simp

theorem zipSpans_map (ss : List (SpanSpec K)) :
    zipSpans (ss.map SpanSpec.L) (ss.map SpanSpec.EI) (ss.map SpanSpec.et) (ss.map SpanSpec.GAv)
      (ss.map SpanSpec.kf) = ss := by
  induction ss with
  | nil => rfl
  | cons s ss ih => simp [zipSpans, ih]

/-- **C46**: building a beam at once, with one entry per span of everything, gives what adding
its spans one at a time and then setting the restraints and displacements gives. -/
theorem C46_at_once (fits : Rigidity K → K → Bool) (ss : List (SpanSpec K)) (R : List K)
    (hR : R.length = 2 * ss.length + 2) (D : List (Option K)) (hD : D.length = R.length)
    (LM : List (Row K)) :
    BeamArgs.build fits
      { L := some (ss.map SpanSpec.L), EI := .each (ss.map SpanSpec.EI), R := some R,
        LM := some LM, eletype := some (ss.map SpanSpec.et), D := some D,
        GAv := some (.each (ss.map SpanSpec.GAv)), kf := some (.each (ss.map SpanSpec.kf)) } =
      (BeamB.empty.addSpans fits ss).map fun b =>
        { b with restraints := R, presc := D, LM := LM } := by
  simp only [BeamArgs.build, BeamArgs.restraints, broadcast, BeamArgs.rigidities,
    List.length_map, ne_eq, not_true_eq_false, if_false, if_true, zipSpans_map]
  cases BeamB.empty.addSpans fits ss with
  | error e => rfl
  | ok b => simp [BeamB.finish, hR, hD, BeamB.withLM, Except.map]

theorem broadcast_length {α : Type*} {n : ℕ} {o : Option (PerSpan (Option α))}
    {l : List (Option α)} (h : broadcast n o = .ok l) : l.length = n := by
  unfold broadcast at h
  split at h
  · cases h; simp
  · cases h; simp
  · split at h
    · cases h
    · cases h
      rename_i h
      simpa using h

theorem zipSpans_lens (L : List K) (E : List (Rigidity K)) (et : List TypeSpec)
    (G : List (Option (Rigidity K))) (k : List (Option K)) (hE : E.length = L.length)
    (hG : G.length = L.length) (hk : k.length = L.length) :
    (zipSpans L E et G k).map SpanSpec.L = L.take et.length := by
  induction L generalizing E et G k with
  | nil => simp [zipSpans]
  | cons l L ih =>
    cases E with
    | nil => simp at hE
    | cons e E =>
      cases G with
      | nil => simp at hG
      | cons g G =>
        cases k with
        | nil => simp at hk
        | cons x k =>
          cases et with
          | nil => simp [zipSpans]
          | cons t et =>
            simp only [zipSpans, List.map_cons, List.length_cons, List.take_succ_cons]
            rw [ih E et G k (by simpa using hE) (by simpa using hG) (by simpa using hk)]

theorem finish_ok {b b' : BeamB K} {n : ℕ} {R : Option (List K)} {D : Option (List (Option K))}
    (h : b.finish n R D = .ok b') : b'.restraints.length = 2 * n + 2 ∧
      b'.presc.length = b'.restraints.length ∧ b'.lens = b.lens ∧
      b' = { b with restraints := b'.restraints, presc := b'.presc } := by
  unfold BeamB.finish at h
  split at h
  · cases h
  · split at h
    · rename_i hR
      split at h
      · cases h
        exact ⟨hR, by simp, rfl, rfl⟩
      · split at h
        · cases h
        · cases h
          rename_i hD
          exact ⟨hR, by simpa using hD, rfl, rfl⟩
    · cases h

/-- A constructed beam has two restraints and two prescribed displacements per node, counting
the nodes by the lengths passed in. -/
theorem C46_restraints (fits : Rigidity K → K → Bool) (a : BeamArgs K) (L : List K)
    (et : List TypeSpec) (b : BeamB K) (hL : a.L = some L) (he : a.eletype = some et)
    (hb : a.build fits = .ok b) :
    b.InStep ∧ b.lens = L.take et.length ∧ b.restraints.length = 2 * L.length + 2 ∧
      b.presc.length = b.restraints.length := by
  simp only [BeamArgs.build, hL, he] at hb
  cases hR : a.restraints with
  | error e => rw [hR] at hb; cases hb
  | ok R =>
    rw [hR] at hb
    simp only at hb
    cases hG : broadcast L.length a.GAv with
    | error e => rw [hG] at hb; cases hb
    | ok G =>
      cases hk : broadcast L.length a.kf with
      | error e => rw [hG, hk] at hb; cases hb
      | ok k =>
        cases hE : a.rigidities L.length with
        | error e => rw [hG, hk, hE] at hb; cases hb
        | ok E =>
          rw [hG, hk, hE] at hb
          simp only at hb
          cases hA : BeamB.empty.addSpans fits (zipSpans L E et G k) with
          | error e => rw [hA] at hb; cases hb
          | ok b1 =>
            rw [hA] at hb
            simp only at hb
            cases hF : b1.finish L.length R a.D with
            | error e => rw [hF] at hb; cases hb
            | ok b2 =>
              rw [hF] at hb
              simp only [Except.ok.injEq] at hb
              obtain ⟨i1, i2, -⟩ := C46_add_spans fits _ _ _ BeamB.empty_inStep hA
              have hEl : E.length = L.length := by
                unfold BeamArgs.rigidities at hE
                split at hE
                · cases hE; simp
                · split at hE
                  · cases hE; symm; assumption
                  · cases hE
              rw [zipSpans_lens L E et G k hEl (broadcast_length hG) (broadcast_length hk)] at i2
              obtain ⟨f1, f2, f3, f4⟩ := finish_ok hF
              subst hb
              have hw : ∀ o : Option (List (Row K)), (b2.withLM o).InStep ∧
                  (b2.withLM o).lens = b2.lens ∧ (b2.withLM o).restraints = b2.restraints ∧
                  (b2.withLM o).presc = b2.presc := by
                intro o
                have : b2.InStep := by
                  rw [f4]
                  exact ⟨i1.1, i1.2, i1.3, i1.4, i1.5, i1.6, i1.7⟩
                cases o with
                | none => exact ⟨this, rfl, rfl, rfl⟩
                | some o =>
                  exact ⟨⟨this.1, this.2, this.3, this.4, this.5, this.6, this.7⟩, rfl, rfl, rfl⟩
              obtain ⟨w1, w2, w3, w4⟩ := hw a.LM
              refine ⟨w1, ?_, by rw [w3, f1], by rw [w3, w4, f2]⟩
              rw [w2, f3, i2]
              rfl

/-- C46's full statement fails in three ways.  A span whose member type is rejected is left
half added: its length is there but not its type. -/
theorem C46_bad_type_violation : ∃ (b b' : BeamB ℚ) (s : SpanSpec ℚ), b.InStep ∧
    b.addSpan (fun _ _ => true) s = (b', some .valueError) ∧ ¬ b'.InStep ∧
    b'.lens.length ≠ b'.types.length := by
  refine ⟨BeamB.empty, _, ⟨5, .const 1, .num [7], none, none⟩, BeamB.empty_inStep, rfl, ?_, ?_⟩
  · intro h
    have := h.types
    simp [BeamB.empty] at this
  · simp [BeamB.empty]

/-- Adding a span to a finished beam does not extend the restraints. -/
theorem C46_extend_violation : ∃ (a : BeamArgs ℚ) (b b' : BeamB ℚ) (s : SpanSpec ℚ),
    a.build (fun _ _ => true) = .ok b ∧ b.restraints.length = 2 * b.noSpans + 2 ∧
    b.addSpan (fun _ _ => true) s = (b', none) ∧
    b'.restraints.length ≠ 2 * b'.noSpans + 2 := by
  refine ⟨{ L := some [5], EI := .one (.const 1), R := some [-1, 0, -1, 0],
            eletype := some [.num [1]] }, _, _, ⟨5, .const 1, .num [1], none, none⟩, rfl, rfl, rfl,
    by decide⟩

/-- Too few member types are accepted: the beam has fewer spans than lengths were given. -/
theorem C46_short_types_violation : ∃ (a : BeamArgs ℚ) (b : BeamB ℚ),
    a.build (fun _ _ => true) = .ok b ∧ a.L = some [5, 6] ∧ b.noSpans = 1 ∧
    b.restraints.length ≠ 2 * b.noSpans + 2 := by
  refine ⟨{ L := some [5, 6], EI := .one (.const 1), R := some [-1, 0, -1, 0, -1, 0],
            eletype := some [.num [1]] }, _, rfl, rfl, rfl, by decide⟩

/-- C46's hypotheses: a two-span beam built at once and span by span. -/
example : ((BeamB.empty : BeamB ℚ).addSpans (fun _ _ => true)
      [⟨5, .const 1, .num [1], none, none⟩, ⟨6, .const 2, .name "PF".toList, none, some 3⟩]).toOption.map
      (fun b => (b.lens, b.types, b.kfs, b.length, b.coords)) =
    some ([5, 6], [.FF, .PF], [none, some 3], 11, [0, 5, 11]) := by
  decide +kernel

/-! ## C43 -/

variable [IsStrictOrderedRing K]

theorem take_sum_lt (l : List K) (hl : ∀ x ∈ l, 0 < x) (i : ℕ) (hi : i < l.length) :
    (l.take (i + 1)).sum = (l.take i).sum + l[i] := List.sum_take_succ l i hi

/-- **C43** — on a beam of positive spans, a position on the beam is given as a span (counted
from 0) and a coordinate within that span which add up to it; a position at an inner support
belongs to the span on its right; positions off the beam give `(-1, 0)`. -/
theorem C43_local_coords (b : BeamB K) (hb : b.InStep) (hne : b.lens ≠ [])
    (hpos : ∀ x ∈ b.lens, 0 < x) (pos : K) :
    (0 ≤ pos → pos ≤ b.lens.sum → ∃ i, ∃ hi : i < b.lens.length, ∃ x,
      b.localCoords pos = ((i : ℤ), x) ∧ (b.lens.take i).sum + x = pos ∧ 0 ≤ x ∧
      x ≤ b.lens[i] ∧ (pos < b.lens.sum → x < b.lens[i])) ∧
    (pos < 0 ∨ b.lens.sum < pos → b.localCoords pos = (-1, 0)) := by
  have hlen : 0 < b.lens.length := List.length_pos_of_ne_nil hne
  constructor
  · intro h0 h1
    have hc : ∀ i, i ≤ b.lens.length → b.coords.getD i 0 = (b.lens.take i).sum := by
      intro i hi
      rw [hb.coords, List.getD_eq_getElem?_getD, List.getElem?_map,
        List.getElem?_range (by omega)]
      rfl
    have hcl : b.coords.length = b.lens.length + 1 := by rw [hb.coords]; simp
    have hget : ∀ i (hi : i < b.coords.length), b.coords[i] = (b.lens.take i).sum := by
      intro i hi
      rw [← hc i (by omega), List.getD_eq_getElem?_getD, List.getElem?_eq_getElem hi]
      rfl
    unfold BeamB.localCoords
    rw [if_neg (by rw [hb.length]; push Not; exact ⟨h0, h1⟩)]
    cases hf : b.coords.findIdx? (fun x => decide (pos < x)) with
    | none =>
      simp only
      rw [List.findIdx?_eq_none_iff] at hf
      have hall : b.lens.sum ≤ pos := by
        have := hf (b.coords[b.lens.length]'(by omega)) (List.getElem_mem _)
        rw [hget _ (by omega)] at this
        simpa using this
      have he : pos = b.lens.sum := le_antisymm h1 hall
      have hn : ((b.noSpans : ℤ) - 1) = ((b.lens.length - 1 : ℕ) : ℤ) := by
        rw [hb.noSpans]; omega
      have hs := take_sum_lt b.lens hpos (b.lens.length - 1) (by omega)
      rw [show b.lens.length - 1 + 1 = b.lens.length by omega, List.take_length] at hs
      have hp := hpos _ (List.getElem_mem (show b.lens.length - 1 < b.lens.length by omega))
      refine ⟨b.lens.length - 1, by omega, _, by rw [hn], ?_, ?_, ?_, ?_⟩
      · rw [Int.toNat_natCast, hc _ (by omega)]; ring
      · rw [Int.toNat_natCast, hc _ (by omega)]; linarith
      · rw [Int.toNat_natCast, hc _ (by omega)]; linarith
      · intro h; linarith
    | some j =>
      simp only
      rw [List.findIdx?_eq_some_iff_getElem] at hf
      obtain ⟨hj, hj1, hj2⟩ := hf
      rw [hget _ hj] at hj1
      have hj0 : j ≠ 0 := by
        rintro rfl
        simp only [List.take_zero, List.sum_nil] at hj1
        have := of_decide_eq_true hj1
        linarith
      have hjm := hj2 (j - 1) (by omega)
      rw [hget _ (by omega)] at hjm
      have hn : ((j : ℤ) - 1) = ((j - 1 : ℕ) : ℤ) := by omega
      have hs := take_sum_lt b.lens hpos (j - 1) (by omega)
      rw [show j - 1 + 1 = j by omega] at hs
      simp only [decide_eq_true_eq, not_lt] at hj1 hjm
      refine ⟨j - 1, by omega, _, by rw [hn], ?_, ?_, ?_, fun _ => ?_⟩
      · rw [Int.toNat_natCast, hc _ (by omega)]; ring
      · rw [Int.toNat_natCast, hc _ (by omega)]; linarith
      · rw [Int.toNat_natCast, hc _ (by omega)]; linarith
      · rw [Int.toNat_natCast, hc _ (by omega)]; linarith
  · intro h
    unfold BeamB.localCoords
    rw [if_pos (by rw [hb.length]; exact h)]

/-- Positions on a beam of spans 5 and 6: inside, at the inner support, at the end, beyond. -/
example : ((BeamB.empty : BeamB ℚ).addSpans (fun _ _ => true)
      [⟨5, .const 1, .num [1], none, none⟩, ⟨6, .const 2, .num [1], none, none⟩]).toOption.map
      (fun b => [b.localCoords 3, b.localCoords 5, b.localCoords 11, b.localCoords 12]) =
    some [(0, 3), (1, 0), (1, 6), (-1, 0)] := by
  decide +kernel

/-! ## C41 -/

/-- The same structure: everything but the loads (and the version counter). -/
def BeamB.SameStructure (b b' : BeamB K) : Prop :=
  b'.lens = b.lens ∧ b'.EIs = b.EIs ∧ b'.GAvs = b.GAvs ∧ b'.kfs = b.kfs ∧ b'.types = b.types ∧
    b'.restraints = b.restraints ∧ b'.presc = b.presc ∧ b'.noSpans = b.noSpans ∧
    b'.length = b.length ∧ b'.coords = b.coords

theorem addSpans_total (fits : Rigidity K → K → Bool) (ss : List (SpanSpec K)) (b : BeamB K)
    (h : ∀ s ∈ ss, fits s.EI s.L = true ∧ (∀ g ∈ s.GAv, fits g s.L = true) ∧
      ∃ t, coerce s.et = .ok t) : ∃ b', b.addSpans fits ss = .ok b' := by
  induction ss generalizing b with
  | nil => exact ⟨b, rfl⟩
  | cons s ss ih =>
    obtain ⟨h1, h2, t, h3⟩ := h s List.mem_cons_self
    have hadd : ∃ b1, b.addSpan fits s = (b1, none) := by
      unfold BeamB.addSpan
      rw [if_neg (not_not.2 h1), if_neg]
      · rw [h3]; exact ⟨_, rfl⟩
      · cases hG : s.GAv with
        | none => simp
        | some g => simp [h2 g hG]
    obtain ⟨b1, hb1⟩ := hadd
    obtain ⟨b', hb'⟩ := ih b1 fun x hx => h x (List.mem_cons_of_mem _ hx)
    exact ⟨b', by simp only [BeamB.addSpans, hb1, hb']⟩

/-- The spans of a beam as they are passed on. -/
def BeamB.specs (b : BeamB K) : List (SpanSpec K) :=
  zipSpans b.lens b.EIs (b.types.map fun t => .num [(t.code : ℚ)]) b.GAvs
    (List.replicate b.lens.length none)

theorem zipSpans_proj (L : List K) (E : List (Rigidity K)) (ts : List EType)
    (G : List (Option (Rigidity K))) (k : List (Option K)) (hE : E.length = L.length)
    (ht : ts.length = L.length) (hG : G.length = L.length) (hk : k.length = L.length) :
    let z := zipSpans L E (ts.map fun t => .num [(t.code : ℚ)]) G k
    z.map SpanSpec.L = L ∧ z.map SpanSpec.EI = E ∧ z.map SpanSpec.GAv = G ∧
      z.map SpanSpec.kf = k ∧ List.Forall₂ (fun s t => coerce s.et = .ok t) z ts := by
  induction L generalizing E ts G k with
  | nil =>
    simp only [List.length_nil, List.length_eq_zero_iff] at hE ht hG hk
    subst hE ht hG hk
    simp [zipSpans]
  | cons l L ih =>
    cases E with
    | nil => simp at hE
    | cons e E =>
      cases G with
      | nil => simp at hG
      | cons g G =>
        cases k with
        | nil => simp at hk
        | cons x k =>
          cases ts with
          | nil => simp at ht
          | cons t ts =>
            obtain ⟨h1, h2, h3, h4, h5⟩ := ih E ts G k (by simpa using hE) (by simpa using ht)
              (by simpa using hG) (by simpa using hk)
            simp only [List.map_cons, zipSpans, h1, h2, h3, h4, true_and]
            exact List.Forall₂.cons ((C74_codes_partial t.code t).1.2 rfl) h5

theorem forall₂_unique {ss : List (SpanSpec K)} {ts ts' : List EType}
    (h : List.Forall₂ (fun s t => coerce s.et = .ok t) ss ts)
    (h' : List.Forall₂ (fun s t => coerce s.et = .ok t) ss ts') : ts = ts' := by
  induction h generalizing ts' with
  | nil => cases h'; rfl
  | cons h1 _ ih =>
    cases h' with
    | cons g1 g2 =>
      rw [h1] at g1
      cases g1
      rw [ih g2]

/-- **C41**, partial — for a beam without elastic foundation, the beam built for a load case
has the same structure and just the case's loads.  Missing: foundations, which are dropped
(`C41_foundation_violation`). -/
theorem C41_case_model_partial (fits : Rigidity K → K → Bool) (b : BeamB K) (hb : b.InStep)
    (hR : b.restraints.length = 2 * b.lens.length + 2)
    (hD : b.presc.length = b.restraints.length)
    (hfit : ∀ s ∈ b.specs, fits s.EI s.L = true ∧ ∀ g ∈ s.GAv, fits g s.L = true)
    (hkf : ∀ k ∈ b.kfs, k = none) (loads : List (Row K)) :
    ∃ b', (b.caseArgs loads).analysis fits = .ok b' ∧ b.SameStructure b' ∧ b'.LM = loads ∧
      b'.InStep := by
  have hk : b.kfs = List.replicate b.lens.length none := by
    rw [List.eq_replicate_iff]
    exact ⟨hb.kfs, hkf⟩
  obtain ⟨z1, z2, z3, z4, z5⟩ := zipSpans_proj b.lens b.EIs b.types b.GAvs
    (List.replicate b.lens.length none) hb.EIs hb.types hb.GAvs (by simp)
  obtain ⟨b1, hb1⟩ := addSpans_total fits b.specs BeamB.empty (fun s hs => by
    refine ⟨(hfit s hs).1, (hfit s hs).2, ?_⟩
    have : ∀ (l : List (SpanSpec K)) (ts : List EType),
        List.Forall₂ (fun s t => coerce s.et = .ok t) l ts → ∀ s ∈ l, ∃ t, coerce s.et = .ok t := by
      intro l ts h
      induction h with
      | nil => simp
      | cons h1 _ ih =>
        intro s hs
        rcases List.mem_cons.1 hs with rfl | hs
        · exact ⟨_, h1⟩
        · exact ih s hs
    exact this _ _ z5 s hs)
  obtain ⟨i0, i1, i2, i3, i4, ⟨ts, i5, i6⟩, i7, i8, i9⟩ :=
    C46_add_spans fits _ _ _ BeamB.empty_inStep hb1
  have hts : ts = b.types := forall₂_unique i5 z5
  have hG : broadcast b.lens.length (b.caseArgs loads).GAv = .ok b.GAvs := by
    simp only [BeamB.caseArgs]
    split
    · rename_i h
      have := hb.GAvs
      rw [h] at this
      simp only [List.length_nil] at this
      rw [← this, h]
      rfl
    · simp [broadcast, hb.GAvs]
  have hbuild : (b.caseArgs loads).analysis fits =
      .ok { b1 with restraints := b.restraints, presc := b.presc, LM := loads } := by
    simp only [BeamArgs.analysis]
    have e1 : (b.caseArgs loads).eletype = some (b.types.map fun t => .num [(t.code : ℚ)]) := rfl
    have e2 : (b.caseArgs loads).L = some b.lens := rfl
    have e3 : (b.caseArgs loads).restraints = .ok (some b.restraints) := rfl
    have e4 : broadcast b.lens.length (b.caseArgs loads).kf =
        .ok (List.replicate b.lens.length none) := rfl
    have e5 : (b.caseArgs loads).rigidities b.lens.length = .ok b.EIs := by
      simp [BeamArgs.rigidities, BeamB.caseArgs, hb.EIs]
    have e6 : b1.finish b.lens.length (some b.restraints) (b.caseArgs loads).D =
        .ok { b1 with restraints := b.restraints, presc := b.presc } := by
      simp [BeamB.finish, BeamB.caseArgs, hR, hD]
    simp only [e1, BeamArgs.build, e2, e3, hG, e4, e5]
    rw [show zipSpans b.lens b.EIs (b.types.map fun t => TypeSpec.num [(t.code : ℚ)]) b.GAvs
      (List.replicate b.lens.length none) = b.specs from rfl, hb1]
    simp only [e6]
    rfl
  have hl : b1.lens = b.lens := by rw [i1]; exact z1
  refine ⟨_, hbuild, ⟨hl, ?_, ?_, ?_, ?_, rfl, rfl, ?_, ?_, ?_⟩, rfl,
    ⟨i0.1, i0.2, i0.3, i0.4, i0.5, i0.6, i0.7⟩⟩
  · simp only; rw [i2]; exact z2
  · simp only; rw [i3]; exact z3
  · simp only; rw [i4, hk]; exact z4
  · simp only; rw [i6, hts]; rfl
  · simp only; rw [i0.noSpans, hb.noSpans, hl]
  · simp only; rw [i0.length, hb.length, hl]
  · simp only; rw [i0.coords, hb.coords, hl]

/-- A one-span beam on a foundation of modulus 100. -/
def exFounded : BeamB ℚ :=
  { lens := [5], EIs := [.const 1], GAvs := [none], kfs := [some 100], types := [.FF],
    restraints := [-1, 0, -1, 0], presc := [none, none, none, none], LM := [],
    noSpans := 1, length := 5, coords := [0, 5], version := 1 }

/-- C41's full statement fails: the foundation is not passed on. -/
theorem C41_foundation_violation : ∃ b b' : BeamB ℚ, b.InStep ∧
    (b.caseArgs []).analysis (fun _ _ => true) = .ok b' ∧ b.kfs = [some 100] ∧ b'.kfs = [none] := by
  refine ⟨exFounded, _, ?_, rfl, rfl, rfl⟩
  constructor <;> simp [exFounded, List.range_succ]

/-- C41's hypotheses: the same beam without its foundation. -/
example : ∃ b' : BeamB ℚ, ({ exFounded with kfs := [none] }.caseArgs [⟨1, 1, [4]⟩]).analysis
    (fun _ _ => true) = .ok b' ∧ b'.LM = [⟨1, 1, [4]⟩] ∧ b'.restraints = [-1, 0, -1, 0] :=
  ⟨_, rfl, rfl, rfl⟩

end PyCBA
