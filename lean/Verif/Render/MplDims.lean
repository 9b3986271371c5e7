import Verif.Render.MplLoads
import Verif.Render.Tikz

/-!
C125: the dimensions of the matplotlib schematic.  `_is_partial_dist`, `_draw_dimensions_mpl` and
`_draw_load_extent_mpl` (`src/pycba/render.py` 277-283, 836-879), as modelled in
`Verif/Render/Mpl.lean`.
-/

set_option linter.unusedSectionVars false
set_option linter.unusedSimpArgs false

namespace PyCBA

open Mpl

/-- A distributed load that leaves more than a millionth of the beam (or of a metre) of its span
`i` bare at one end or the other. -/
def DrawnDist.Short (b : BeamDef ℝ) (d : DrawnDist ℝ) : Prop :=
  ∃ i : ℕ, d.iSpan = i ∧ (b.nodeX i + 1 / 10 ^ 6 * max (b.nodeX b.members.length) 1 < d.x0 ∨
    d.x1 < b.nodeX (i + 1) - 1 / 10 ^ 6 * max (b.nodeX b.members.length) 1)

theorem renderMpl_part {b : BeamDef ℝ} {LM : List (Row ℝ)} {kf : List (Option ℝ)} {us : UnitSystem}
    {o : MplOpts} {ax : Axes} (h : renderMpl b LM kf us o = .ok ax) :
    ∃ ss t part, inferLoads { b with LM := LM } = .ok t ∧
      (∀ d, d ∈ part ↔ d ∈ t.dist ∧ isPartial b (b.nodeX b.members.length) d = .ok true) ∧
      ax = mplAxes b kf us o ss t part := by
  unfold renderMpl at h
  split at h
  · cases h
  · rename_i ss hss
    split at h
    · cases h
    · rename_i t ht
      split at h
      · cases h
      · split at h
        · cases h
        · rename_i flags hf
          obtain ⟨hlen, hall⟩ := mapE_ok hf
          refine ⟨ss, t, _, ht, fun d => ?_, (Except.ok.inj h).symm⟩
          constructor
          · intro hd
            obtain ⟨q, hq, rfl⟩ := List.mem_map.1 hd
            obtain ⟨hq1, hq2⟩ := List.mem_filter.1 hq
            obtain ⟨i, hi, rfl⟩ := List.mem_iff_getElem.1 hq1
            rw [List.getElem_zip] at hq2 ⊢
            rw [List.length_zip] at hi
            refine ⟨List.getElem_mem _, ?_⟩
            rw [hall i (by omega) (by omega)]
            simp only at hq2
            rw [hq2]
          · rintro ⟨hd, hp⟩
            obtain ⟨i, hi, rfl⟩ := List.mem_iff_getElem.1 hd
            have hi' : i < flags.length := by rw [hlen]; exact hi
            have hfl : flags[i] = true := by
              have := hall i hi hi'
              rw [hp] at this
              exact (Except.ok.inj this).symm
            refine List.mem_map.2 ⟨(t.dist[i], flags[i]), List.mem_filter.2 ⟨?_, hfl⟩, rfl⟩
            refine List.mem_iff_getElem.2 ⟨i, by rw [List.length_zip]; omega, ?_⟩
            rw [List.getElem_zip]

theorem isPartial_iff {b : BeamDef ℝ} {d : DrawnDist ℝ} {i : ℕ} (hi : d.iSpan = i)
    (hl : i < b.members.length) :
    isPartial b (b.nodeX b.members.length) d = .ok true ↔ d.Short b := by
  unfold isPartial
  simp only [hi]
  rw [nodeAt_ok b i (by omega) (by omega), show (i : ℤ) + 1 = ((i + 1 : ℕ) : ℤ) by push_cast; rfl,
    nodeAt_ok b (i + 1 : ℕ) (by omega) (by omega)]
  simp only [Int.toNat_natCast, Except.ok.injEq, decide_eq_true_eq, DrawnDist.Short]
  constructor
  · intro h
    exact ⟨i, hi, h⟩
  · rintro ⟨j, hj, h⟩
    have : j = i := by omega
    subst this
    exact h

/-- No dimension line belongs to anything but a span or a partial load. -/
theorem dim_of {b : BeamDef ℝ} {kf : List (Option ℝ)} {us : UnitSystem} {o : MplOpts}
    {ss : List (DrawnSup ℝ)} {t : DrawnLoads ℝ} {part : List (DrawnDist ℝ)} {p q : ℝ × ℝ}
    (h : Glyph.dim p q ∈ (mplAxes b kf us o ss t part).glyphs) :
    (o.dimensions = true ∧ ∃ i < b.members.length, p.1 = b.nodeX i ∧ q.1 = b.nodeX (i + 1)) ∨
    o.loadValues = true ∧ ∃ d ∈ part, p.1 = d.x0 ∧ q.1 = d.x1 := by
  have ng : ∀ x y w, Glyph.dim p q ∉ ground x y w := by
    intro x y w hm
    simp [ground] at hm
  have nsp : ∀ x s, Glyph.dim p q ∉ spring x s := by
    intro x s hm
    simp [spring] at hm
  have nrs : ∀ x s, Glyph.dim p q ∉ rotSpring x s := by
    intro x s hm
    simp [rotSpring] at hm
  have npm : ∀ x s e, Glyph.dim p q ≠ pinMarker x s e := by
    intro x s e hm
    unfold pinMarker at hm
    split at hm <;> cases hm
  unfold mplAxes at h
  simp only [List.mem_append] at h
  rcases h with ((((((h | h) | h) | h) | h) | h) | h) | h
  · exfalso
    unfold beamGlyphs at h
    split at h <;> simp at h
  · exfalso
    split at h
    · rw [List.mem_append, List.mem_append] at h
      rcases h with (h | h) | h
      · unfold foundations at h
        obtain ⟨q, -, hq⟩ := List.mem_flatMap.1 h
        split at hq
        · cases hq
        · simp only [List.mem_append, List.mem_flatMap, List.mem_cons, List.mem_map, reduceCtorEq,
            false_or, and_false, exists_false, or_false] at hq
          obtain ⟨x, -, hx⟩ := hq
          exact nsp _ _ hx
      · obtain ⟨s, -, hs⟩ := List.mem_flatMap.1 h
        unfold support at hs
        cases hk : s.kind <;> rw [hk] at hs <;>
          simp only [List.mem_append, List.mem_cons, List.mem_map, reduceCtorEq, false_or, and_false,
            exists_false, or_false, ng, nsp, npm, List.not_mem_nil] at hs
        all_goals
          split at hs
          · exact nrs _ _ hs
          · cases hs
      · obtain ⟨i, -, hi⟩ := List.mem_map.1 h
        cases hi
    · cases h
  · exfalso
    obtain ⟨d, -, hd⟩ := List.mem_flatMap.1 h
    unfold distGlyphs at hd
    simp only [List.mem_cons, reduceCtorEq, false_or, List.mem_append, List.mem_map, and_false,
      exists_false] at hd
    split at hd <;> simp at hd
  · exfalso
    obtain ⟨d, -, hd⟩ := List.mem_flatMap.1 h
    unfold point at hd
    simp only [List.mem_cons, reduceCtorEq, false_or] at hd
    split at hd <;> simp at hd
  · exfalso
    obtain ⟨m, -, hm⟩ := List.mem_flatMap.1 h
    unfold moment at hm
    simp only [List.mem_cons, reduceCtorEq, false_or] at hm
    split at hm <;> simp at hm
  · exfalso
    split at h
    · obtain ⟨s, -, hs⟩ := List.mem_map.1 h
      cases hs
    · cases h
  · split at h
    · rename_i hd
      obtain ⟨i, hil, hi⟩ := List.mem_flatMap.1 h
      simp [dimension] at hi
      exact .inl ⟨hd, i, List.mem_range.1 hil, by rw [hi.1], by rw [hi.2]⟩
    · cases h
  · split at h
    · rename_i hd
      obtain ⟨d, hdp, hi⟩ := List.mem_flatMap.1 h
      simp [extent] at hi
      exact .inr ⟨hd, d, hdp, by rw [hi.1], by rw [hi.2]⟩
    · cases h

/-- **C125**, dimensions: with `dimensions` every span has a dimension line from end to end, with
the length of the member at its middle; with `load_values` every distributed load that leaves part
of its span bare has a dimension line from end to end with its length at the middle; and there are
no other dimension lines. -/
theorem C125_dimensions {b : BeamDef ℝ} {LM : List (Row ℝ)} {kf : List (Option ℝ)} {us : UnitSystem}
    {o : MplOpts} {ax : Axes} (h : renderMpl b LM kf us o = .ok ax) :
    ∃ t, inferLoads { b with LM := LM } = .ok t ∧
      (o.dimensions = true → ∀ i (hi : i < b.members.length), ∃ y y',
        Glyph.dim (b.nodeX i, y) (b.nodeX (i + 1), y) ∈ ax.glyphs ∧
        Glyph.text ((b.nodeX i + b.nodeX (i + 1)) / 2, y') [b.members[i].L] "m" ∈ ax.glyphs) ∧
      ((∀ d ∈ t.dist, 0 ≤ d.iSpan ∧ d.iSpan < b.members.length) →
        (o.loadValues = true → ∀ d ∈ t.dist, d.Short b → ∃ y y',
          Glyph.dim (d.x0, y) (d.x1, y) ∈ ax.glyphs ∧
          Glyph.text ((d.x0 + d.x1) / 2, y') [d.x1 - d.x0] "m" ∈ ax.glyphs) ∧
        ∀ p q, Glyph.dim p q ∈ ax.glyphs →
          (o.dimensions = true ∧ ∃ i < b.members.length, p.1 = b.nodeX i ∧ q.1 = b.nodeX (i + 1)) ∨
          o.loadValues = true ∧ ∃ d ∈ t.dist, d.Short b ∧ p.1 = d.x0 ∧ q.1 = d.x1) := by
  obtain ⟨ss, t, part, ht, hpart, rfl⟩ := renderMpl_part h
  refine ⟨t, ht, ?_, fun hsp => ⟨?_, ?_⟩⟩
  · intro ho i hi
    have hmem : ∀ g ∈ dimension (5 / 100 * b.nodeX b.members.length) (b.nodeX i) (b.nodeX (i + 1)),
        g ∈ (mplAxes b kf us o ss t part).glyphs := by
      intro g hg
      unfold mplAxes
      simp only [List.mem_append]
      refine .inl (.inr ?_)
      rw [if_pos ho]
      exact List.mem_flatMap.2 ⟨i, List.mem_range.2 hi, hg⟩
    refine ⟨_, -(23 / 10) * (5 / 100 * b.nodeX b.members.length)
      - 15 / 100 * (5 / 100 * b.nodeX b.members.length), hmem _ (by unfold dimension; exact List.mem_cons_self), ?_⟩
    have := hmem (.text (5 / 10 * (b.nodeX i + b.nodeX (i + 1)),
      -(23 / 10) * (5 / 100 * b.nodeX b.members.length) - 15 / 100 * (5 / 100 * b.nodeX b.members.length))
      [b.nodeX (i + 1) - b.nodeX i] "m") (by unfold dimension; simp)
    rw [b.nodeX_succ i hi, add_sub_cancel_left] at this
    rw [b.nodeX_succ i hi]
    convert this using 3
    ring
  · intro ho d hd hs
    obtain ⟨h0, h1⟩ := hsp d hd
    have hp := (hpart d).2 ⟨hd, (isPartial_iff (i := d.iSpan.toNat) (by omega) (by omega)).2 hs⟩
    have hmem : ∀ g ∈ extent (5 / 100 * b.nodeX b.members.length) d,
        g ∈ (mplAxes b kf us o ss t part).glyphs := by
      intro g hg
      unfold mplAxes
      simp only [List.mem_append]
      refine .inr ?_
      rw [if_pos ho]
      exact List.mem_flatMap.2 ⟨d, hp, hg⟩
    refine ⟨_, -(155 / 100) * (5 / 100 * b.nodeX b.members.length)
      - 12 / 100 * (5 / 100 * b.nodeX b.members.length), hmem _ (by unfold extent; exact List.mem_cons_self), ?_⟩
    have := hmem (.text (5 / 10 * (d.x0 + d.x1),
      -(155 / 100) * (5 / 100 * b.nodeX b.members.length) - 12 / 100 * (5 / 100 * b.nodeX b.members.length))
      [d.x1 - d.x0] "m") (by unfold extent; simp)
    convert this using 3
    ring
  · intro p q hg
    rcases dim_of hg with h1 | ⟨ho, d, hd, h2⟩
    · exact .inl h1
    · obtain ⟨hd1, hd2⟩ := (hpart d).1 hd
      obtain ⟨h0, h1⟩ := hsp d hd1
      exact .inr ⟨ho, d, hd1, (isPartial_iff (i := d.iSpan.toNat) (by omega) (by omega)).1 hd2, h2⟩

/-- A uniform load on the first half of the span of 16: its length is shown. -/
example : ∃ ax y, renderMpl exSixteen [⟨1, 3, [5, 0, 8]⟩] [] UnitSystem.SI {} = .ok ax ∧
    Glyph.dim (0, y) (8, y) ∈ ax.glyphs := by
  have hls : parseLM [⟨1, 3, [5, 0, 8]⟩] = .ok [(⟨0, .pudl 5 0 8⟩ : SpanLoad ℝ)] := by
    simp [parseLM, parseRow]
  obtain ⟨ax, t, h1, h2, h3, -⟩ := C125_completes exSixteen [⟨1, 3, [5, 0, 8]⟩] [] UnitSystem.SI {} _ hls
    (by simp [exSixteen]) (by rw [exSixteen_len]; norm_num) (by
      intro l hl
      rw [List.mem_singleton] at hl
      subst hl
      simp [exSixteen])
  have hd : t.dist = [⟨0, 0, 8, 5, 5⟩] := by
    rw [h3]
    norm_num [drawOne, drawLoad, exSixteen, BeamDef.nodeX]
  obtain ⟨t', ht', -, h5⟩ := C125_dimensions h1
  have : t' = t := Except.ok.inj (ht'.symm.trans h2)
  subst this
  rw [hd] at h5
  obtain ⟨y, y', h6, -⟩ := (h5 (by simp [exSixteen])).1 rfl _ (List.mem_singleton.2 rfl)
    ⟨0, rfl, .inr (by norm_num [exSixteen, BeamDef.nodeX])⟩
  exact ⟨ax, y, h1, h6⟩

end PyCBA
