import Verif.Render.MplView

/-!
C126: what the schematic draws outside its axes.
-/

set_option linter.unusedSectionVars false
set_option linter.unusedSimpArgs false

namespace PyCBA

open Mpl

theorem vertex_above {ax : Axes} {pts : List (ℝ × ℝ)} {p : ℝ × ℝ} (hp : p ∈ pts) (h : ax.yhi < p.2) :
    ¬ (Glyph.line pts).ink ⊆ ax.view := by
  intro hf
  have h1 : p ∈ (Glyph.line pts).ink := subset_convexHull ℝ _ hp
  exact absurd (hf h1).2.2 (not_le.2 h)

theorem vertex_below {ax : Axes} {pts : List (ℝ × ℝ)} {p : ℝ × ℝ} (hp : p ∈ pts) (h : p.2 < ax.ylo) :
    ¬ (Glyph.line pts).ink ⊆ ax.view := by
  intro hf
  have h1 : p ∈ (Glyph.line pts).ink := subset_convexHull ℝ _ hp
  exact absurd (hf h1).2.1 (not_le.2 h)

theorem vertex_right {ax : Axes} {pts : List (ℝ × ℝ)} {p : ℝ × ℝ} (hp : p ∈ pts) (h : ax.xhi < p.1) :
    ¬ (Glyph.line pts).ink ⊆ ax.view := by
  intro hf
  have h1 : p ∈ (Glyph.line pts).ink := subset_convexHull ℝ _ hp
  exact absurd (hf h1).1.2 (not_le.2 h)

/-- Without loads the room above the beam is `0.9` support heights. -/
theorem mplAxes_bare {b : BeamDef ℝ} {kf : List (Option ℝ)} {us : UnitSystem} {o : MplOpts} {ax : Axes}
    (h : renderMpl b [] kf us o = .ok ax) : 0 < b.nodeX b.members.length ∧
      ax.yhi = 9 / 10 * (5 / 100 * b.nodeX b.members.length) ∧
      ax.ylo = (if ¬ o.showSupports then -(3 / 10) * (5 / 100 * b.nodeX b.members.length)
        else if o.dimensions then -3 * (5 / 100 * b.nodeX b.members.length)
        else -(16 / 10) * (5 / 100 * b.nodeX b.members.length)) ∧
      ∃ ss, inferSupports b = .ok ss ∧ ax = mplAxes b kf us o ss ⟨[], [], [], []⟩ [] := by
  obtain ⟨ss, t, part, hss, ht, hL, hpart, -, rfl⟩ := renderMpl_ok h
  have hte : t = ⟨[], [], [], []⟩ := (Except.ok.inj ht).symm
  subst hte
  have hpe : part = [] := List.eq_nil_iff_forall_not_mem.2 fun d hd => by simpa using hpart d hd
  subst hpe
  refine ⟨hL, ?_, ?_, ss, hss, rfl⟩
  · unfold mplAxes roomAbove
    simp
  · unfold mplAxes roomBelow
    simp [show ¬ (1 / 10 ^ 12 : ℝ) < 0 by norm_num]

/-- **C126 fails** for every beam with a fixed support that is drawn without loads: the top of the
wall is cut off. -/
theorem C126_fixed_violation {b : BeamDef ℝ} {kf : List (Option ℝ)} {us : UnitSystem} {o : MplOpts}
    {ax : Axes} (h : renderMpl b [] kf us o = .ok ax) (ho : o.showSupports = true) {j : ℕ}
    (hj : j ≤ b.members.length) (h1 : b.restraints.getD (2 * j) 0 = -1)
    (h2 : b.restraints.getD (2 * j + 1) 0 = -1) :
    ∃ g ∈ ax.glyphs, ¬ g.ink ⊆ ax.view := by
  obtain ⟨hL, hy, -, ss, hss, rfl⟩ := mplAxes_bare h
  obtain ⟨-, hfx⟩ := inferSupports_mem hss
  obtain ⟨s, hs, hk⟩ := hfx j hj h1 h2
  refine ⟨.line [(s.x, -(5 / 100 * b.nodeX b.members.length)), (s.x, 5 / 100 * b.nodeX b.members.length)],
    ?_, ?_⟩
  · unfold mplAxes
    dsimp only
    rw [if_pos ho]
    iterate 6 apply List.mem_append_left
    apply List.mem_append_right
    apply List.mem_append_left
    apply List.mem_append_right
    refine List.mem_flatMap.2 ⟨s, hs, ?_⟩
    unfold support
    rw [hk]
    exact List.mem_cons_self
  · refine vertex_above (p := (s.x, 5 / 100 * b.nodeX b.members.length)) (by simp) ?_
    rw [hy]
    dsimp only
    linarith

/-- **C126 fails** for every non-prismatic beam that is drawn without supports and loads: the deepest
part of the beam is cut off. -/
theorem C126_haunch_violation {b : BeamDef ℝ} {kf : List (Option ℝ)} {us : UnitSystem} {o : MplOpts}
    {ax : Axes} (h : renderMpl b [] kf us o = .ok ax) (ho : o.showSupports = false)
    (hprof : eiProfile b (5 / 100 * b.nodeX b.members.length) ≠ none) :
    ∃ g ∈ ax.glyphs, ¬ g.ink ⊆ ax.view := by
  obtain ⟨hL, -, hy, ss, hss, rfl⟩ := mplAxes_bare h
  rw [if_pos (by simp [ho])] at hy
  obtain ⟨prof, hp⟩ := Option.ne_none_iff_exists'.1 hprof
  have hmax : ∃ x, (x, 6 / 10 * (5 / 100 * b.nodeX b.members.length)) ∈ prof := by
    unfold eiProfile at hp
    dsimp only at hp
    split at hp
    · cases hp
    · rename_i hc
      push Not at hc
      obtain ⟨hne, hpos, -⟩ := hc
      have hp := (Option.some.inj hp).symm
      subst hp
      have hmem : maxOf ((eiValues b).map Prod.snd) ∈ (eiValues b).map Prod.snd := by
        unfold maxOf
        have key : ∀ (l : List ℝ) (a : ℝ), l.foldl max a = a ∨ l.foldl max a ∈ l := by
          intro l
          induction l with
          | nil => intro a; exact Or.inl rfl
          | cons c l ih =>
            intro a
            rw [List.foldl_cons]
            rcases ih (max a c) with e | e
            · rw [e]
              rcases max_choice a c with e2 | e2
              · exact Or.inl e2
              · rw [e2]; exact Or.inr List.mem_cons_self
            · exact Or.inr (List.mem_cons_of_mem _ e)
        rcases key ((eiValues b).map Prod.snd) (((eiValues b).map Prod.snd).headD 0) with e | e
        · rw [e]
          cases hv : (eiValues b).map Prod.snd with
          | nil => exact absurd hv hne
          | cons c l => exact List.mem_cons_self
        · exact e
      obtain ⟨p, hpm, hpe⟩ := List.mem_map.1 hmem
      refine ⟨p.1, List.mem_map.2 ⟨p, hpm, ?_⟩⟩
      rw [hpe, div_self hpos.ne', Real.one_rpow, mul_one]
  obtain ⟨x, hx⟩ := hmax
  refine ⟨.line (prof.map fun p => (p.1, -p.2)), ?_, ?_⟩
  · unfold mplAxes beamGlyphs
    dsimp only
    rw [hp]
    iterate 7 apply List.mem_append_left
    simp
  · refine vertex_below (p := (x, -(6 / 10 * (5 / 100 * b.nodeX b.members.length))))
      (List.mem_map.2 ⟨_, hx, rfl⟩) ?_
    rw [hy]
    dsimp only
    linarith

theorem exSixteen_pudl (w a c : ℝ) (us : UnitSystem) (o : MplOpts) :
    parseLM [⟨1, 3, [w, a, c]⟩] = .ok [(⟨0, .pudl w a c⟩ : SpanLoad ℝ)] ∧
    ∃ ax ss t part, renderMpl exSixteen [⟨1, 3, [w, a, c]⟩] [] us o = .ok ax ∧
      inferLoads { exSixteen with LM := [⟨1, 3, [w, a, c]⟩] } = .ok t ∧
      t.dist = [⟨0, a, a + c, w, w⟩] ∧ t.points = [] ∧ t.moments = [] ∧
      (1 < a → part = [⟨0, a, a + c, w, w⟩]) ∧
      ax = mplAxes exSixteen [] us o ss t part := by
  have hls : parseLM [⟨1, 3, [w, a, c]⟩] = .ok [(⟨0, .pudl w a c⟩ : SpanLoad ℝ)] := by
    simp [parseLM, parseRow]
  refine ⟨hls, ?_⟩
  obtain ⟨ax, t, h1, h2, h3, h4, h5⟩ := C125_completes exSixteen [⟨1, 3, [w, a, c]⟩] [] us o _ hls
    (by simp [exSixteen]) (by rw [exSixteen_len]; norm_num) (by
      intro l hl
      rw [List.mem_singleton] at hl
      subst hl
      simp [exSixteen])
  have ht : t.dist = [⟨0, a, a + c, w, w⟩] := by
    rw [h3]
    norm_num [drawOne, drawLoad, exSixteen, BeamDef.nodeX]
  obtain ⟨ss, hss⟩ : ∃ ss, inferSupports exSixteen = .ok ss := by
    unfold inferSupports
    exact ⟨_, if_neg (by simp [exSixteen])⟩
  have hr := h1
  unfold renderMpl at hr
  rw [hss, h2] at hr
  dsimp only at hr
  rw [if_neg (by rw [exSixteen_len]; norm_num)] at hr
  split at hr
  · cases hr
  · rename_i flags hf
    refine ⟨ax, ss, t, _, h1, h2, ht, ?_, ?_, ?_, (Except.ok.inj hr).symm⟩
    · rw [h4]; simp [drawOne, drawLoad]
    · rw [h5]; simp [drawOne, drawLoad]
    · intro ha
      have hp : isPartial exSixteen (exSixteen.nodeX exSixteen.members.length) ⟨0, a, a + c, w, w⟩
          = .ok true := by
        have n1 : nodeAt exSixteen (0 : ℤ) = .ok (nodeName 0, exSixteen.nodeX 0) := by
          simp [nodeAt, NL.pyIndex, exSixteen]
        have n2 : nodeAt exSixteen (0 + 1 : ℤ) = .ok (nodeName 1, exSixteen.nodeX 1) := by
          simp [nodeAt, NL.pyIndex, exSixteen]
        unfold isPartial
        dsimp only
        rw [n1, n2]
        dsimp only
        rw [exSixteen_len]
        congr 1
        apply decide_eq_true
        left
        simp only [BeamDef.nodeX, List.take_zero, List.map_nil, List.sum_nil]
        rw [max_eq_left (by norm_num : (1 : ℝ) ≤ 16)]
        linarith
      rw [ht] at hf ⊢
      obtain ⟨e1, e2⟩ := mapE_ok hf
      have hl : flags.length = 1 := by simpa using e1
      have e0 := e2 0 (by simp) (by omega)
      have hfl : flags = [true] := by
        apply List.ext_getElem (by simpa using hl)
        intro i hi hi'
        have : i = 0 := by simpa using hi'
        subst this
        have e0' : isPartial exSixteen (exSixteen.nodeX exSixteen.members.length) ⟨0, a, a + c, w, w⟩
          = .ok flags[0] := e0
        rw [hp] at e0'
        exact (Except.ok.inj e0').symm
      rw [hfl]
      rfl

/-- **C126 fails** without supports: the extent of a partial load is drawn below the axes. -/
theorem C126_bare_violation :
    ∃ (b : BeamDef ℝ) (LM : List (Row ℝ)) (ax : Axes),
      parseLM LM = .ok [⟨0, .pudl 5 4 8⟩] ∧ b.members.length = 1 ∧ b.nodeX 1 = 16 ∧
      renderMpl b LM [] UnitSystem.SI { showSupports := false } = .ok ax ∧
      ∃ g ∈ ax.glyphs, ¬ g.ink ⊆ ax.view := by
  obtain ⟨hls, ax, ss, t, part, h1, h2, hd, hp, hm, hpart, hax⟩ :=
    exSixteen_pudl 5 4 8 UnitSystem.SI { showSupports := false }
  refine ⟨exSixteen, _, ax, hls, rfl, exSixteen_len, h1, ?_⟩
  have hpart := hpart (by norm_num)
  subst hpart
  have hy : ax.ylo = -(24 / 100) := by
    rw [hax]
    unfold mplAxes roomBelow
    simp only [hd, hp, hm, exSixteen_len]
    norm_num
  refine ⟨.line [(4, -(155 / 100) * (5 / 100 * 16) + 22 / 100 * (5 / 100 * 16)),
    (4, -(155 / 100) * (5 / 100 * 16) - 22 / 100 * (5 / 100 * 16))], ?_, ?_⟩
  · rw [hax]
    unfold mplAxes
    simp only [exSixteen_len]
    apply List.mem_append_right
    rw [if_pos trivial]
    refine List.mem_flatMap.2 ⟨_, List.mem_singleton.2 rfl, ?_⟩
    unfold extent
    refine List.mem_cons_of_mem _ ?_
    exact List.mem_cons_self
  · refine vertex_below (p := (4, -(155 / 100) * (5 / 100 * 16) - 22 / 100 * (5 / 100 * 16))) (by simp) ?_
    rw [hy]
    norm_num

/-- **C126 fails** for a load that reaches beyond the beam (which the analysis accepts): the outline
runs out of the axes. -/
theorem C126_overhang_violation :
    ∃ (b : BeamDef ℝ) (LM : List (Row ℝ)) (ax : Axes),
      parseLM LM = .ok [⟨0, .pudl 5 8 12⟩] ∧ b.members.length = 1 ∧ b.nodeX 1 = 16 ∧
      renderMpl b LM [] UnitSystem.SI {} = .ok ax ∧ ∃ g ∈ ax.glyphs, ¬ g.ink ⊆ ax.view := by
  obtain ⟨hls, ax, ss, t, part, h1, h2, hd, hp, hm, -, hax⟩ := exSixteen_pudl 5 8 12 UnitSystem.SI {}
  refine ⟨exSixteen, _, ax, hls, rfl, exSixteen_len, h1, ?_⟩
  have hx : ax.xhi = 106 / 100 * 16 := by
    rw [hax]
    unfold mplAxes
    simp only [exSixteen_len]
  obtain ⟨t', h2', f, -, -, hf⟩ := C125_outlines h1
  obtain rfl : t' = t := Except.ok.inj (h2'.symm.trans h2)
  obtain ⟨hg, -⟩ := hf ⟨0, 8, 8 + 12, 5, 5⟩ (by rw [hd]; simp)
  refine ⟨_, hg, vertex_right (p := (8 + 12, f 5)) (by simp) ?_⟩
  rw [hx]
  norm_num

/-- A propped cantilever of length 16. -/
noncomputable def exProp16 : BeamDef ℝ :=
  ⟨[⟨.const 1, 16, .FF, none⟩], [-1, -1, -1, 0], List.replicate 4 none, []⟩

theorem exProp16_len : exProp16.nodeX exProp16.members.length = 16 := by
  simp [exProp16, BeamDef.nodeX]

-- C126: a propped cantilever with a load, drawn with dimensions
example : ∃ (LM : List (Row ℝ)) (ax : Axes),
    renderMpl exProp16 LM [] UnitSystem.SI { dimensions := true } = .ok ax ∧ LM ≠ [] ∧
    ∀ g ∈ ax.glyphs, g.ink ⊆ ax.view := by
  have hls : parseLM [⟨1, 3, [5, 4, 8]⟩] = .ok [(⟨0, .pudl 5 4 8⟩ : SpanLoad ℝ)] := by
    simp [parseLM, parseRow]
  obtain ⟨ax, t, h1, h2, h3, h4, h5⟩ := C125_completes exProp16 [⟨1, 3, [5, 4, 8]⟩] [] UnitSystem.SI
    { dimensions := true } _ hls (by simp [exProp16]) (by rw [exProp16_len]; norm_num) (by
      intro l hl
      rw [List.mem_singleton] at hl
      subst hl
      simp [exProp16])
  have e3 : t.dist = [⟨0, 4, 4 + 8, 5, 5⟩] := by
    rw [h3]
    norm_num [drawOne, drawLoad, exProp16, BeamDef.nodeX]
  have e4 : t.points = [] := by rw [h4]; simp [drawOne, drawLoad]
  have e5 : t.moments = [] := by rw [h5]; simp [drawOne, drawLoad]
  refine ⟨_, ax, h1, by simp, C126_view_partial h1 h2 rfl ?_ ?_ ?_ ?_ ?_ ?_ ?_⟩
  · intro m hm
    simp only [exProp16, List.mem_singleton] at hm
    subst hm
    norm_num
  · intro m hm x _ _
    simp only [exProp16, List.mem_singleton] at hm
    subst hm
    simp [Rigidity.eval]
  · rw [exProp16_len]; norm_num
  · rw [e3, exProp16_len]
    intro d hd
    rw [List.mem_singleton] at hd
    subst hd
    norm_num
  · rw [e4]; simp
  · rw [e5]; simp
  · left; right; left; rw [e3]; simp

-- C126: the same without its load
example : ∃ ax, renderMpl exProp16 [] [] UnitSystem.SI {} = .ok ax ∧ ∃ g ∈ ax.glyphs, ¬ g.ink ⊆ ax.view := by
  obtain ⟨ax, t, h1, -⟩ := C125_completes exProp16 [] [] UnitSystem.SI {} [] rfl (by simp [exProp16])
    (by rw [exProp16_len]; norm_num) (by simp)
  exact ⟨ax, h1, C126_fixed_violation h1 rfl (j := 0) (by simp) (by simp [exProp16]) (by simp [exProp16])⟩

-- C126: two spans of rigidities 1 and 8, without supports
example : ∃ (b : BeamDef ℝ) (ax : Axes), renderMpl b [] [] UnitSystem.SI { showSupports := false } = .ok ax ∧
    ∃ g ∈ ax.glyphs, ¬ g.ink ⊆ ax.view := by
  obtain ⟨ax, t, h1, -⟩ := C125_completes
    ⟨[⟨.const 1, 8, .FF, none⟩, ⟨.const 8, 8, .FF, none⟩], [-1, 0, -1, 0, -1, 0], List.replicate 6 none, []⟩
    [] [] UnitSystem.SI { showSupports := false } [] rfl (by simp) (by simp [BeamDef.nodeX]) (by simp)
  refine ⟨_, ax, h1, C126_haunch_violation h1 rfl ?_⟩
  unfold eiProfile
  dsimp only
  rw [if_neg]
  · simp
  · norm_num [eiValues, eiStations, maxOf, minOf, List.zipIdx]
    exact List.cons_ne_nil _ _

end PyCBA
