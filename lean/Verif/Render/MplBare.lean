import Verif.Render.MplClip
import Verif.Render.MplProfile

/-!
C126 for drawings without supports.
-/

set_option linter.unusedSectionVars false
set_option linter.unusedSimpArgs false

namespace PyCBA

open Mpl

set_option maxHeartbeats 1000000 in
/-- **C126**, without supports: if neither dimensions nor values are written and all members have the
same constant rigidity, up to a millionth, everything drawn lies within the axes.  Missing: the
extents of partial loads (`C126_bare_violation`) and profiles of the rigidity, which are drawn
deeper than the axes. -/
theorem C126_bare_partial {b : BeamDef ℝ} {LM : List (Row ℝ)} {kf : List (Option ℝ)}
    {us : UnitSystem} {o : MplOpts} {ax : Axes} {t : DrawnLoads ℝ}
    (h : renderMpl b LM kf us o = .ok ax) (ht : inferLoads { b with LM := LM } = .ok t)
    (hsup : o.showSupports = false) (hdim : o.dimensions = false) (hlv : o.loadValues = false)
    (hpos : ∀ m ∈ b.members, 0 < m.L) (hne : b.members ≠ [])
    (hEI : ∀ m ∈ b.members, ∃ e, 0 < e ∧ m.EI = .const e)
    (hsame : ∀ m ∈ b.members, ∀ m' ∈ b.members, (1 - 1 / 10 ^ 6) * m'.EI.eval 0 ≤ m.EI.eval 0)
    (hlong : 1 / 10 ^ 10 ≤ b.nodeX b.members.length)
    (hd : ∀ d ∈ t.dist, 0 ≤ d.x0 ∧ d.x0 ≤ d.x1 ∧ d.x1 ≤ b.nodeX b.members.length)
    (hp : ∀ p ∈ t.points, 0 ≤ p.x ∧ p.x ≤ b.nodeX b.members.length)
    (hm : ∀ p ∈ t.moments, 0 ≤ p.x ∧ p.x ≤ b.nodeX b.members.length) :
    ∀ g ∈ ax.glyphs, g.ink ⊆ ax.view := by
  obtain ⟨ss, t', part, hss, ht', hL, hpart, -, rfl⟩ := renderMpl_ok h
  obtain rfl : t' = t := Except.ok.inj (ht'.symm.trans ht)
  set L := b.nodeX b.members.length with hLdef
  set pmax := (t'.points.map fun p => |p.v|).foldl max 0 with hpmax
  set above := (roomAbove L pmax t').foldl max 0 with habove
  set below := (roomBelow L pmax t').foldl max 0 with hbelow
  have a0 : 0 ≤ above := foldl_max_ge _ _
  have b0 : 0 ≤ below := foldl_max_ge _ _
  obtain ⟨Y0, hY0⟩ : ∃ Y, Y = (mplAxes b kf us o ss t' part).ylo := ⟨_, rfl⟩
  obtain ⟨Y1, hY1⟩ : ∃ Y, Y = (mplAxes b kf us o ss t' part).yhi := ⟨_, rfl⟩
  have hsh : 0 < 5 / 100 * L := by positivity
  have y0le : Y0 ≤ -(3 / 10) * (5 / 100 * L) := by
    rw [hY0]
    unfold mplAxes
    dsimp only
    simp only [hsup, Bool.false_eq_true, not_false_eq_true, if_true]
    split
    · exact min_le_left _ _
    · exact le_rfl
  have y0low : ∀ v ∈ roomBelow L pmax t', 1 / 10 ^ 12 < v → Y0 ≤ -(v + 14 / 10 * (5 / 100 * L)) := by
    intro v hv hbig
    have hvb : v ≤ below := mem_le_foldl_max _ _ _ hv
    rw [hY0]
    unfold mplAxes
    dsimp only
    rw [← hLdef, ← hpmax, ← hbelow, if_pos (lt_of_lt_of_le hbig hvb)]
    refine (min_le_right _ _).trans ?_
    linarith
  have y1ge : 9 / 10 * (5 / 100 * L) ≤ Y1 := by
    rw [hY1]
    unfold mplAxes
    dsimp only
    rw [← hLdef, ← hpmax, ← habove]
    split <;> linarith
  have y1any : (t'.points ≠ [] ∨ t'.dist ≠ [] ∨ t'.moments ≠ []) → above + 14 / 10 * (5 / 100 * L) ≤ Y1 := by
    intro hany
    rw [hY1]
    unfold mplAxes
    dsimp only
    rw [if_pos hany]
  have y1up : ∀ v ∈ roomAbove L pmax t', (t'.points ≠ [] ∨ t'.dist ≠ [] ∨ t'.moments ≠ []) →
      v + 14 / 10 * (5 / 100 * L) ≤ Y1 := by
    intro v hv hany
    have : v ≤ above := mem_le_foldl_max _ _ _ hv
    linarith [y1any hany]
  have hx0 : (mplAxes b kf us o ss t' part).xlo = -(6 / 100) * L := rfl
  have hx1 : (mplAxes b kf us o ss t' part).xhi = 106 / 100 * L := rfl
  intro g hg
  have goal : Fits (-(6 / 100) * L) (106 / 100 * L) Y0 Y1 g → g.ink ⊆ (mplAxes b kf us o ss t' part).view := by
    intro hf
    unfold Axes.view
    rw [hx0, hx1, ← hY0, ← hY1]
    exact hf
  apply goal
  unfold mplAxes at hg
  simp only [hsup, hdim, hlv, Bool.false_eq_true, and_false, if_false, List.append_nil,
    List.mem_append] at hg
  rcases hg with ((hg | hg) | hg) | hg
  · unfold beamGlyphs at hg
    rw [(C129_prismatic_partial _ hpos hne hEI).2 hsame] at hg
    simp only [List.mem_cons, List.not_mem_nil, or_false] at hg
    subst hg
    apply line2_fits <;> constructor <;> linarith
  · obtain ⟨d, hdm, hg⟩ := List.mem_flatMap.1 hg
    obtain ⟨d0, d1, d2⟩ := hd d hdm
    have hany : t'.points ≠ [] ∨ t'.dist ≠ [] ∨ t'.moments ≠ [] :=
      Or.inr (Or.inl (List.ne_nil_of_mem hdm))
    refine (dist_fits (Y0 := Y0) (Y1 := Y1) hL (wmax_ge hdm).1 (wmax_ge hdm).2 d0 d1 d2 (by linarith)
      (by linarith [y1any hany]) ?_ ?_ hg).mono (by linarith) (by linarith) le_rfl le_rfl
    · intro hw
      have : 7 / 100 * L ∈ roomAbove L pmax t' := by
        unfold roomAbove
        refine List.mem_cons_of_mem _ (List.mem_append_left _ (List.mem_append_right _ ?_))
        exact List.mem_map.2 ⟨d, List.mem_filter.2 ⟨hdm, decide_eq_true hw⟩, rfl⟩
      linarith [y1up _ this hany]
    · intro hw
      have : 7 / 100 * L ∈ roomBelow L pmax t' := by
        unfold roomBelow
        refine List.mem_cons_of_mem _ (List.mem_append_left _ (List.mem_append_right _ ?_))
        exact List.mem_map.2 ⟨d, List.mem_filter.2 ⟨hdm, decide_eq_true hw⟩, rfl⟩
      linarith [y0low _ this (by linarith)]
  · obtain ⟨p, hpm, hg⟩ := List.mem_flatMap.1 hg
    obtain ⟨d0, d1⟩ := hp p hpm
    have hany : t'.points ≠ [] ∨ t'.dist ≠ [] ∨ t'.moments ≠ [] := Or.inl (List.ne_nil_of_mem hpm)
    have hlen := pointLen_pos hL (pmax_ge hpm)
    refine (pointGlyphs_fits (Y0 := Y0) (Y1 := Y1) hsh d0 d1 (by linarith) (by linarith) hlen ?_ ?_ hg).mono
      (by linarith) (by linarith) le_rfl le_rfl
    · intro hv
      have : pointLen L pmax p.v ∈ roomAbove L pmax t' := by
        unfold roomAbove
        refine List.mem_cons_of_mem _ (List.mem_append_left _ (List.mem_append_left _ ?_))
        exact List.mem_map.2 ⟨p, List.mem_filter.2 ⟨hpm, decide_eq_true hv⟩, rfl⟩
      linarith [y1up _ this hany]
    · intro hv
      have hmem : pointLen L pmax p.v ∈ roomBelow L pmax t' := by
        unfold roomBelow
        refine List.mem_cons_of_mem _ (List.mem_append_left _ (List.mem_append_left _ ?_))
        exact List.mem_map.2 ⟨p, List.mem_filter.2 ⟨hpm, decide_eq_true (not_le.2 hv)⟩, rfl⟩
      have hbig : 1 / 10 ^ 12 < pointLen L pmax p.v := by
        unfold pointLen
        have hpp : 0 < pmax := lt_of_lt_of_le (abs_pos.2 hv.ne) (pmax_ge hpm)
        rw [if_pos hpp.ne']
        have q0 : 0 ≤ 45 / 100 * |p.v| / pmax := by positivity
        nlinarith [mul_nonneg hL.le q0]
      linarith [y0low _ hmem hbig]
  · obtain ⟨m, hmm, hg⟩ := List.mem_flatMap.1 hg
    obtain ⟨d0, d1⟩ := hm m hmm
    have hany : t'.points ≠ [] ∨ t'.dist ≠ [] ∨ t'.moments ≠ [] :=
      Or.inr (Or.inr (List.ne_nil_of_mem hmm))
    have hu : 45 / 1000 * L ∈ roomAbove L pmax t' := by
      unfold roomAbove
      exact List.mem_cons_of_mem _ (List.mem_append_right _ (List.mem_map.2 ⟨m, hmm, rfl⟩))
    have hl : 45 / 1000 * L ∈ roomBelow L pmax t' := by
      unfold roomBelow
      exact List.mem_cons_of_mem _ (List.mem_append_right _ (List.mem_map.2 ⟨m, hmm, rfl⟩))
    have k1 := y1up _ hu hany
    have k2 := y0low _ hl (by linarith)
    refine (momentGlyphs_fits (Y0 := Y0) (Y1 := Y1) (by positivity) hsh d0 d1 (by linarith) (by linarith)
      (by linarith) (by linarith) hg).mono (by linarith) (by linarith) le_rfl le_rfl

-- C126: an upward load on a propped cantilever, drawn without supports
example : ∃ (LM : List (Row ℝ)) (ax : Axes),
    renderMpl exProp16 LM [] UnitSystem.SI { showSupports := false, loadValues := false } = .ok ax ∧
    LM ≠ [] ∧ ∀ g ∈ ax.glyphs, g.ink ⊆ ax.view := by
  have hls : parseLM [⟨1, 3, [-5, 4, 8]⟩] = .ok [(⟨0, .pudl (-5) 4 8⟩ : SpanLoad ℝ)] := by
    simp [parseLM, parseRow]
  obtain ⟨ax, t, h1, h2, h3, h4, h5⟩ := C125_completes exProp16 [⟨1, 3, [-5, 4, 8]⟩] [] UnitSystem.SI
    { showSupports := false, loadValues := false } _ hls (by simp [exProp16])
    (by rw [exProp16_len]; norm_num) (by
      intro l hl
      rw [List.mem_singleton] at hl
      subst hl
      simp [exProp16])
  have e3 : t.dist = [⟨0, 4, 4 + 8, -5, -5⟩] := by
    rw [h3]
    norm_num [drawOne, drawLoad, exProp16, BeamDef.nodeX]
  have e4 : t.points = [] := by rw [h4]; simp [drawOne, drawLoad]
  have e5 : t.moments = [] := by rw [h5]; simp [drawOne, drawLoad]
  refine ⟨_, ax, h1, by simp, C126_bare_partial h1 h2 rfl rfl rfl ?_ (by simp [exProp16]) ?_ ?_ ?_ ?_ ?_ ?_⟩
  · intro m hm
    simp only [exProp16, List.mem_singleton] at hm
    subst hm
    norm_num
  · intro m hm
    simp only [exProp16, List.mem_singleton] at hm
    subst hm
    exact ⟨1, one_pos, rfl⟩
  · intro m hm m' hm'
    simp only [exProp16, List.mem_singleton] at hm hm'
    subst hm
    subst hm'
    norm_num [Rigidity.eval]
  · rw [exProp16_len]; norm_num
  · rw [e3, exProp16_len]
    intro d hd
    rw [List.mem_singleton] at hd
    subst hd
    norm_num
  · rw [e4]; simp
  · rw [e5]; simp

end PyCBA
