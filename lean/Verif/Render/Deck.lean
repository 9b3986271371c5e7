import Verif.Bridge.Loads
import Verif.Exact.Broken
import Verif.Render.MplClip
import Verif.Render.MplProfile

/-!
The deck with the vehicle on it, at the head of the snapshot plots and of the animation
(`bridge.py` 875-993).  C131: the arrows it draws for the axles are the loads of the analysis, and
everything lies within the axes.
-/

set_option linter.unusedSectionVars false
set_option linter.unusedSimpArgs false

namespace PyCBA

open Mpl

/-! ### The model -/

/-- The drawing of the vehicle, `bridge.py` 909-958: body, cab, two discs for each wheel, an arrow
for each axle on the deck, and the arrow of travel.  `u` is the unit of the symbols, `xs` the
positions of the axles and `xlo`, `xhi` the least and the greatest of them. -/
noncomputable def truckGlyphs (L u xlo xhi : ℝ) (xs : List ℝ) : List Glyph :=
  let rw := 30 / 100 * u
  let y0 := 2 * rw
  let top := y0 + 11 / 10 * u
  let pad := 6 / 10 * u
  let cabW := 8 / 10 * u
  let arrTop := top + u
  .fill [(xlo - pad, y0), (xhi + pad, y0), (xhi + pad, top), (xlo - pad, top)] ::
    .fill [(xhi + pad - cabW, top), (xhi + pad, top), (xhi + pad, top + 5 / 10 * u),
      (xhi + pad - cabW, top + 5 / 10 * u)] ::
    (xs.flatMap (fun x => [.disc (x, rw) rw, .disc (x, rw) (32 / 100 * rw)])
      ++ (xs.filter fun x => 0 ≤ x ∧ x ≤ L).map (fun x => .arrow (x, 3 / 100 * u) (x, arrTop))
      ++ [.arrow (xhi + pad + 16 / 10 * u, top + 25 / 100 * u) (xhi + pad + 4 / 10 * u, top + 25 / 100 * u)])

/-- `_draw_deck_and_vehicle`, `bridge.py` 875-980: the schematic of the beam with the permanent
loads, then the vehicle, then the limits.  `np.min` of no axles raises `ValueError`.  The caption
(981-993) is not drawn here; for its text see `axleGroups`. -/
noncomputable def drawDeck (b : BeamB ℝ) (static : List (Row ℝ)) (kf : List (Option ℝ)) (us : UnitSystem)
    (v : Vehicle ℝ) (pos : ℝ) : Except PyErr Axes :=
  match renderMpl b.toDef static kf us { labels := true, loadValues := decide (static ≠ []) } with
  | .error e => .error e
  | .ok ax =>
    let L := b.length
    let u := 5 / 100 * L
    let xs := v.coords.map fun c => pos - c
    if xs = [] then .error .valueError
    else
      let xlo := minOf xs
      let xhi := maxOf xs
      .ok { glyphs := ax.glyphs ++ truckGlyphs L u xlo xhi xs
            xlo := min (-(6 / 100) * L) (xlo - 8 / 10 * u)
            xhi := max (106 / 100 * L) (xhi + 6 / 10 * u + 24 / 10 * u)
            ylo := -(19 / 10) * u
            yhi := 2 * (30 / 100 * u) + 11 / 10 * u + u + 15 / 10 * u }

/-! ### C131 -/

/-- The place of a downward arrow. -/
noncomputable def downArrow : Glyph → Option ℝ
  | .arrow h t => if h.1 = t.1 ∧ h.2 < t.2 then some h.1 else none
  | _ => none

/-- The place and the size of a wheel standing on the deck. -/
noncomputable def wheelAt : Glyph → Option ℝ
  | .disc c r => if 0 < r ∧ c.2 = r then some c.1 else none
  | _ => none

theorem drawDeck_ok {b : BeamB ℝ} {static : List (Row ℝ)} {kf : List (Option ℝ)} {us : UnitSystem}
    {v : Vehicle ℝ} {pos : ℝ} {out : Axes} (h : drawDeck b static kf us v pos = .ok out) :
    ∃ ax, renderMpl b.toDef static kf us { labels := true, loadValues := decide (static ≠ []) } = .ok ax ∧
      v.coords ≠ [] ∧ out =
      { glyphs := ax.glyphs ++ truckGlyphs b.length (5 / 100 * b.length)
          (minOf (v.coords.map fun c => pos - c)) (maxOf (v.coords.map fun c => pos - c))
          (v.coords.map fun c => pos - c)
        xlo := min (-(6 / 100) * b.length)
          (minOf (v.coords.map fun c => pos - c) - 8 / 10 * (5 / 100 * b.length))
        xhi := max (106 / 100 * b.length)
          (maxOf (v.coords.map fun c => pos - c) + 6 / 10 * (5 / 100 * b.length)
            + 24 / 10 * (5 / 100 * b.length))
        ylo := -(19 / 10) * (5 / 100 * b.length)
        yhi := 2 * (30 / 100 * (5 / 100 * b.length)) + 11 / 10 * (5 / 100 * b.length)
          + 5 / 100 * b.length + 15 / 10 * (5 / 100 * b.length) } := by
  unfold drawDeck at h
  split at h
  · cases h
  · rename_i ax hax
    dsimp only at h
    split at h
    · cases h
    · rename_i hne
      exact ⟨ax, hax, fun e => hne (by rw [e]; rfl), (Except.ok.inj h).symm⟩

theorem truck_arrows {L u xlo xhi : ℝ} (hu : 0 < u) (xs : List ℝ) :
    (truckGlyphs L u xlo xhi xs).filterMap downArrow = xs.filter fun x => 0 ≤ x ∧ x ≤ L := by
  unfold truckGlyphs
  dsimp only
  rw [List.filterMap_cons_none rfl, List.filterMap_cons_none rfl, List.filterMap_append,
    List.filterMap_append]
  have h1 : ∀ r : ℝ, ∀ xs : List ℝ, (xs.flatMap fun x => [Glyph.disc (x, r) r,
      Glyph.disc (x, r) (32 / 100 * r)]).filterMap downArrow = [] := by
    intro r xs
    induction xs with
    | nil => rfl
    | cons x xs ih =>
      rw [List.flatMap_cons, List.filterMap_append, ih]
      rfl
  have h2 : ∀ xs : List ℝ, (xs.map fun x => Glyph.arrow (x, 3 / 100 * u)
      (x, 2 * (30 / 100 * u) + 11 / 10 * u + u)).filterMap downArrow = xs := by
    intro xs
    induction xs with
    | nil => rfl
    | cons x xs ih =>
      rw [List.map_cons, List.filterMap_cons_some (b := x), ih]
      unfold downArrow
      dsimp only
      rw [if_pos ⟨rfl, by linarith⟩]
  rw [h1, h2, List.filterMap_cons_none]
  · simp
  · unfold downArrow
    dsimp only
    rw [if_neg]
    rintro ⟨h, -⟩
    linarith

theorem truck_wheels {L u xlo xhi : ℝ} (hu : 0 < u) (xs : List ℝ) :
    (truckGlyphs L u xlo xhi xs).filterMap wheelAt = xs := by
  unfold truckGlyphs
  dsimp only
  rw [List.filterMap_cons_none rfl, List.filterMap_cons_none rfl, List.filterMap_append,
    List.filterMap_append]
  have h1 : ∀ xs : List ℝ, (xs.flatMap fun x => [Glyph.disc (x, 30 / 100 * u) (30 / 100 * u),
      Glyph.disc (x, 30 / 100 * u) (32 / 100 * (30 / 100 * u))]).filterMap wheelAt = xs := by
    intro xs
    induction xs with
    | nil => rfl
    | cons x xs ih =>
      rw [List.flatMap_cons, List.filterMap_append, ih, List.filterMap_cons_some (b := x),
        List.filterMap_cons_none]
      · rfl
      · unfold wheelAt
        dsimp only
        rw [if_neg]
        rintro ⟨-, h⟩
        linarith
      · unfold wheelAt
        dsimp only
        rw [if_pos ⟨by linarith, rfl⟩]
  have h2 : ∀ (f g : ℝ → ℝ × ℝ) (xs : List ℝ), (xs.map fun x => Glyph.arrow (f x)
      (g x)).filterMap wheelAt = [] := by
    intro f g xs
    induction xs with
    | nil => rfl
    | cons x xs ih =>
      rw [List.map_cons, List.filterMap_cons_none rfl, ih]
  rw [h1, h2 (fun x => (x, 3 / 100 * u)) (fun x => (x, 2 * (30 / 100 * u) + 11 / 10 * u + u))]
  rw [List.filterMap_cons_none rfl]
  simp

/-- **C131**, loads: after the schematic, the deck shows a wheel standing on it for each axle, in
order, and one downward arrow for each point load that the analysis at that position applies, in
order and at its place, and none else. -/
theorem C131_axles {b : BeamB ℝ} (hb : b.Proper) {static : List (Row ℝ)} {kf : List (Option ℝ)}
    {us : UnitSystem} {v : Vehicle ℝ} (hv : v.coords.length = v.axw.length) {pos : ℝ} {out : Axes}
    (h : drawDeck b static kf us v pos = .ok out) :
    ∃ ax rest, renderMpl b.toDef static kf us { labels := true, loadValues := decide (static ≠ []) } = .ok ax ∧
      out.glyphs = ax.glyphs ++ rest ∧
      rest.filterMap wheelAt = v.axles.map (fun cw => pos - cw.1) ∧
      List.Forall₂ (fun r x => ∃ w, Row.PointAt b.lens r w x) (axleLM b v pos) (rest.filterMap downArrow) := by
  obtain ⟨ax, hax, hne, rfl⟩ := drawDeck_ok h
  have hL : b.length = b.lens.sum := hb.inStep.length
  have hpos : 0 < b.length := by
    rw [hL]
    have := hb.nonempty
    cases hl : b.lens with
    | nil => exact absurd hl this
    | cons l ls =>
      have h0 := hb.pos
      rw [hl] at h0
      rw [List.sum_cons]
      have := List.sum_nonneg (l := ls) fun x hx => (h0 x (List.mem_cons_of_mem _ hx)).le
      linarith [h0 l List.mem_cons_self]
  have hmap : (v.coords.map fun c => pos - c) = v.axles.map fun cw => pos - cw.1 := by
    unfold Vehicle.axles
    have : (fun cw : ℝ × ℝ => pos - cw.1) = (fun c => pos - c) ∘ Prod.fst := rfl
    rw [this, ← List.map_map, List.map_fst_zip (by omega)]
  refine ⟨ax, _, hax, rfl, ?_, ?_⟩
  · rw [truck_wheels (by linarith), hmap]
  · rw [truck_arrows (by linarith), hmap, List.filter_map, List.forall₂_map_right_iff, hL]
    refine (C54_axles b hb v pos).imp ?_
    intro r cw hr
    exact ⟨_, hr⟩

set_option maxHeartbeats 1000000 in
/-- **C131**, view: everything drawn lies within the axes, provided that the permanent loads are
on the beam and no permanent point load acts upwards.  Otherwise: `C131_uplift_violation`. -/
theorem C131_view_partial {b : BeamB ℝ} (hb : b.Proper) {static : List (Row ℝ)} {kf : List (Option ℝ)}
    {us : UnitSystem} {v : Vehicle ℝ} {pos : ℝ} {out : Axes} {t : DrawnLoads ℝ}
    (h : drawDeck b static kf us v pos = .ok out)
    (ht : inferLoads { b.toDef with LM := static } = .ok t)
    (hEI : ∀ m ∈ b.toDef.members, ∀ x, 0 ≤ x → x ≤ m.L → 0 ≤ m.EI.eval x)
    (hd : ∀ d ∈ t.dist, 0 ≤ d.x0 ∧ d.x0 ≤ d.x1 ∧ d.x1 ≤ b.lens.sum)
    (hp : ∀ p ∈ t.points, 0 ≤ p.x ∧ p.x ≤ b.lens.sum ∧ 0 ≤ p.v)
    (hm : ∀ p ∈ t.moments, 0 ≤ p.x ∧ p.x ≤ b.lens.sum) :
    ∀ g ∈ out.glyphs, g.ink ⊆ out.view := by
  obtain ⟨ax, hax, hne, rfl⟩ := drawDeck_ok h
  obtain ⟨ss, t', part, hss, ht', hL, hpart, -, rfl⟩ := renderMpl_ok hax
  obtain rfl : t' = t := Except.ok.inj (ht'.symm.trans ht)
  obtain ⟨hsx, -⟩ := inferSupports_mem hss
  have hlen : b.toDef.members.length = b.lens.length := toDef_length hb.inStep
  have hnX : b.toDef.nodeX b.toDef.members.length = b.lens.sum := by
    rw [toDef_nodeX hb.inStep, hlen, List.take_length]
  have hbl : b.length = b.lens.sum := hb.inStep.length
  have hpos : ∀ m ∈ b.toDef.members, 0 < m.L := by
    intro m hm
    obtain ⟨i, hi, rfl⟩ := List.mem_iff_getElem.1 hm
    have hi' : i < b.lens.length := by omega
    have : (b.toDef.members[i]).L = b.lens[i] := zipMembers_L _ _ _ _ i _ hi'
    rw [this]
    exact hb.pos _ (List.getElem_mem _)
  rw [hnX] at hL
  have hrange := b.toDef.nodeX_range hpos
  rw [hbl]
  unfold Axes.view
  dsimp only
  set L := b.lens.sum with hLdef
  set xs := v.coords.map fun c => pos - c with hxs
  have hxb : ∀ x ∈ xs, minOf xs ≤ x ∧ x ≤ maxOf xs := fun x hx => ⟨minOf_le hx, le_maxOf hx⟩
  have hlh : minOf xs ≤ maxOf xs := by
    have : xs ≠ [] := by
      rw [hxs]
      intro e
      exact hne (List.map_eq_nil_iff.1 e)
    exact (hxb _ (List.head_mem this)).1.trans (hxb _ (List.head_mem this)).2
  set X0 := min (-(6 / 100) * L) (minOf xs - 8 / 10 * (5 / 100 * L)) with hX0
  set X1 := max (106 / 100 * L) (maxOf xs + 6 / 10 * (5 / 100 * L) + 24 / 10 * (5 / 100 * L)) with hX1
  have x0a : X0 ≤ -(6 / 100) * L := min_le_left _ _
  have x0b : X0 ≤ minOf xs - 8 / 10 * (5 / 100 * L) := min_le_right _ _
  have x1a : 106 / 100 * L ≤ X1 := le_max_left _ _
  have x1b : maxOf xs + 6 / 10 * (5 / 100 * L) + 24 / 10 * (5 / 100 * L) ≤ X1 := le_max_right _ _
  have hY1 : 2 * (30 / 100 * (5 / 100 * L)) + 11 / 10 * (5 / 100 * L) + 5 / 100 * L + 15 / 10 * (5 / 100 * L)
      = 21 / 100 * L := by ring
  rw [hY1]
  have hsh : 0 < 5 / 100 * L := by positivity
  intro g hg
  change Fits X0 X1 (-(19 / 10) * (5 / 100 * L)) (21 / 100 * L) g
  rcases List.mem_append.1 hg with hg | hg
  · unfold mplAxes at hg
    rw [hnX] at hg
    rw [hnX] at hrange
    simp only [List.mem_append] at hg
    rcases hg with ((((((hg | hg) | hg) | hg) | hg) | hg) | hg) | hg
    · have := beamGlyphs_fits hsh hpos hEI (by rw [hnX]; exact hg)
      rw [hnX] at this
      exact this.mono (by linarith) (by linarith) (by linarith) (by linarith)
    · rw [if_pos trivial] at hg
      simp only [List.mem_append] at hg
      rcases hg with (hg | hg) | hg
      · exact (foundations_fits hsh hrange hg).mono (by linarith) (by linarith) (by linarith)
          (by linarith)
      · obtain ⟨s, hs, hg⟩ := List.mem_flatMap.1 hg
        obtain ⟨e1, e2⟩ := hsx s hs
        obtain ⟨r0, r1, r2⟩ := hrange s.node
        refine (support_fits hsh hg).mono (by rw [e1]; linarith) (by rw [e1]; linarith) (by linarith) ?_
        split <;> linarith
      · obtain ⟨i, -, rfl⟩ := List.mem_map.1 hg
        obtain ⟨r0, r1, r2⟩ := hrange i
        unfold hinge
        apply disc_fits <;> (try dsimp only) <;> linarith
    · obtain ⟨d, hdm, hg⟩ := List.mem_flatMap.1 hg
      obtain ⟨d0, d1, d2⟩ := hd d hdm
      exact (dist_fits (Y0 := -(19 / 10) * (5 / 100 * L)) (Y1 := 21 / 100 * L) hL (wmax_ge hdm).1
        (wmax_ge hdm).2 d0 d1 d2 (by linarith) (by linarith) (fun _ => by linarith)
        (fun _ => by linarith) hg).mono (by linarith) (by linarith) le_rfl le_rfl
    · obtain ⟨p, hpm, hg⟩ := List.mem_flatMap.1 hg
      obtain ⟨d0, d1, d2⟩ := hp p hpm
      have hge := pmax_ge hpm
      have hlen := pointLen_pos hL hge
      refine (pointGlyphs_fits (Y0 := -(19 / 10) * (5 / 100 * L)) (Y1 := 21 / 100 * L) hsh d0 d1
        (by linarith) (by linarith) hlen ?_ (fun hn => absurd d2 (not_le.2 hn)) hg).mono
        (by linarith) (by linarith) le_rfl le_rfl
      intro _
      have : pointLen L ((t'.points.map fun p => |p.v|).foldl max 0) p.v ≤ 16 / 100 * L := by
        unfold pointLen
        generalize (t'.points.map fun p => |p.v|).foldl max 0 = pm at hge
        split
        · rename_i hpm0
          have hp0 : 0 < pm := lt_of_le_of_ne ((abs_nonneg _).trans hge) (Ne.symm hpm0)
          have : 45 / 100 * |p.v| / pm ≤ 45 / 100 := by
            rw [div_le_iff₀ hp0]
            linarith
          nlinarith
        · linarith
      linarith
    · obtain ⟨m, hmm, hg⟩ := List.mem_flatMap.1 hg
      obtain ⟨d0, d1⟩ := hm m hmm
      exact (momentGlyphs_fits (Y0 := -(19 / 10) * (5 / 100 * L)) (Y1 := 21 / 100 * L) (by positivity)
        hsh d0 d1 (by linarith) (by linarith) (by linarith) (by linarith) hg).mono (by linarith)
        (by linarith) le_rfl le_rfl
    · split at hg
      · obtain ⟨s, hs, rfl⟩ := List.mem_map.1 hg
        obtain ⟨e1, -⟩ := hsx s hs
        obtain ⟨r0, r1, r2⟩ := hrange s.node
        refine point_fits ?_ ⟨by linarith, by linarith⟩
        rw [e1]
        split <;> constructor <;> linarith
      · cases hg
    · rw [if_neg (by decide)] at hg
      cases hg
    · split at hg
      · obtain ⟨d, hdp, hg⟩ := List.mem_flatMap.1 hg
        obtain ⟨d0, d1, d2⟩ := hd d (hpart d hdp)
        unfold extent at hg
        simp only [List.mem_cons, List.not_mem_nil, or_false] at hg
        rcases hg with rfl | rfl | rfl | rfl
        · apply segment_fits <;> (try dsimp only) <;> constructor <;> linarith
        · apply line2_fits <;> constructor <;> linarith
        · apply line2_fits <;> constructor <;> linarith
        · apply point_fits <;> constructor <;> linarith
      · cases hg
  · unfold truckGlyphs at hg
    simp only [List.mem_cons, List.mem_append, List.not_mem_nil, or_false] at hg
    rcases hg with rfl | rfl | (hg | hg) | rfl
    · apply fill_fits
      intro p hp
      simp only [List.mem_cons, List.not_mem_nil, or_false] at hp
      rcases hp with rfl | rfl | rfl | rfl <;>
        exact ⟨⟨by dsimp only; linarith, by dsimp only; linarith⟩, by dsimp only; linarith,
          by dsimp only; linarith⟩
    · apply fill_fits
      intro p hp
      simp only [List.mem_cons, List.not_mem_nil, or_false] at hp
      rcases hp with rfl | rfl | rfl | rfl <;>
        exact ⟨⟨by dsimp only; linarith, by dsimp only; linarith⟩, by dsimp only; linarith,
          by dsimp only; linarith⟩
    · obtain ⟨x, hx, hg⟩ := List.mem_flatMap.1 hg
      obtain ⟨b0, b1⟩ := hxb x hx
      simp only [List.mem_cons, List.not_mem_nil, or_false] at hg
      rcases hg with rfl | rfl <;> apply disc_fits <;> (try dsimp only) <;> linarith
    · obtain ⟨x, hx, rfl⟩ := List.mem_map.1 hg
      obtain ⟨b0, b1⟩ := hxb x (List.mem_filter.1 hx).1
      apply segment_fits <;> (try dsimp only) <;> constructor <;> linarith
    · apply segment_fits <;> (try dsimp only) <;> constructor <;> linarith

/-- **C131**, view, is false of every upward permanent point load: its value is placed below the
axes. -/
theorem C131_uplift_violation {b : BeamB ℝ} (hb : b.Proper) {static : List (Row ℝ)}
    {kf : List (Option ℝ)} {us : UnitSystem} {v : Vehicle ℝ} {pos : ℝ} {out : Axes} {t : DrawnLoads ℝ}
    (h : drawDeck b static kf us v pos = .ok out)
    (ht : inferLoads { b.toDef with LM := static } = .ok t) {p : DrawnPoint ℝ} (hp : p ∈ t.points)
    (hv : p.v < 0) : ∃ q, .text q [|p.v|] us.force ∈ out.glyphs ∧ q.1 = p.x ∧ q ∉ out.view := by
  obtain ⟨ax, hax, hne, rfl⟩ := drawDeck_ok h
  obtain ⟨ss, t', part, hss, ht', hL, hpart, -, rfl⟩ := renderMpl_ok hax
  obtain rfl : t' = t := Except.ok.inj (ht'.symm.trans ht)
  have hnX : b.toDef.nodeX b.toDef.members.length = b.length := by
    rw [toDef_nodeX hb.inStep, toDef_length hb.inStep, List.take_length, hb.inStep.length]
  have hst : static ≠ [] := by
    rintro rfl
    have : t' = ⟨[], [], [], []⟩ := Except.ok.inj (ht.symm.trans rfl)
    rw [this] at hp
    cases hp
  have hge := pmax_ge hp
  have hmem : Glyph.text (p.x, (if 0 ≤ p.v then pointLen (b.toDef.nodeX b.toDef.members.length)
        ((t'.points.map fun p => |p.v|).foldl max 0) p.v
      else -pointLen (b.toDef.nodeX b.toDef.members.length) ((t'.points.map fun p => |p.v|).foldl max 0) p.v)
      + if 0 ≤ p.v then 3 / 10 * (5 / 100 * b.toDef.nodeX b.toDef.members.length)
        else -(3 / 10) * (5 / 100 * b.toDef.nodeX b.toDef.members.length)) [|p.v|] us.force ∈
      (mplAxes b.toDef kf us { labels := true, loadValues := decide (static ≠ []) } ss t' part).glyphs := by
    apply glyph_point hp
    unfold point
    dsimp only
    rw [if_pos (decide_eq_true hst)]
    exact List.mem_cons_of_mem _ List.mem_cons_self
  refine ⟨_, List.mem_append_left _ hmem, rfl, ?_⟩
  · intro hq
    have h1 := hq.2.1
    dsimp only at h1
    rw [if_neg (not_le.2 hv), if_neg (not_le.2 hv), hnX] at h1
    rw [hnX] at hL
    have : 55 / 100 * (16 / 100 * b.length) ≤ pointLen b.length ((t'.points.map fun p => |p.v|).foldl max 0) p.v := by
      unfold pointLen
      have hpp : 0 < (t'.points.map fun p => |p.v|).foldl max 0 := lt_of_lt_of_le (abs_pos.2 hv.ne) hge
      rw [if_pos hpp.ne']
      have q0 : 0 ≤ 45 / 100 * |p.v| / (t'.points.map fun p => |p.v|).foldl max 0 := by positivity
      nlinarith
    linarith

/-- The drawing completes for every beam with restraints at all nodes, permanent loads on its
spans and a vehicle with axles. -/
theorem C131_completes {b : BeamB ℝ} (hb : b.Proper) (static : List (Row ℝ)) (kf : List (Option ℝ))
    (us : UnitSystem) (v : Vehicle ℝ) (hv : v.coords ≠ []) (pos : ℝ) (ls : List (SpanLoad ℝ))
    (hls : parseLM static = .ok ls) (hres : 2 * b.lens.length + 2 ≤ b.restraints.length)
    (hsp : ∀ l ∈ ls, 0 ≤ l.iSpan ∧ l.iSpan < b.lens.length) :
    ∃ out t, drawDeck b static kf us v pos = .ok out ∧ inferLoads { b.toDef with LM := static } = .ok t ∧
      t.dist = ls.flatMap (fun l => (drawOne { b.toDef with LM := static } l).dist) ∧
      t.points = ls.flatMap (fun l => (drawOne { b.toDef with LM := static } l).points) ∧
      t.moments = ls.flatMap (fun l => (drawOne { b.toDef with LM := static } l).moments) := by
  have hlen := toDef_length hb.inStep
  have hnX : 0 < b.toDef.nodeX b.toDef.members.length := by
    rw [toDef_nodeX hb.inStep, hlen, List.take_length]
    exact List.sum_pos _ hb.pos hb.nonempty
  obtain ⟨ax, t, h1, h2, h3⟩ := C125_completes b.toDef static kf us
    { labels := true, loadValues := decide (static ≠ []) } ls hls (by rw [hlen]; exact hres) hnX
    (by rw [hlen]; exact hsp)
  obtain ⟨out, hout⟩ : ∃ out, drawDeck b static kf us v pos = .ok out := by
    unfold drawDeck
    rw [h1]
    dsimp only
    rw [if_neg fun e => hv (List.map_eq_nil_iff.1 e)]
    exact ⟨_, rfl⟩
  exact ⟨out, t, hout, h2, h3⟩

-- C131: the two spans of `exMB`, with permanent loads, and a vehicle with its rear axle off the deck
example : ∃ (v : Vehicle ℝ) (out : Axes) (t : DrawnLoads ℝ), exMB.Proper ∧ v.coords.length = v.axw.length ∧
    drawDeck exMB [⟨1, 1, [4]⟩, ⟨2, 2, [5, 1]⟩] [] UnitSystem.SI v 1 = .ok out ∧
    inferLoads { exMB.toDef with LM := [⟨1, 1, [4]⟩, ⟨2, 2, [5, 1]⟩] } = .ok t ∧ t.dist ≠ [] ∧ t.points ≠ [] ∧
    ∀ g ∈ out.glyphs, g.ink ⊆ out.view := by
  obtain ⟨v, hv⟩ : ∃ v : Vehicle ℝ, v = ⟨[3], [1, 2], 3, 3, 2, [0, 3]⟩ := ⟨_, rfl⟩
  have hls : parseLM [⟨1, 1, [4]⟩, ⟨2, 2, [5, 1]⟩] = .ok [(⟨0, .udl 4⟩ : SpanLoad ℝ), ⟨1, .pl 5 1⟩] := by
    simp [parseLM, parseRow]
  obtain ⟨out, t, h1, h2, h3, h4, h5⟩ := C131_completes exMB_forIL.proper _ [] UnitSystem.SI v
    (by rw [hv]; simp) 1 _ hls (by simp [exMB]) (by
      intro l hl
      simp only [List.mem_cons, List.not_mem_nil, or_false] at hl
      rcases hl with rfl | rfl <;> simp [exMB])
  have hd : t.dist = [⟨0, 0, 2, 4, 4⟩] := by
    rw [h3]; simp [drawOne, drawLoad, exMB, BeamB.toDef, zipMembers, BeamDef.nodeX]
  have hp : t.points = [⟨1, 3, 5⟩] := by
    rw [h4]; simp [drawOne, drawLoad, exMB, BeamB.toDef, zipMembers, BeamDef.nodeX]; norm_num
  have hm : t.moments = [] := by
    rw [h5]; simp [drawOne, drawLoad, exMB, BeamB.toDef, zipMembers, BeamDef.nodeX]
  refine ⟨v, out, t, exMB_forIL.proper, by rw [hv]; rfl, h1, h2, by rw [hd]; simp, by rw [hp]; simp, ?_⟩
  refine C131_view_partial exMB_forIL.proper h1 h2 ?_ ?_ ?_ ?_
  · intro m hm x _ _
    simp only [exMB, BeamB.toDef, zipMembers, List.mem_cons, List.not_mem_nil, or_false] at hm
    rcases hm with rfl | rfl <;> simp [Rigidity.eval]
  · rw [hd]
    simp [exMB]
  · rw [hp]
    simp [exMB]
  · rw [hm]
    simp

-- C131: an upward permanent load
example : ∃ (v : Vehicle ℝ) (out : Axes) (q : ℝ × ℝ),
    drawDeck exMB [⟨2, 2, [-5, 1]⟩] [] UnitSystem.SI v 1 = .ok out ∧
    .text q [5] UnitSystem.SI.force ∈ out.glyphs ∧ q ∉ out.view := by
  obtain ⟨v, hv⟩ : ∃ v : Vehicle ℝ, v = ⟨[3], [1, 2], 3, 3, 2, [0, 3]⟩ := ⟨_, rfl⟩
  have hls : parseLM [⟨2, 2, [-5, 1]⟩] = .ok [(⟨1, .pl (-5) 1⟩ : SpanLoad ℝ)] := by
    simp [parseLM, parseRow]
  obtain ⟨out, t, h1, h2, h3, h4, h5⟩ := C131_completes exMB_forIL.proper _ [] UnitSystem.SI v
    (by rw [hv]; simp) 1 _ hls (by simp [exMB]) (by
      intro l hl
      simp only [List.mem_cons, List.not_mem_nil, or_false] at hl
      rcases hl with rfl; simp [exMB])
  have hp : t.points = [⟨1, 3, -5⟩] := by
    rw [h4]; simp [drawOne, drawLoad, exMB, BeamB.toDef, zipMembers, BeamDef.nodeX]; norm_num
  obtain ⟨q, g1, -, g3⟩ := C131_uplift_violation exMB_forIL.proper h1 h2 (p := ⟨1, 3, -5⟩) (by rw [hp]; simp)
    (by norm_num)
  refine ⟨v, out, q, h1, ?_, g3⟩
  simpa using g1

end PyCBA
