import Verif.Render.Reactions
import Verif.Render.Loads
import Verif.Units.Model
import Verif.Section.Model
import Verif.Bridge.Model
import Mathlib.Analysis.SpecialFunctions.Pow.Real
import Mathlib.Analysis.SpecialFunctions.Log.Base

/-!
Model of the matplotlib drawing of `src/pycba/render.py`: `render_mpl` (288-442),
`render_reactions_mpl` (444-516), `_ei_depth_profile` (518-549), the support symbols (552-707),
the load symbols (710-834) and the dimensions (836-879).  Decimal constants are exact numbers;
line widths, colours, stacking, fonts and the sizes of texts and arrow heads of `annotate` are
not modelled.
-/

namespace PyCBA

/-- What is put on the axes: `ax.plot` (a line through points), `Polygon` or `fill_between`
(by its corners), `Circle`, `Wedge` (the lower half of a disc), `Arc` (angles in degrees),
`ax.annotate` with an arrow (by its head and its tail) or with a dimension line, and `ax.text`
with the numbers and the unit it shows, or with the letter of a node. -/
inductive Glyph where
  | line (pts : List (ℝ × ℝ))
  | fill (pts : List (ℝ × ℝ))
  | disc (c : ℝ × ℝ) (r : ℝ)
  | halfDisc (c : ℝ × ℝ) (r : ℝ)
  | arc (c : ℝ × ℝ) (r th1 th2 : ℝ)
  | arrow (head tail : ℝ × ℝ)
  | dim (a b : ℝ × ℝ)
  | text (p : ℝ × ℝ) (vals : List ℝ) (unit : String)
  | letter (p : ℝ × ℝ) (c : Char)

/-- The axes: what is drawn on them, and their limits. -/
structure Axes where
  glyphs : List Glyph
  xlo : ℝ
  xhi : ℝ
  ylo : ℝ
  yhi : ℝ

namespace Mpl

/-- `np.radians`. -/
noncomputable def radians (d : ℝ) : ℝ := d * Real.pi / 180

/-! ### Supports -/

/-- `_ground_mpl`, `render.py` 684-689 (six hatches). -/
noncomputable def ground (xc ytop width : ℝ) : List Glyph :=
  let hs := width * (16 / 100)
  .line [(xc - width / 2, ytop), (xc + width / 2, ytop)] ::
    (linspaceN (xc - width / 2) (xc + width / 2 - width / 6) 6).map fun xi =>
      .line [(xi, ytop), (xi + hs, ytop - hs)]

/-- `_spring_mpl`, `render.py` 691-702. -/
noncomputable def spring (xc sh : ℝ) : List Glyph :=
  [.line ((linspaceN 0 (-(95 / 100) * sh) 13).zipIdx.map fun p =>
      (if p.2 = 0 ∨ p.2 = 12 then xc
        else xc + (if p.2 % 2 = 1 then 22 / 100 * sh else -(22 / 100) * sh), p.1)),
    .line [(xc, -(95 / 100) * sh), (xc, -(12 / 10) * sh)]]

/-- `_pin_marker_mpl`, `render.py` 648-659. -/
noncomputable def pinMarker (x sh : ℝ) (atEnd : Bool) : Glyph :=
  if atEnd then .disc (x, 0) (17 / 100 * sh) else .halfDisc (x, 0) (17 / 100 * sh)

/-- `_rot_spring_mpl`, `render.py` 637-646. -/
noncomputable def rotSpring (x sh : ℝ) : List Glyph :=
  let cy := 48 / 100 * sh
  [.line [(x, 0), (x, cy - 30 / 100 * sh)],
    .line ((linspaceN 0 (3 * 2 * Real.pi) 220).map fun t =>
      let r := 3 / 100 * sh + 30 / 100 * sh * (t / (3 * 2 * Real.pi))
      (x + r * Real.cos t, cy + r * Real.sin t))]

/-- `_draw_support_mpl`, `render.py` 552-635. -/
noncomputable def support (s : DrawnSup ℝ) (sh : ℝ) : List Glyph :=
  let x := s.x
  let atEnd := s.atLeft || s.atRight
  let top := if atEnd then 0 else -(20 / 100) * sh
  match s.kind with
  | .pin =>
    .fill [(x, top), (x - 5 / 10 * sh, top - sh), (x + 5 / 10 * sh, top - sh)] ::
      (ground x (top - sh) (15 / 10 * sh) ++ [pinMarker x sh atEnd]
        ++ if s.rotSpring then rotSpring x sh else [])
  | .roller =>
    .fill [(x, top), (x - 5 / 10 * sh, top - 7 / 10 * sh), (x + 5 / 10 * sh, top - 7 / 10 * sh)] ::
      .disc (x + -(27 / 100) * sh, top - 86 / 100 * sh) (15 / 100 * sh) ::
      .disc (x + 27 / 100 * sh, top - 86 / 100 * sh) (15 / 100 * sh) ::
      (ground x (top - 102 / 100 * sh) (15 / 10 * sh) ++ [pinMarker x sh atEnd]
        ++ if s.rotSpring then rotSpring x sh else [])
  | .fixed =>
    let side : ℝ := if s.atRight then 1 else -1
    .line [(x, -sh), (x, sh)] :: (linspaceN (-sh) sh 6).map fun yi =>
      .line [(x, yi), (x + side * (4 / 10) * sh, yi + 4 / 10 * sh)]
  | .spring | .torsion => spring x sh ++ ground x (-(12 / 10) * sh) (13 / 10 * sh)
  | .guided =>
    .line [(x - 5 / 10 * sh, -(3 / 10) * sh), (x + 5 / 10 * sh, -(3 / 10) * sh)] ::
      .line [(x - 5 / 10 * sh, -(6 / 10) * sh), (x + 5 / 10 * sh, -(6 / 10) * sh)] ::
      ground x (-(6 / 10) * sh) (13 / 10 * sh)

/-- `np.clip(round(v), lo, hi)`, as a count. -/
noncomputable def clipRound (v : ℝ) (lo hi : ℕ) : ℕ := min (max (pyRound v).toNat lo) hi

/-- `_draw_foundations_mpl`, `render.py` 661-682; `kf` are the foundation moduli of the members. -/
noncomputable def foundations (nodeX : ℕ → ℝ) (kf : List (Option ℝ)) (sh : ℝ) : List Glyph :=
  let yg := -(125 / 100) * sh
  let hs := 16 / 100 * sh
  kf.zipIdx.flatMap fun p => match p.1 with
    | none => []
    | some _ =>
      let x0 := nodeX p.2
      let x1 := nodeX (p.2 + 1)
      let n := clipRound ((x1 - x0) / (14 / 10 * sh)) 3 18
      let nh := clipRound ((x1 - x0) / (45 / 100 * sh)) 6 80
      (linspaceN x0 x1 n).flatMap (fun xc => spring xc sh)
        ++ .line [(x0, yg), (x1, yg)] ::
          (linspaceN x0 (x1 - (x1 - x0) / nh) nh).map fun xi => .line [(xi, yg), (xi + hs, yg - hs)]

/-- `_draw_hinge_mpl`, `render.py` 704-707. -/
noncomputable def hinge (x sh : ℝ) : Glyph := .disc (x, 0) (18 / 100 * sh)

/-! ### Loads -/

/-- The length of the arrow of a point load, `render.py` 711 and 409. -/
noncomputable def pointLen (L pmax P : ℝ) : ℝ :=
  16 / 100 * L * (if pmax ≠ 0 then 55 / 100 + 45 / 100 * |P| / pmax else 1)

/-- `_draw_point_mpl`, `render.py` 710-731. -/
noncomputable def point (L sh pmax : ℝ) (unit : String) (showVal : Bool) (p : DrawnPoint ℝ) :
    List Glyph :=
  let len := pointLen L pmax p.v
  let tail := if 0 ≤ p.v then len else -len
  .arrow (p.x, 0) (p.x, tail) ::
    if showVal then [.text (p.x, tail + if 0 ≤ p.v then 3 / 10 * sh else -(3 / 10) * sh) [|p.v|] unit]
    else []

/-- `height` in `_draw_dist_mpl`, `render.py` 738-741. -/
noncomputable def distHeight (L wmax w : ℝ) : ℝ :=
  if wmax = 0 then 0
  else (SignType.sign w : ℝ) * (7 / 100 * L) * (35 / 100 + 65 / 100 * |w| / wmax)

/-- The number of intervals between the arrows, `render.py` 756. -/
noncomputable def distCount (L x0 x1 : ℝ) : ℕ :=
  if x0 < x1 then max 2 ⌊(x1 - x0) / (6 / 100 * L)⌋₊ else 2

/-- The height drawn at `x`, `render.py` 758. -/
noncomputable def distAt (L wmax : ℝ) (d : DrawnDist ℝ) (x : ℝ) : ℝ :=
  if d.x1 = d.x0 then distHeight L wmax d.w0
  else distHeight L wmax d.w0
    + (distHeight L wmax d.w1 - distHeight L wmax d.w0) * (x - d.x0) / (d.x1 - d.x0)

/-- `_draw_dist_mpl`, `render.py` 733-786. -/
noncomputable def distGlyphs (L wmax : ℝ) (unit : String) (showVal : Bool) (d : DrawnDist ℝ) :
    List Glyph :=
  let h0 := distHeight L wmax d.w0
  let h1 := distHeight L wmax d.w1
  .line [(d.x0, h0), (d.x1, h1)] :: .fill [(d.x0, 0), (d.x0, h0), (d.x1, h1), (d.x1, 0)] ::
    (((linspaceN d.x0 d.x1 (distCount L d.x0 d.x1 + 1)).filter fun xi =>
        ¬ |distAt L wmax d xi| < 1 / 10 ^ 9).map (fun xi => .arrow (xi, 0) (xi, distAt L wmax d xi))
      ++ if showVal then
          [.text (5 / 10 * (d.x0 + d.x1), max h0 h1 + 25 / 100 * (7 / 100 * L))
            (if |d.w0 - d.w1| < 1 / 10 ^ 9 ∨ |d.w1| = |d.w0| then [|d.w0|] else [|d.w0|, |d.w1|]) unit]
        else [])

/-- `_draw_moment_mpl`, `render.py` 788-834. -/
noncomputable def moment (r sh : ℝ) (unit : String) (showVal : Bool) (m : DrawnPoint ℝ) :
    List Glyph :=
  let x := m.x
  let th1 : ℝ := -50
  let th2 : ℝ := 230
  let ccw : Bool := 0 ≤ m.v
  let a := radians (if ccw then th2 else th1)
  let tip := (x + r * Real.cos a, r * Real.sin a)
  let tang := a + if ccw then Real.pi / 2 else -(Real.pi / 2)
  let back := tang + Real.pi
  let size := 5 / 10 * sh
  let p2 := (tip.1 + size * Real.cos (back + radians 22), tip.2 + size * Real.sin (back + radians 22))
  let p3 := (tip.1 + size * Real.cos (back - radians 22), tip.2 + size * Real.sin (back - radians 22))
  .line [(x, -(22 / 100) * sh), (x, 22 / 100 * sh)] :: .arc (x, 0) r th1 th2 :: .fill [tip, p2, p3] ::
    if showVal then [.text (x, r + 5 / 10 * sh) [|m.v|] unit] else []

/-! ### Dimensions -/

/-- `_draw_dimensions_mpl`, `render.py` 836-856, of one span.  The unit is a fixed "m". -/
noncomputable def dimension (sh x0 x1 : ℝ) : List Glyph :=
  let yd := -(23 / 10) * sh
  .dim (x0, yd) (x1, yd) :: .line [(x0, yd + 3 / 10 * sh), (x0, yd - 3 / 10 * sh)] ::
    .line [(x1, yd + 3 / 10 * sh), (x1, yd - 3 / 10 * sh)] ::
    [.text (5 / 10 * (x0 + x1), yd - 15 / 100 * sh) [x1 - x0] "m"]

/-- `_draw_load_extent_mpl`, `render.py` 858-879. -/
noncomputable def extent (sh : ℝ) (d : DrawnDist ℝ) : List Glyph :=
  let yd := -(155 / 100) * sh
  .dim (d.x0, yd) (d.x1, yd) :: .line [(d.x0, yd + 22 / 100 * sh), (d.x0, yd - 22 / 100 * sh)] ::
    .line [(d.x1, yd + 22 / 100 * sh), (d.x1, yd - 22 / 100 * sh)] ::
    [.text (5 / 10 * (d.x0 + d.x1), yd - 12 / 100 * sh) [d.x1 - d.x0] "m"]

/-- `_is_partial_dist`, `render.py` 277-283. -/
noncomputable def isPartial (b : BeamDef ℝ) (L : ℝ) (d : DrawnDist ℝ) : Except PyErr Bool :=
  let eps := 1 / 10 ^ 6 * max L 1
  match nodeAt b d.iSpan with
  | .error e => .error e
  | .ok s => match nodeAt b (d.iSpan + 1) with
    | .error e => .error e
    | .ok e => .ok (s.2 + eps < d.x0 ∨ d.x1 < e.2 - eps)

/-! ### The elevation of a non-prismatic beam -/

/-- The stations of a member and the rigidities there, `render.py` 534-542. -/
noncomputable def eiStations (off : ℝ) (m : Member ℝ) : List (ℝ × ℝ) :=
  match m.EI with
  | .section s => (linspaceN 0 m.L 41).map fun x => (off + x, s.eval x)
  | .const e => [(off + 0, e), (off + m.L, e)]

/-- The stations of the beam and the rigidities there. -/
noncomputable def eiValues (b : BeamDef ℝ) : List (ℝ × ℝ) :=
  b.members.zipIdx.flatMap fun p => eiStations (b.nodeX p.2) p.1

/-- The greatest and the least entry of a list. -/
noncomputable def maxOf (l : List ℝ) : ℝ := l.foldl max (l.headD 0)
noncomputable def minOf (l : List ℝ) : ℝ := l.foldl min (l.headD 0)

/-- `_ei_depth_profile`, `render.py` 518-549: stations and half depths. -/
noncomputable def eiProfile (b : BeamDef ℝ) (sh : ℝ) : Option (List (ℝ × ℝ)) :=
  let vals := (eiValues b).map Prod.snd
  let vmax := maxOf vals
  if vals = [] ∨ vmax ≤ 0 ∨ vmax - minOf vals ≤ 1 / 10 ^ 6 * vmax then none
  else some ((eiValues b).map fun p => (p.1, 6 / 10 * sh * (p.2 / vmax) ^ ((1 : ℝ) / 3)))

/-- The beam itself, `render.py` 347-356. -/
noncomputable def beamGlyphs (b : BeamDef ℝ) (L sh : ℝ) : List Glyph :=
  match eiProfile b sh with
  | some prof =>
    let h0 := (prof.map Prod.snd).headD 0
    let h1 := (prof.map Prod.snd).getLastD 0
    [.fill (prof.map (fun p => (p.1, -p.2)) ++ (prof.map fun p => (p.1, p.2)).reverse),
      .line prof, .line (prof.map fun p => (p.1, -p.2)),
      .line [(0, -h0), (0, h0)], .line [(L, -h1), (L, h1)]]
  | none => [.line [(0, 0), (L, 0)]]

end Mpl

/-! ### The whole drawing -/

/-- The switches of `render_mpl`, `render.py` 291-298. -/
structure MplOpts where
  dimensions : Bool := false
  labels : Bool := true
  loadValues : Bool := true
  showSupports : Bool := true

open Mpl in
/-- The room above the beam, `render.py` 406-418, with the leading `0.0`. -/
noncomputable def roomAbove (L pmax : ℝ) (t : DrawnLoads ℝ) : List ℝ :=
  0 :: ((t.points.filter fun p => 0 ≤ p.v).map (fun p => pointLen L pmax p.v)
    ++ (t.dist.filter fun d => 0 ≤ d.w0 ∨ 0 ≤ d.w1).map (fun _ => 7 / 100 * L)
    ++ t.moments.map fun _ => 45 / 1000 * L)

open Mpl in
/-- The room below the beam, `render.py` 406-418. -/
noncomputable def roomBelow (L pmax : ℝ) (t : DrawnLoads ℝ) : List ℝ :=
  0 :: ((t.points.filter fun p => ¬ 0 ≤ p.v).map (fun p => pointLen L pmax p.v)
    ++ (t.dist.filter fun d => d.w0 < 0 ∨ d.w1 < 0).map (fun _ => 7 / 100 * L)
    ++ t.moments.map fun _ => 45 / 1000 * L)

open Mpl in
/-- The drawing of inferred supports `ss` and loads `t` and the limits of the axes, `render.py`
342-437; `part` are the partial distributed loads. -/
noncomputable def mplAxes (b : BeamDef ℝ) (kf : List (Option ℝ)) (us : UnitSystem) (o : MplOpts)
    (ss : List (DrawnSup ℝ)) (t : DrawnLoads ℝ) (part : List (DrawnDist ℝ)) : Axes :=
  let L := b.nodeX b.members.length
  let sh := 5 / 100 * L
  let wmax := (t.dist.map fun d => max |d.w0| |d.w1|).foldl max 0
  let pmax := (t.points.map fun p => |p.v|).foldl max 0
  let lbl := 14 / 10 * sh
  let anyLoads := t.points ≠ [] ∨ t.dist ≠ [] ∨ t.moments ≠ []
  let above := (roomAbove L pmax t).foldl max 0
  let below := (roomBelow L pmax t).foldl max 0
  let sup := if ¬ o.showSupports then -(3 / 10) * sh else if o.dimensions then -3 * sh
    else if o.loadValues ∧ part ≠ [] then -(22 / 10) * sh else -(16 / 10) * sh
  { glyphs := beamGlyphs b L sh
      ++ (if o.showSupports then foundations b.nodeX kf sh ++ ss.flatMap (fun s => support s sh)
          ++ (inferHinges b).map (fun i => hinge (b.nodeX i) sh) else [])
      ++ t.dist.flatMap (distGlyphs L wmax us.distributed o.loadValues)
      ++ t.points.flatMap (point L sh pmax us.force o.loadValues)
      ++ t.moments.flatMap (moment (45 / 1000 * L) sh us.moment o.loadValues)
      ++ (if o.labels ∧ o.showSupports then ss.map (fun s =>
          .letter (s.x + (if s.atRight then 8 / 10 * sh else -(8 / 10) * sh), -(55 / 100) * sh)
            (Char.ofNat (65 + s.node))) else [])
      ++ (if o.dimensions then (List.range b.members.length).flatMap
          (fun i => dimension sh (b.nodeX i) (b.nodeX (i + 1))) else [])
      ++ (if o.loadValues then part.flatMap (extent sh) else [])
    xlo := -(6 / 100) * L
    xhi := 106 / 100 * L
    ylo := if 1 / 10 ^ 12 < below then min sup (-(below + lbl)) else sup
    yhi := above + if anyLoads then lbl else 9 / 10 * sh }

open Mpl in
/-- `BeamPlotter.__init__` (135-147) and `render_mpl` (288-442); `LM` is the load matrix that
`_resolve_lm` (149-178) chose, `kf` the foundation moduli. -/
noncomputable def renderMpl (b : BeamDef ℝ) (LM : List (Row ℝ)) (kf : List (Option ℝ)) (us : UnitSystem)
    (o : MplOpts) : Except PyErr Axes :=
  match inferSupports b with
  | .error e => .error e
  | .ok ss => match inferLoads { b with LM := LM } with
    | .error e => .error e
    | .ok t =>
      if b.nodeX b.members.length ≤ 0 then .error .valueError
      else match mapE (isPartial b (b.nodeX b.members.length)) t.dist with
        | .error e => .error e
        | .ok flags =>
          .ok (mplAxes b kf us o ss t (((t.dist.zip flags).filter fun q => q.2).map Prod.fst))

/-! ### Reactions -/

/-- `_round_sig`, `render.py` 46-54 (four figures). -/
noncomputable def roundSig (v : ℝ) : ℝ :=
  if v = 0 then v
  else
    let k : ℤ := -⌊Real.logb 10 |v|⌋ + 3
    pyRound (v * (10 : ℝ) ^ k) / (10 : ℝ) ^ k

/-- The length of the arrow of a reaction, `render.py` 478. -/
noncomputable def reactLen (sh fvmax R : ℝ) : ℝ :=
  sh * (22 / 10 + 13 / 10 * if fvmax ≠ 0 then |R| / fvmax else 1)

open Mpl in
/-- The arrow of a vertical reaction, `render.py` 474-503. -/
noncomputable def reactGlyphs (x sh fvmax R : ℝ) (unit : String) (showVal : Bool) : List Glyph :=
  let y0 := 17 / 10 * sh
  let len := reactLen sh fvmax R
  (if 0 ≤ R then .arrow (x, -y0) (x, -y0 - len) else .arrow (x, -y0 - len) (x, -y0)) ::
    if showVal then [.text (x, -y0 - len - 3 / 10 * sh) [roundSig |R|] unit] else []

open Mpl in
/-- `render_reactions_mpl`, `render.py` 444-516, on axes drawn by `render_mpl`. -/
noncomputable def renderReactions (b : BeamDef ℝ) (us : UnitSystem) (ax : Axes)
    (vert mom : List (ℕ × ℝ)) (showVal : Bool) : Axes :=
  let sh := 5 / 100 * b.nodeX b.members.length
  let fvmax := (vert.map fun p => |p.2|).foldl max 0
  let lmax := (vert.map fun p => reactLen sh fvmax p.2).foldl max (22 / 10 * sh)
  let need := -(17 / 10 * sh + lmax + 1 * sh)
  { ax with
    glyphs := ax.glyphs
      ++ vert.flatMap (fun p => reactGlyphs (b.nodeX p.1) sh fvmax p.2 us.force showVal)
      ++ mom.flatMap fun p => moment (12 / 10 * sh) sh us.moment showVal ⟨0, b.nodeX p.1, roundSig p.2⟩
    ylo := if need < ax.ylo then need else ax.ylo }

/-- `plot_reactions`, `analysis.py` 1063-1110 (and the panel of `plot_results`, 1018-1025): the
beam is drawn without its loads. -/
noncomputable def plotReactions (b : BeamDef ℝ) (kf : List (Option ℝ)) (us : UnitSystem)
    (res : Result ℝ) : Except PyErr Axes :=
  match renderMpl b [] kf us {} with
  | .error e => .error e
  | .ok ax => match reactionsByNode b.restraints res with
    | .error e => .error e
    | .ok d => .ok (renderReactions b us ax d.1 d.2 true)

end PyCBA
