import Verif.Bridge.Animate
import Verif.Bridge.Shear
import Verif.Bridge.Loads
import Verif.Plot.Model

/-!
Model of the diagrams of `BridgeAnalysis.plot_static` (`bridge.py` 826-873) and of `plot_ratios`
(1279-1328), with C142 and the bars of C133.  The deck above the diagrams is in
`Verif/Render/Deck.lean`; colours, line widths, grids and titles are not modelled.
-/

set_option linter.unusedSectionVars false
set_option linter.unusedSimpArgs false

namespace PyCBA

variable {K : Type*} [Field K] [LinearOrder K] [IsStrictOrderedRing K]

/-! ### The model -/

/-- The two diagrams of `plot_static` and the vertical lines that both of them have. -/
structure StaticPlot (K : Type*) where
  bmd : Panel K
  sfd : Panel K
  lines : List K

/-- The drawing of given results, `bridge.py` 843-870. -/
def staticPanels (us : UnitSystem) (L : K) (v : Vehicle K) (pos : K) (r : EnvRes K) : StaticPlot K :=
  { bmd := ⟨us.momentAxis, [zeroLine L, (List.range r.npts).map fun k => (r.x k, -r.M k)], false, false, none⟩
    sfd := ⟨us.shearAxis, [zeroLine L, (List.range r.npts).map fun k => (r.x k, r.V k)], false, false,
      some us.distanceAxis⟩
    lines := (v.coords.map fun a => pos - a).filter fun x => 0 ≤ x ∧ x ≤ L }

/-- `plot_static` without axes, `bridge.py` 829-870: the analysis at this position
(`_single_analysis`, 355-359), then the drawing. -/
def plotStatic (A : Analyser K) (us : UnitSystem) (b : BeamB K) (static : List (Row K)) (v : Vehicle K)
    (pos : K) : Except PyErr (StaticPlot K) :=
  match runCase b.toDef A.stable A.solve A.npts (addLM static (axleLM b v pos)) with
  | .error e => .error e
  | .ok r => .ok (staticPanels us b.length v pos (envOf r))

/-- The two diagrams and the two bar charts of `plot_ratios`. -/
structure RatioPlot (K : Type*) where
  moment : Panel K
  shear : Panel K
  barsMax : List K
  barsMin : List K
  ticks : List String

/-- `plot_ratios`, `bridge.py` 1279-1328, of a dictionary made by `envelopes_ratios` with `npts`
stations: the key `Rmax0` is there if there is a support. -/
def plotRatios (us : UnitSystem) (npts : ℕ) (q : Ratios K) : Except PyErr (RatioPlot K) :=
  if q.nsup = 0 then .error .valueError
  else
    let L := q.x (npts - 1)
    let curve := fun f : ℕ → K => (List.range npts).map fun k => (q.x k, f k)
    .ok
      { moment := ⟨"Bending Moment Ratio", [zeroLine L, curve q.Mmax, curve q.Mmin], false, false, none⟩
        shear := ⟨"Shear Force Ratio", [zeroLine L, curve q.Vmax, curve q.Vmin], false, false,
          some us.distanceAxis⟩
        barsMax := (List.range q.nsup).map q.Rmax
        barsMin := (List.range q.nsup).map q.Rmin
        ticks := (List.range q.nsup).map fun i : ℕ => "R" ++ toString (i + 1) }

/-! ### C133: the bars -/

/-- **C133**, bars: when the envelope of some results is not of the last run's number of positions
the extremes of all reactions are drawn: the greatest and the least among the results and
zero. -/
theorem C133_bars (l : List (EnvRes K)) (env : Envelope K) (henv : Envelope.new l = .ok env) (pos : List K)
    (hp : pos.length ≠ l.length) :
    ∃ hi lo, reactPanels pos env = [.bars hi lo] ∧ hi.length = env.nsup ∧ lo.length = env.nsup ∧
      ∀ j < env.nsup, IsGreatest ({0} ∪ {y | ∃ r ∈ l, r.R j = y}) (hi.getD j 0) ∧
        IsLeast ({0} ∪ {y | ∃ r ∈ l, r.R j = y}) (lo.getD j 0) := by
  obtain ⟨hs, hn, -, -⟩ := Envelope.new_spec henv
  refine ⟨(List.range env.nsup).map env.Rmaxval, (List.range env.nsup).map env.Rminval, ?_, by simp,
    by simp, fun j hj => ?_⟩
  · unfold reactPanels
    rw [if_neg (by rw [hn]; exact hp)]
  · have g : ∀ f : ℕ → K, ((List.range env.nsup).map f).getD j 0 = f j := by
      intro f
      simp [List.getD_eq_getElem?_getD, hj]
    rw [g, g]
    exact ⟨hs.Rmaxval j, hs.Rminval j⟩

/-! ### C142 -/

/-- A curve through the values `f` at the stations of a result, in order. -/
def Along (n : ℕ) (x f : ℕ → K) (pts : List (K × K)) : Prop :=
  pts.length = n ∧ ∀ k < n, pts[k]? = some (x k, f k)

theorem along_range (n : ℕ) (x f : ℕ → K) : Along n x f ((List.range n).map fun k => (x k, f k)) := by
  refine ⟨by simp, fun k hk => ?_⟩
  simp [hk]

/-- **C142**, `plot_static`: whenever it draws, it draws the analysis with the static loads and the
axles at the position: shear through all stations with its values; moment through all stations
with sagging below the line; and dotted lines exactly at the points where the load matrix of this
position has its axles, from front to back. -/
theorem C142_static_partial (A : Analyser K) (us : UnitSystem) (b : BeamB K) (hb : b.Proper)
    (static : List (Row K)) (v : Vehicle K) (hv : v.axw.length = v.coords.length) (pos : K)
    (pl : StaticPlot K) (h : plotStatic A us b static v pos = .ok pl) :
    ∃ r m s z, runCase b.toDef A.stable A.solve A.npts (addLM static (axleLM b v pos)) = .ok r ∧
      pl.sfd.curves = [z, s] ∧ Along (envOf r).npts (envOf r).x (envOf r).V s ∧ pl.sfd.inverted = false ∧
      pl.bmd.curves = [z, m] ∧ Along (envOf r).npts (envOf r).x (fun k => -(envOf r).M k) m ∧
      (∀ p ∈ z, p.2 = 0) ∧
      List.Forall₂ (fun x row => ∃ w, Row.PointAt b.lens row w x) pl.lines (axleLM b v pos) := by
  unfold plotStatic at h
  cases hr : runCase b.toDef A.stable A.solve A.npts (addLM static (axleLM b v pos)) with
  | error e => rw [hr] at h; cases h
  | ok r =>
    rw [hr] at h
    obtain rfl := Except.ok.inj h
    refine ⟨r, _, _, _, rfl, rfl, along_range _ _ _, rfl, rfl, along_range _ _ _, ?_, ?_⟩
    · intro p hp
      simp only [zeroLine, List.mem_cons, List.not_mem_nil, or_false] at hp
      rcases hp with rfl | rfl <;> rfl
    · have h54 := C54_axles b hb v pos
      have hlen : b.length = b.lens.sum := hb.inStep.length
      have e : (staticPanels us b.length v pos (envOf r)).lines =
          (v.axles.filter fun cw => 0 ≤ pos - cw.1 ∧ pos - cw.1 ≤ b.lens.sum).map fun cw => pos - cw.1 := by
        unfold staticPanels
        dsimp only
        rw [hlen]
        have e1 : v.coords = v.axles.map Prod.fst := by
          unfold Vehicle.axles
          rw [List.map_fst_zip]
          omega
        rw [e1, List.map_map, List.filter_map]
        rfl
      rw [e, List.forall₂_map_left_iff]
      exact (h54.imp fun r cw hh => ⟨cw.2, hh⟩).flip

/-- **C142**, `plot_ratios`: for a beam with supports the ratios that `envelopes_ratios` reports are
drawn: those of moment and shear through all stations, those of reactions as one bar for each,
numbered from one. -/
theorem C142_ratios_partial (us : UnitSystem) (t r : Envelope K) (q : Ratios K)
    (hq : envelopesRatios t r = .ok q) (hs : 0 < r.nsup) :
    ∃ pl z m m' s s', plotRatios us r.npts q = .ok pl ∧
      pl.moment.curves = [z, m, m'] ∧ pl.shear.curves = [z, s, s'] ∧
      Along r.npts r.x q.Mmax m ∧ Along r.npts r.x q.Mmin m' ∧ Along r.npts r.x q.Vmax s ∧
      Along r.npts r.x q.Vmin s' ∧ pl.moment.inverted = false ∧ pl.shear.inverted = false ∧
      pl.barsMax.length = r.nsup ∧ pl.barsMin.length = r.nsup ∧
      ∀ j < r.nsup, pl.barsMax[j]? = some (q.Rmax j) ∧ pl.barsMin[j]? = some (q.Rmin j) ∧
        pl.ticks[j]? = some ("R" ++ toString (j + 1)) := by
  obtain ⟨-, h⟩ := C90_ratios t r
  obtain ⟨h1, h2, -⟩ := h q hq
  have hx : q.x = r.x := funext fun i => (h1 i).1
  unfold plotRatios
  rw [if_neg (by omega)]
  refine ⟨_, _, _, _, _, _, rfl, rfl, rfl, ?_, ?_, ?_, ?_, rfl, rfl, by simp [h2], by simp [h2], ?_⟩
  · rw [hx]; exact along_range _ _ _
  · rw [hx]; exact along_range _ _ _
  · rw [hx]; exact along_range _ _ _
  · rw [hx]; exact along_range _ _ _
  · intro j hj
    rw [h2]
    simp [hj]

/-! ### Cases -/

/-- A static unit load at midspan and one axle beside it. -/
theorem exStatic : ∃ pl r, plotStatic exRunA UnitSystem.SI exIL [⟨1, 2, [2, 1, 0]⟩]
    (⟨[1], [1, 1], 1, 2, 2, [0, 1]⟩ : Vehicle ℚ) 1 = .ok pl ∧
    runCase exIL.toDef exRunA.stable exRunA.solve exRunA.npts (addLM [⟨1, 2, [2, 1, 0]⟩]
      (axleLM exIL (⟨[1], [1, 1], 1, 2, 2, [0, 1]⟩ : Vehicle ℚ) 1)) = .ok r ∧
    (envOf r).x 3 = 1 ∧ (envOf r).M 3 = 3 / 2 ∧ pl.lines = [1, 0] ∧
    (pl.bmd.curves.getD 1 []).getD 3 (0, 0) = (1, -3 / 2) := by
  obtain ⟨q, hq, h⟩ := ok_of_map (x := match runCase exIL.toDef exRunA.stable exRunA.solve exRunA.npts
      (addLM [⟨1, 2, [2, 1, 0]⟩] (axleLM exIL (⟨[1], [1, 1], 1, 2, 2, [0, 1]⟩ : Vehicle ℚ) 1)) with
      | .error e => .error e
      | .ok r => .ok (r, staticPanels UnitSystem.SI exIL.length (⟨[1], [1, 1], 1, 2, 2, [0, 1]⟩ : Vehicle ℚ) 1
          (envOf r)))
    (f := fun q => ((envOf q.1).x 3, (envOf q.1).M 3, q.2.lines, (q.2.bmd.curves.getD 1 []).getD 3 (0, 0)))
    (y := (1, 3 / 2, [1, 0], (1, -3 / 2))) (by decide +kernel)
  split at hq
  · cases hq
  · rename_i r hr
    obtain rfl := Except.ok.inj hq
    simp only [Prod.mk.injEq] at h
    obtain ⟨h1, h2, h3, h4⟩ := h
    refine ⟨_, r, ?_, hr, h1, h2, h3, ?_⟩
    · unfold plotStatic
      rw [hr]
    · exact h4

/-- **C142 fails** for the values of moments: `plot_static` turns the sign of the moment instead of
turning the axis over (as `plot_results` does), so a sagging moment of 3/2 reads -3/2 on the axis
labelled "Bending Moment (kNm)". -/
theorem C142_sign_violation : ∃ (pl : StaticPlot ℚ) (r : Result ℚ × List (MRes ℚ)),
    plotStatic exRunA UnitSystem.SI exIL [⟨1, 2, [2, 1, 0]⟩]
      (⟨[1], [1, 1], 1, 2, 2, [0, 1]⟩ : Vehicle ℚ) 1 = .ok pl ∧
    runCase exIL.toDef exRunA.stable exRunA.solve exRunA.npts (addLM [⟨1, 2, [2, 1, 0]⟩]
      (axleLM exIL (⟨[1], [1, 1], 1, 2, 2, [0, 1]⟩ : Vehicle ℚ) 1)) = .ok r ∧
    (envOf r).x 3 = 1 ∧ (envOf r).M 3 = 3 / 2 ∧ pl.bmd.ylabel = "Bending Moment (kNm)" ∧
    pl.bmd.inverted = false ∧ (pl.bmd.curves.getD 1 []).getD 3 (0, 0) = (1, -3 / 2) := by
  obtain ⟨pl, r, h1, h2, h3, h4, -, h6⟩ := exStatic
  have h1' := h1
  unfold plotStatic at h1'
  rw [h2] at h1'
  obtain rfl := Except.ok.inj h1'
  exact ⟨_, r, h1, h2, h3, h4, rfl, rfl, h6⟩

-- the hypotheses of `C142_static_partial` hold there
example : exIL.Proper ∧ (⟨[1], [1, 1], 1, 2, 2, [0, 1]⟩ : Vehicle ℚ).axw.length
    = (⟨[1], [1, 1], 1, 2, 2, [0, 1]⟩ : Vehicle ℚ).coords.length :=
  ⟨exIL_forIL.1, rfl⟩

/-- A beam on two springs. -/
def exSprung : BeamB ℚ := { exIL with restraints := [1, 0, 1, 0] }

/-- Its analyser, with the displacements for the load at midspan. -/
def exSprungA : Analyser ℚ :=
  ⟨fun _ => true, listSolver [fun p => [-1 / 2, -1 / 24, -1 / 2, 1 / 24].getD p 0], 4⟩

/-- **C142 fails** for beams that stand on springs or soil only: `envelopes_ratios` compares their
envelopes, but `plot_ratios` calls the result insufficient, because it asks for the key `Rmax0`. -/
theorem C142_sprung_violation : ∃ (ps : List ℚ) (rs : List (Result ℚ × List (MRes ℚ))) (e : Envelope ℚ)
    (q : Ratios ℚ), exSprungA.solve.Sound ∧
    runVehicle exSprungA exSprung [] (⟨[], [1], 0, 1, 1, [0]⟩ : Vehicle ℚ) 1 (some 1) (some 1)
      = .ok (ps, rs, e) ∧ envelopesRatios e e = .ok q ∧ e.Mmax 3 = 1 / 2 ∧ q.Mmax 3 = 1 ∧
    plotRatios UnitSystem.SI e.npts q = .error .valueError := by
  obtain ⟨q, hq, h⟩ := ok_of_map (x := runVehicle exSprungA exSprung []
      (⟨[], [1], 0, 1, 1, [0]⟩ : Vehicle ℚ) 1 (some 1) (some 1))
    (f := fun q => (q.2.2.nsup, q.2.2.Mmax 3)) (y := (0, 1 / 2)) (by decide +kernel)
  obtain ⟨ps, rs, e⟩ := q
  simp only [Prod.mk.injEq] at h
  obtain ⟨q, hq'⟩ := (C90_ratios e e).1.2 ⟨rfl, rfl⟩
  have hh := (C90_ratios e e).2 q hq'
  refine ⟨ps, rs, e, q, listSolver_sound _, hq, hq', h.2, ?_, ?_⟩
  · have := (hh.1 3).2.1
    unfold envelopesRatios at hq'
    rw [if_neg (by simp)] at hq'
    obtain rfl := Except.ok.inj hq'
    dsimp only
    rw [h.2]
    unfold getRatio
    norm_num
  · unfold plotRatios
    rw [if_pos (by rw [hh.2.1, h.1])]

-- C142, ratios and C133, bars: an envelope of a beam with two supports, over other positions
example : ∃ (ps : List ℚ) (rs : List (Result ℚ × List (MRes ℚ))) (e : Envelope ℚ) (q : Ratios ℚ),
    runVehicle exRunA exIL [⟨1, 2, [2, 1, 0]⟩] (⟨[1], [1, 1], 1, 2, 2, [0, 1]⟩ : Vehicle ℚ) 1 none none
      = .ok (ps, rs, e) ∧ envelopesRatios e e = .ok q ∧ 0 < e.nsup ∧
    Envelope.new (rs.map envOf) = .ok e ∧ ([0] : List ℚ).length ≠ (rs.map envOf).length := by
  obtain ⟨q, hq, h⟩ := ok_of_map (x := runVehicle exRunA exIL [⟨1, 2, [2, 1, 0]⟩]
      (⟨[1], [1, 1], 1, 2, 2, [0, 1]⟩ : Vehicle ℚ) 1 none none)
    (f := fun q => (q.2.2.nsup, q.2.1.length)) (y := (2, 4)) (by decide +kernel)
  obtain ⟨ps, rs, e⟩ := q
  simp only [Prod.mk.injEq] at h
  obtain ⟨q, hq'⟩ := (C90_ratios e e).1.2 ⟨rfl, rfl⟩
  refine ⟨ps, rs, e, q, hq, hq', by rw [h.1]; norm_num, (runVehicle_ok hq).2.2.2, ?_⟩
  rw [List.length_map, h.2]
  simp

end PyCBA
