import Verif.Foundation.Curve
import Verif.Units.Model
import Verif.Envelope.Props

/-!
Model of the result plots: the choice of the backend (`plotting.py` 29-70), the plotly figures
(111-283), the matplotlib diagrams of `BeamAnalysis` (`analysis.py` 952-1016 and 1144-1184), the
plots of envelopes (`results.py` 911-1069) and the exports (345-375, 824-862).  A panel keeps the label of
its axis, its curves as lists of points, and whether its axis is turned upside down; colours, line
widths, grids, legends and hover texts are not modelled.
-/

set_option linter.unusedSectionVars false
set_option linter.unusedSimpArgs false

namespace PyCBA

/-! ### The backend -/

/-- `_BACKENDS`, `plotting.py` 29. -/
inductive Backend where
  | matplotlib
  | plotly
  deriving DecidableEq

/-- What a plotting call may raise: `ValueError`, `ModuleNotFoundError`. -/
inductive PlotErr where
  | value
  | noModule
  deriving DecidableEq

/-- Membership of a lower-case name in `_BACKENDS`. -/
def Backend.find (name : List Char) : Option Backend :=
  if name = "matplotlib".toList then some .matplotlib
  else if name = "plotly".toList then some .plotly
  else none

/-- The name of a backend, as kept in `_default_backend`. -/
def Backend.name : Backend → List Char
  | .matplotlib => "matplotlib".toList
  | .plotly => "plotly".toList

/-- `set_backend`, `plotting.py` 40-57, with the default before the call; `avail` tells whether
plotly can be imported at this time (`_require_plotly`, 73-83). -/
def setBackend (avail : Bool) (dflt : Backend) (s : List Char) : Backend × Except PlotErr Unit :=
  match Backend.find (pyLower s) with
  | none => (dflt, .error .value)
  | some .matplotlib => (.matplotlib, .ok ())
  | some .plotly => if avail then (.plotly, .ok ()) else (dflt, .error .noModule)

/-- `resolve_backend`, `plotting.py` 65-70: an empty name counts as no name. -/
def resolveBackend (dflt : Backend) (arg : Option (List Char)) : Except PlotErr Backend :=
  match arg with
  | none => .ok dflt
  | some [] => .ok dflt
  | some s => match Backend.find (pyLower s) with
    | none => .error .value
    | some b => .ok b

/-! ### Panels -/

/-- `UnitSystem._suffix`, `units.py` 67-68. -/
def unitSuffix (u : String) : String := if u = "" then "" else " (" ++ u ++ ")"

/-- `moment_axis`, `shear_axis`, `deflection_axis` and `distance_axis`, `units.py` 71-84. -/
def UnitSystem.momentAxis (us : UnitSystem) : String := "Bending Moment" ++ unitSuffix us.moment
@[inherit_doc UnitSystem.momentAxis]
def UnitSystem.shearAxis (us : UnitSystem) : String := "Shear Force" ++ unitSuffix us.force
@[inherit_doc UnitSystem.momentAxis]
def UnitSystem.deflectionAxis (us : UnitSystem) : String := "Deflection" ++ unitSuffix us.dispLabel
@[inherit_doc UnitSystem.momentAxis]
def UnitSystem.distanceAxis (us : UnitSystem) : String :=
  "Distance along beam" ++ unitSuffix us.length

/-- One pair of axes: the label of the vertical axis, the curves, whether the vertical axis is
inverted, whether the first curve is shaded down to the zero line, and the label of the
horizontal axis where there is one. -/
structure Panel (K : Type*) where
  ylabel : String
  curves : List (List (K × K))
  inverted : Bool
  shaded : Bool
  xlabel : Option String

variable {K : Type*} [Field K] [LinearOrder K]

/-- The `kind` of a single diagram. -/
inductive Kind where
  | M
  | V
  | D

/-- `res.x` with `res.M` or `res.V`, of the results of all members (`_concatenate_results`,
`results.py` 96-114, given as stations). -/
def stationCurve (vs : List (List (FStn K))) (f : FStn K → K) : List (K × K) :=
  vs.flatten.map fun s => (s.x, f s)

/-- `deflection_curve()` times `disp_scale`. -/
def scaledCurve (us : UnitSystem) (vs : List (List (FStn K))) : List (K × K) :=
  (deflectionCurve vs).map fun p => (p.1, p.2 * (us.dispScale : K))

/-- `diagram_figure`, `plotting.py` 136-180, called with `defl=deflection_curve()`. -/
def diagramPlotly (us : UnitSystem) (vs : List (List (FStn K))) : Kind → Panel K
  | .M => ⟨us.momentAxis, [stationCurve vs (·.M)], true, true, some us.distanceAxis⟩
  | .V => ⟨us.shearAxis, [stationCurve vs (·.V)], false, true, some us.distanceAxis⟩
  | .D => ⟨us.deflectionAxis, [scaledCurve us vs], false, false, some us.distanceAxis⟩

/-- `results_figure`, `plotting.py` 196-231, called with `defl=deflection_curve()`. -/
def resultsPlotly (us : UnitSystem) (vs : List (List (FStn K))) : List (Panel K) :=
  [⟨us.momentAxis, [stationCurve vs (·.M)], true, true, none⟩,
   ⟨us.shearAxis, [stationCurve vs (·.V)], false, true, none⟩,
   ⟨us.deflectionAxis, [scaledCurve us vs], false, false, some us.distanceAxis⟩]

/-- The zero line `[0, L], [0, 0]`. -/
def zeroLine (L : K) : List (K × K) := [(0, 0), (L, 0)]

/-- `_plot_diagram`, `analysis.py` 1159-1184, with matplotlib: into new axes, which get a zero
line, or into given axes, to which only the curve is added. -/
def diagramMpl (us : UnitSystem) (L : K) (vs : List (List (FStn K))) (kind : Kind)
    (ax : Option (Panel K)) : Panel K :=
  let curve := match kind with
    | .M => stationCurve vs (·.M)
    | .V => stationCurve vs (·.V)
    | .D => scaledCurve us vs
  match ax with
  | some p => { p with curves := p.curves ++ [curve] }
  | none =>
    { ylabel := match kind with
        | .M => us.momentAxis
        | .V => us.shearAxis
        | .D => us.deflectionAxis
      curves := [zeroLine L, curve]
      inverted := match kind with
        | .M => true
        | _ => false
      shaded := false
      xlabel := some us.distanceAxis }

/-- The three diagrams of `plot_results`, `analysis.py` 994-1016, with matplotlib (the schematics
above and below are those of `Render/Mpl`). -/
def resultsMpl (us : UnitSystem) (L : K) (vs : List (List (FStn K))) (showReactions : Bool) :
    List (Panel K) :=
  [⟨us.momentAxis, [zeroLine L, stationCurve vs (·.M)], true, true, none⟩,
   ⟨us.shearAxis, [zeroLine L, stationCurve vs (·.V)], false, true, none⟩,
   ⟨us.deflectionAxis, [zeroLine L, scaledCurve us vs], false, false,
     if showReactions then none else some us.distanceAxis⟩]

/-- `plot_results`, `analysis.py` 952-1016: nothing before an analysis; plotly raises if it cannot
be imported.  Also the returned backend. -/
def plotResults (avail : Bool) (dflt : Backend) (arg : Option (List Char)) (us : UnitSystem)
    (L : K) (showReactions : Bool) (res : Option (List (List (FStn K)))) :
    Except PlotErr (Option (List (Panel K))) :=
  match res with
  | none => .ok none
  | some vs => match resolveBackend dflt arg with
    | .error e => .error e
    | .ok .plotly => if avail then .ok (some (resultsPlotly us vs)) else .error .noModule
    | .ok .matplotlib => .ok (some (resultsMpl us L vs showReactions))

/-- `_plot_diagram`, `analysis.py` 1144-1184: with plotly given axes are ignored. -/
def plotDiagram (avail : Bool) (dflt : Backend) (arg : Option (List Char)) (us : UnitSystem)
    (L : K) (kind : Kind) (ax : Option (Panel K)) (res : Option (List (List (FStn K)))) :
    Except PlotErr (Option (Panel K)) :=
  match res with
  | none => .ok none
  | some vs => match resolveBackend dflt arg with
    | .error e => .error e
    | .ok .plotly => if avail then .ok (some (diagramPlotly us vs kind)) else .error .noModule
    | .ok .matplotlib => .ok (some (diagramMpl us L vs kind ax))

/-! ### Envelopes -/

/-- An `Envelopes` object with the results it keeps (`self.vResults`, `results.py` 420). -/
structure PEnv (K : Type*) where
  env : Envelope K
  res : List (EnvRes K)

/-- `Envelopes(vResults)`. -/
def PEnv.new (l : List (EnvRes K)) : Except PyErr (PEnv K) :=
  match Envelope.new l with
  | .error e => .error e
  | .ok e => .ok ⟨e, l⟩

/-- `augment` and `sum`, `results.py` 652-754, keep the results of the receiver. -/
def PEnv.merge (mode : CombineMode) (p q : PEnv K) : Except PyErr (PEnv K) :=
  match p.env.merge mode q.env with
  | .error e => .error e
  | .ok o => .ok ⟨o, p.res⟩

/-- `combine`, `results.py` 603-615 (also `|` and `+`): `zero_like` copies the first envelope with
its results. -/
def PEnv.combine (mode : CombineMode) : List (PEnv K) → Except PyErr (PEnv K)
  | [] => .error .valueError
  | p :: ps => match Envelope.combine mode ((p :: ps).map PEnv.env) with
    | .error e => .error e
    | .ok o => .ok ⟨o, p.res⟩

/-- An array over the stations of the envelope as a curve. -/
def Envelope.curve (e : Envelope K) (f : ℕ → K) : List (K × K) :=
  (List.range e.npts).map fun k => (e.x k, f k)

/-- `envelope_figure`, `plotting.py` 243-283. -/
def envelopePlotly (us : UnitSystem) (p : PEnv K) : List (Panel K) :=
  [⟨us.momentAxis, [p.env.curve p.env.Mmax, p.env.curve p.env.Mmin], true, true, none⟩,
   ⟨us.shearAxis, [p.env.curve p.env.Vmax, p.env.curve p.env.Vmin], false, true,
     some us.distanceAxis⟩]

/-- `Envelopes.plot`, `results.py` 945-972, with matplotlib. -/
def envelopeMpl (us : UnitSystem) (each : Bool) (p : PEnv K) : List (Panel K) :=
  let L := p.env.x (p.env.npts - 1)
  let rs := if each then p.res else []
  [⟨us.momentAxis, [zeroLine L, p.env.curve p.env.Mmax, p.env.curve p.env.Mmin]
      ++ rs.map fun r => p.env.curve r.M, true, false, none⟩,
   ⟨us.shearAxis, [zeroLine L, p.env.curve p.env.Vmax, p.env.curve p.env.Vmin]
      ++ rs.map fun r => p.env.curve r.V, false, false, some us.distanceAxis⟩]

/-- `Envelopes.plot`, `results.py` 938-972. -/
def plotEnvelope (avail : Bool) (dflt : Backend) (arg : Option (List Char)) (us : UnitSystem)
    (each : Bool) (p : PEnv K) : Except PlotErr (List (Panel K)) :=
  if p.env.nres < 1 then .error .value
  else match resolveBackend dflt arg with
    | .error e => .error e
    | .ok .plotly => if avail then .ok (envelopePlotly us p) else .error .noModule
    | .ok .matplotlib => .ok (envelopeMpl us each p)

/-- `plot_coincidents`, `results.py` 1009-1069: each panel with its twin on the right. -/
def plotCoincidents (us : UnitSystem) (e : Envelope K) :
    Except PlotErr ((Panel K × Panel K) × (Panel K × Panel K)) :=
  if e.nres < 1 then .error .value
  else
    let L := e.x (e.npts - 1)
    .ok
      ((⟨us.momentAxis, [zeroLine L, e.curve e.Mmax, e.curve e.Mmin], true, false, none⟩,
        ⟨"Coincident " ++ us.shearAxis, [e.curve e.VcoMmax, e.curve e.VcoMmin], false, false, none⟩),
       (⟨us.shearAxis, [zeroLine L, e.curve e.Vmax, e.curve e.Vmin], false, false,
          some us.distanceAxis⟩,
        ⟨"Coincident " ++ us.momentAxis, [e.curve e.McoVmax, e.curve e.McoVmin], true, false,
          none⟩))

/-! ### Exports -/

/-- `to_dataframe`, `results.py` 351-360: the named columns. -/
def toDataframe (vs : List (List (FStn K))) : List (String × List K) :=
  [("x", vs.flatten.map (·.x)), ("M", vs.flatten.map (·.M)), ("V", vs.flatten.map (·.V)),
   ("R", vs.flatten.map (·.R)), ("D", vs.flatten.map (·.D))]

/-- `np.column_stack`: the rows of arrays of the same length, otherwise a `ValueError`. -/
def columnStack (cols : List (List K)) : Except PyErr (List (List K)) :=
  let n := (cols.headD []).length
  if cols.all fun c => c.length = n then
    .ok ((List.range n).map fun k => cols.map fun c => c.getD k 0)
  else .error .valueError

/-- `to_csv`, `results.py` 362-375: the header and the rows of the file (the formatting of the
numbers is not modelled). -/
def toCsv (vs : List (List (FStn K))) : Except PyErr (List String × List (List K)) :=
  match columnStack [vs.flatten.map (·.x), vs.flatten.map (·.M), vs.flatten.map (·.V),
     vs.flatten.map (·.R), vs.flatten.map (·.D)] with
  | .error e => .error e
  | .ok rows => .ok (["x", "M", "V", "R", "D"], rows)

/-- `getattr(env, name)` for the arrays over the stations. -/
def Envelope.attr (e : Envelope K) (name : String) : Option (ℕ → K) :=
  if name = "Mmax" then some e.Mmax else if name = "Mmin" then some e.Mmin
  else if name = "Vmax" then some e.Vmax else if name = "Vmin" then some e.Vmin
  else if name = "Vco_Mmax" then some e.VcoMmax else if name = "Vco_Mmin" then some e.VcoMmin
  else if name = "Mco_Vmax" then some e.McoVmax else if name = "Mco_Vmin" then some e.McoVmin
  else if name = "x" then some e.x else none

/-- The columns of `Envelopes.to_csv`, `results.py` 848: other names are taken to raise. -/
def Envelope.columns (e : Envelope K) : List String → Except PyErr (List (List K))
  | [] => .ok []
  | a :: as => match e.attr a with
    | none => .error .attributeError
    | some f => match e.columns as with
      | .error err => .error err
      | .ok cs => .ok ((List.range e.npts).map f :: cs)

/-- `Envelopes.to_csv`, `results.py` 841-855. -/
def Envelope.toCsv (e : Envelope K) (attrs : List String) :
    Except PyErr (List String × List (List K)) :=
  match e.columns attrs with
  | .error err => .error err
  | .ok cs => match columnStack ((List.range e.npts).map e.x :: cs) with
    | .error err => .error err
    | .ok rows => .ok ("x" :: attrs, rows)

end PyCBA
