import Verif.Nonlinear.Model
import Verif.Plot.Model

/-!
Model of the plots of `NonlinearResult`, `src/pycba/nonlinear.py` 113-422: the curves, markers,
arrows and supports that are drawn and the limits that are set.  Colours, line styles, legends
other than the names of marker groups, and number formats are not modelled.  The coordinates of
nodes and supports, which the result carries, are taken from the analysis object.
-/

namespace PyCBA

variable {K : Type*} [Field K] [LinearOrder K]

namespace NL

/-- `self.node_coords` with an array over the nodes. -/
def nodeCurve (c : NL K) (m : ℕ → K) : List (K × K) := (List.range c.nNodes).map fun j => (c.x j, m j)

/-- `self.node_coords[-1]`. -/
def lastX (c : NL K) : K := c.x (c.nNodes - 1)

/-- `self.support_coords`, `nonlinear.py` 636. -/
def supportX (c : NL K) : List K := (List.range (c.spanL.length + 1)).map (spanStart c.spanL)

end NL

/-- `plot_moments`, `nonlinear.py` 133-162: the panel, and the levels drawn across it. -/
structure MomentPlot (K : Type*) where
  panel : Panel K
  levels : List K

/-- `plot_moments`, `nonlinear.py` 133-162. -/
def NL.plotMoments (c : NL K) (us : UnitSystem) (Mp : Option K) (res : NLResult K) : MomentPlot K :=
  { panel :=
      { ylabel := us.momentAxis
        curves := zeroLine c.lastX :: (res.hist.map fun h => c.nodeCurve h.2) ++ [c.nodeCurve res.st.mom]
        inverted := true
        shaded := false
        xlabel := some us.distanceAxis }
    levels := match Mp with
      | none => []
      | some Mp => [Mp, -Mp] }

/-- A call of `scatter` with its label. -/
structure Scatter (K : Type*) where
  label : String
  pts : List (K × K)

/-- The groups of markers of `plot_hinge_history` and `plot_beam_state`, `nonlinear.py` 213-224,
276-292: a group is drawn if it has events. -/
def eventMarks (events : List (HingeEvent K)) (y : HingeEvent K → K) : List (Scatter K) :=
  [(false, "Initial yield"), (true, "Plastic hinge")].flatMap fun t =>
    let es := events.filter fun e => e.plastic == t.1
    if es.isEmpty then [] else [⟨t.2, es.map fun e => (e.location, y e)⟩]

/-- What `plot_hinge_history` draws. -/
structure HingeHistory (K : Type*) where
  ylabel : String
  curves : List (List (K × K))
  marks : List (Scatter K)

/-- `plot_hinge_history`, `nonlinear.py` 207-243. -/
def NL.plotHingeHistory (c : NL K) (us : UnitSystem) (moving : Bool) (res : NLResult K) :
    HingeHistory K :=
  let marks := eventMarks res.st.events HingeEvent.factor
  if moving then ⟨"Front axle position" ++ unitSuffix us.length, [], marks⟩
  else ⟨"Load factor", [[(0, 1), (c.lastX, 1)]], marks⟩

/-- What `plot_beam_state` draws: the beam, triangles, markers, arrows (weight, foot) that come down
from height one, and the limits. -/
structure BeamState (K : Type*) where
  beam : List (K × K)
  triangles : List (List (K × K))
  marks : List (Scatter K)
  arrows : List (K × K)
  xlo : K
  xhi : K
  ylo : K
  yhi : K

/-- `_draw_beam` with `support_size=0.3`, `nonlinear.py` 164-184, and `plot_beam_state`, 260-332. -/
def NL.plotBeamState (c : NL K) (vehicle : Option (List (K × K))) (res : NLResult K) : BeamState K :=
  { beam := [(0, 0), (c.lastX, 0)]
    triangles := c.supportX.map fun xs =>
      [(xs, 0), (xs - 3 / 10 * (6 / 10), -(3 / 10)), (xs + 3 / 10 * (6 / 10), -(3 / 10))]
    marks := eventMarks res.st.events fun _ => -(1 / 2)
    arrows := match vehicle with
      | none => []
      | some axles => axles.flatMap fun a =>
          let x := res.lam - a.2
          if 0 ≤ x ∧ x ≤ c.lastX then [(a.1, x)] else []
    xlo := -1
    xhi := c.lastX + 1
    ylo := -(3 / 2)
    yhi := 5 / 2 }

/-- What `plot_collapse` draws. -/
structure CollapsePlot (K : Type*) where
  supports : List (K × K)
  shape : List (K × K)
  hinges : List (K × K)
  xlo : K
  xhi : K

/-- `dmax` and `scale`, `nonlinear.py` 369-371. -/
def NL.collapseScale (c : NL K) (scale : Option K) (u : ℕ → K) : K :=
  match scale with
  | some s => s
  | none =>
    let dmax := ((List.range c.nNodes).map fun j => |u (2 * j)|).foldl max 0
    if 0 < dmax then 12 / 100 * c.lastX / dmax else 1

/-- `plot_collapse`, `nonlinear.py` 358-422.  Without recorded displacements (moving loads) the
shape is flat, as it is here because the model's displacements are then zero. -/
def NL.plotCollapse (c : NL K) (scale : Option K) (res : NLResult K) :
    Except PyErr (CollapsePlot K) :=
  let y := fun j => res.u (2 * j) * c.collapseScale scale res.u
  let shape := c.nodeCurve y
  let hx := ((res.st.events.filter fun e => e.plastic).map HingeEvent.location).dedup.insertionSort (· ≤ ·)
  match mapE (fun x => npInterp x shape) hx with
  | .error e => .error e
  | .ok hy => .ok
    { supports := c.supportX.map fun x => (x, 0)
      shape := shape
      hinges := hx.zip hy
      xlo := -(4 / 100) * c.lastX
      xhi := 104 / 100 * c.lastX }

end PyCBA
