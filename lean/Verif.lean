import Verif.Load.Props
import Verif.Load.Calc
import Verif.Load.DiagramProps
import Verif.Load.ReleaseProps
import Verif.Stiffness.Props
import Verif.Analysis.Lemmas
import Verif.Analysis.Equil
import Verif.Analysis.Linear
import Verif.Analysis.Stability
import Verif.Analysis.State
import Verif.Envelope.Props
import Verif.Results.Props
import Verif.Results.Linear
import Verif.Results.Order
import Verif.LoadCases.Model
import Verif.LoadCases.Comb
import Verif.LoadCases.Props
import Verif.LoadCases.Nested
import Verif.LoadCases.Pattern
import Verif.LoadCases.Rows
import Verif.Build.Text
import Verif.Build.Props
import Verif.Bridge.Vehicle
import Verif.Bridge.Loads
import Verif.Bridge.Crit
import Verif.Influence.Props
import Verif.Units.Props
import Verif.Split.Props
import Verif.Modal.Props
import Verif.Modal.Condense
import Verif.Modal.Rayleigh
import Verif.Modal.Refine
import Verif.Modal.Order
import Verif.Modal.Exists
import Verif.Modal.Shape
import Verif.Foundation.Recover
import Verif.Foundation.Beam
import Verif.Foundation.Hold
import Verif.Foundation.Curve
import Verif.Foundation.Cache
import Verif.Foundation.Betti
import Verif.Foundation.Model
import Verif.Foundation.Props
import Verif.Foundation.Loads
import Verif.Foundation.Balance
import Verif.Nonlinear.Model
import Verif.Nonlinear.State
import Verif.Nonlinear.Mesh
import Verif.Nonlinear.Loads
import Verif.Nonlinear.Balance
import Verif.Nonlinear.Cases
import Verif.Section.Model
import Verif.Section.Props
import Verif.Stiffness.Timo
import Verif.Section.Member
import Verif.Prestress.Model
import Verif.Prestress.Props
import Verif.Prestress.Loads
import Verif.Prestress.Equil
import Verif.Prestress.Spans
import Verif.Bridge.Library
import Verif.Bridge.Shear
import Verif.Bridge.Run
import Verif.Exact.Spec
import Verif.Exact.Span
import Verif.Exact.Props
import Verif.Exact.Report
import Verif.Exact.Converge
import Verif.Exact.Shear
import Verif.Exact.ShearConverge
import Verif.Nonlinear.Verdict
import Verif.Render.Model
import Verif.Render.Supports
import Verif.Render.Loads
import Verif.Render.Tikz
import Verif.Render.Reactions
import Verif.Exact.Work
import Verif.Exact.Energy
import Verif.Exact.Mueller
import Verif.Exact.Broken
import Verif.Exact.ShearEnergy
import Verif.Exact.ShearBroken
import Verif.Exact.Imposed
import Verif.Exact.ImposedConverge
import Verif.Exact.Signs
import Verif.Exact.Patterns
import Verif.Similar.Image
import Verif.Similar.UnitsMember
import Verif.Similar.Units
import Verif.Similar.UnitsResults
import Verif.Similar.MirrorMember
import Verif.Similar.MirrorLoads
import Verif.Similar.Mirror
import Verif.Similar.MirrorResults
import Verif.Render.Mpl
import Verif.Render.MplLoads
import Verif.Render.MplView
import Verif.Render.Deck
import Verif.Bridge.Animate
import Verif.Render.MplClip
import Verif.Render.MplReactions
import Verif.Render.MplProfile
import Verif.Analysis.Determinate
import Verif.Analysis.Total
import Verif.Bridge.Refine
import Verif.Render.MplDims
import Verif.Render.MplBare
import Verif.Bridge.Refuse
import Verif.Plot.Model
import Verif.Plot.Props
import Verif.Nonlinear.Limit
import Verif.Nonlinear.Plots
import Verif.Nonlinear.PlotProps
import Verif.Bridge.Plots
import Verif.LoadCases.Plots
import Verif.Modal.Plots
import Verif.Exact.SignsShear
import Verif.Exact.ImposedShear
import Verif.Exact.Simpson
import Verif.Exact.WellPosed
import Verif.Exact.ImposedAny
import Verif.Plot.Drawings
import Verif.Exact.ImposedShearAny
import Verif.Exact.ImposedReport
import Verif.Modal.Interp
import Verif.Modal.Shapes
import Verif.Modal.Converge
import Verif.Modal.Sines
import Verif.Foundation.Ritz
import Verif.Foundation.RitzMember
import Verif.Foundation.Accuracy
import Verif.Foundation.Pointwise
import Verif.Foundation.Smooth
import Verif.Foundation.Krylov
import Verif.Foundation.Exists
import Verif.Results.Meaning
import Verif.Influence.Complete
import Verif.Exact.Taper
import Verif.Exact.TaperExists
import Verif.Exact.TaperSection
import Verif.Exact.TaperReport
import Verif.Exact.TaperGauss
import Verif.Analysis.Stiffer
