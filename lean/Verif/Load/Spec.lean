import Verif.Load.Model
import Mathlib.MeasureTheory.Integral.IntervalIntegral.Basic
import Mathlib.MeasureTheory.Measure.Lebesgue.Basic

/-!
Independent specification of what a load *is*: an intensity along the span,
point forces and point couples.  Nothing here uses the formulas of the code.
-/

namespace PyCBA

/-- Downward load intensity at local coordinate `x` of a span of length `L`. -/
noncomputable def Load.intensity (L : ℝ) : Load ℝ → ℝ → ℝ
  | .udl w, _ => w
  | .pudl w a c, x => if a ≤ x ∧ x ≤ a + c then w else 0
  | .trapez w1 w2 a c, x =>
      let c := c.getD (L - a)
      if a ≤ x ∧ x ≤ a + c then w1 + (w2 - w1) * ((x - a) / c) else 0
  | _, _ => 0

/-- Point forces (downward) with their positions. -/
def Load.forces : Load ℝ → List (ℝ × ℝ)
  | .pl P a => [(P, a)]
  | _ => []

/-- Applied couples (anticlockwise positive, the sense of `Ma`). -/
def Load.couples : Load ℝ → List ℝ
  | .ml m _ => [m]
  | _ => []

/-- Total downward load on the span `[0, L]`. -/
noncomputable def Load.total (L : ℝ) (ld : Load ℝ) : ℝ :=
  (∫ x in (0 : ℝ)..L, ld.intensity L x) + (ld.forces.map Prod.fst).sum

/-- Clockwise moment of the load about the left end of the span. -/
noncomputable def Load.momentAboutLeft (L : ℝ) (ld : Load ℝ) : ℝ :=
  (∫ x in (0 : ℝ)..L, x * ld.intensity L x)
    + (ld.forces.map fun p => p.1 * p.2).sum - ld.couples.sum

/-- The load starts on the span (a distributed load may overhang the right
end); an imposed curvature knows the rigidity of its span. -/
def Load.Starts {K : Type*} [Field K] [LinearOrder K] (L : K) : Load K → Prop
  | .udl _ => True
  | .pl _ a => 0 ≤ a ∧ a ≤ L
  | .pudl _ a c => 0 ≤ a ∧ a ≤ L ∧ 0 ≤ c
  | .trapez _ _ a _ => 0 ≤ a
  | .mamb _ _ => True
  | .ml _ a => 0 ≤ a ∧ a ≤ L
  | .ic _ EI => EI.isSome

/-- The load lies wholly on the span. -/
def Load.OnSpan {K : Type*} [Field K] [LinearOrder K] (L : K) : Load K → Prop
  | .udl _ => True
  | .pl _ a => 0 ≤ a ∧ a ≤ L
  | .pudl _ a c => 0 ≤ a ∧ 0 ≤ c ∧ a + c ≤ L
  | .trapez _ _ a c => 0 ≤ a ∧ ∀ c', c = some c' → a + c' ≤ L
  | .mamb _ _ => True
  | .ml _ a => 0 ≤ a ∧ a ≤ L
  | .ic _ EI => EI.isSome

end PyCBA
