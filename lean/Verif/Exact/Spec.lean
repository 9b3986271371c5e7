import Verif.Load.Spec
import Verif.Results.Model
import Mathlib.Analysis.Calculus.Deriv.Basic

/-!
The continuous beam problem, stated without any formula of the code: the elastic line of
every span obeys `EI θ' = M`, `v' = θ` with the bending moment of a free-body cut, the
lines meet the nodes, and the nodes are in equilibrium.
-/

namespace PyCBA

open Set

/-- Applied couples (anticlockwise positive) with their positions. -/
def Load.couplesAt : Load ℝ → List (ℝ × ℝ)
  | .ml m a => [(m, a)]
  | _ => []

/-- Downward force of the load on the part of its span left of `x`. -/
noncomputable def Load.forceLeft (L : ℝ) (ld : Load ℝ) (x : ℝ) : ℝ :=
  (∫ s in (0 : ℝ)..x, ld.intensity L s)
    + ((ld.forces.filter fun p => p.2 < x).map Prod.fst).sum

/-- Anticlockwise moment about `x` of the load on the part of its span left of `x`. -/
noncomputable def Load.momentLeft (L : ℝ) (ld : Load ℝ) (x : ℝ) : ℝ :=
  (∫ s in (0 : ℝ)..x, (x - s) * ld.intensity L s)
    + ((ld.forces.filter fun p => p.2 < x).map fun p => p.1 * (x - p.2)).sum
    + ((ld.couplesAt.filter fun p => p.2 < x).map Prod.fst).sum

/-- Shear just left of `x` in a span with end forces `F` (upward force and anticlockwise
moment at the left end, then at the right end): equilibrium of the part left of `x`. -/
noncomputable def cutV (L : ℝ) (own : List (Load ℝ)) (F : Vec4 ℝ) (x : ℝ) : ℝ :=
  F 0 - (own.map fun ld => ld.forceLeft L x).sum

/-- Bending moment (sagging positive) just left of `x`. -/
noncomputable def cutM (L : ℝ) (own : List (Load ℝ)) (F : Vec4 ℝ) (x : ℝ) : ℝ :=
  -F 1 + F 0 * x - (own.map fun ld => ld.momentLeft L x).sum

/-- The elastic line of a slender span: deflection `v` (upward), rotation `θ`, end forces
`F` in equilibrium with the loads. -/
structure ElasticSpan (EI L : ℝ) (own : List (Load ℝ)) (F : Vec4 ℝ) (v θ : ℝ → ℝ) : Prop where
  slope : ∀ x ∈ Ioo 0 L, HasDerivAt v (θ x) x
  curvature : ∀ x ∈ Ioo 0 L, (∀ ld ∈ own, ∀ p ∈ ld.couplesAt, p.2 ≠ x) →
    HasDerivAt θ (cutM L own F x / EI) x
  contV : ContinuousOn v (Icc 0 L)
  contT : ContinuousOn θ (Icc 0 L)
  force : F 0 + F 2 = (own.map fun ld => ld.total L).sum
  moment : F 1 + F 3 + F 2 * L = (own.map fun ld => ld.momentAboutLeft L).sum

/-- Is the moment at the left end of a member released? -/
def EType.freeLeft : EType → Bool
  | .PF | .PP => true
  | _ => false

/-- Is the moment at the right end of a member released? -/
def EType.freeRight : EType → Bool
  | .FP | .PP => true
  | _ => false

/-- The force a support must supply for the equilibrium of component
`c` (vertical, rotation) of node `j`: the end forces of the two members meeting there, and
the spring force. -/
def nodeSum (b : BeamDef ℝ) (u : ℕ → ℝ) (F : ℕ → Vec4 ℝ) (j : ℕ) (c : Fin 2) : ℝ :=
  (if 0 < j then F (j - 1) ⟨2 + c, by omega⟩ else 0)
    + (if j < b.members.length then F j ⟨c, by omega⟩ else 0)
    + max (b.restraints.getD (2 * j + c) 0) 0 * u (2 * j + c)

/-- The solution of the continuous beam problem: nodal displacements `u`, member end
forces `F` and elastic lines `v`, `θ`. -/
structure ElasticBeam (b : BeamDef ℝ) (ls : List (SpanLoad ℝ)) (u : ℕ → ℝ) (F : ℕ → Vec4 ℝ)
    (v θ : ℕ → ℝ → ℝ) : Prop where
  span : ∀ i (hi : i < b.members.length), ∀ e, b.members[i].EI = .const e →
    ElasticSpan e b.members[i].L (ownLoads i ls) (F i) (v i) (θ i)
  left : ∀ i < b.members.length, v i 0 = u (2 * i)
  right : ∀ i (hi : i < b.members.length), v i b.members[i].L = u (2 * i + 2)
  rotLeft : ∀ i (hi : i < b.members.length),
    if b.members[i].et.freeLeft then F i 1 = 0 else θ i 0 = u (2 * i + 1)
  rotRight : ∀ i (hi : i < b.members.length),
    if b.members[i].et.freeRight then F i 3 = 0 else θ i b.members[i].L = u (2 * i + 3)
  prescribed : ∀ p < 2 * b.members.length + 2, ∀ w, b.presc.getD p none = some w → u p = w
  rigid : ∀ p < 2 * b.members.length + 2, b.presc.getD p none = none →
    b.restraints.getD p 0 < 0 → u p = 0
  free : ∀ j ≤ b.members.length, ∀ c : Fin 2, b.presc.getD (2 * j + c) none = none →
    0 ≤ b.restraints.getD (2 * j + c) 0 → nodeSum b u F j c = 0

end PyCBA
