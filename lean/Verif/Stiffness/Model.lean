import Verif.Load.Model
import Mathlib.LinearAlgebra.Matrix.Notation

/-!
Model of the member stiffness code of `src/pycba/beam.py` 869-1622: prismatic,
shear-flexible (Timoshenko) and variable-rigidity members, moment releases by
static condensation, and the fixed-end forces of shear-flexible members.

Member degrees of freedom are numbered `0 … 3`: left deflection, left rotation,
right deflection, right rotation.
-/

namespace PyCBA

open Matrix

variable {K : Type*} [Field K] [LinearOrder K]

/-- A 4×4 member matrix. -/
abbrev Mat4 (K : Type*) := Matrix (Fin 4) (Fin 4) K
/-- A vector of four end values. -/
abbrev Vec4 (K : Type*) := Fin 4 → K

/-- `Beam.k_FF`, `beam.py` 936-954. -/
def kFF (EI L : K) : Mat4 K :=
  let kfv := 12 * EI / L ^ 3
  let kmv := 6 * EI / L ^ 2
  let kft := kmv
  let kmt := 4 * EI / L
  let kmth := 2 * EI / L
  !![kfv, kft, -kfv, kft;
     kmv, kmt, -kmv, kmth;
     -kfv, -kft, kfv, -kft;
     kft, kmth, -kft, kmt]

/-- `Beam.k_FP`, `beam.py` 972-989. -/
def kFP (EI L : K) : Mat4 K :=
  let kfv := 3 * EI / L ^ 3
  let kmv := 3 * EI / L ^ 2
  let kft := kmv
  let kmt := 3 * EI / L
  !![kfv, kft, -kfv, 0;
     kmv, kmt, -kmv, 0;
     -kfv, -kft, kfv, 0;
     0, 0, 0, 0]

/-- `Beam.k_PF`, `beam.py` 1007-1024. -/
def kPF (EI L : K) : Mat4 K :=
  let kfv := 3 * EI / L ^ 3
  let kmv := 3 * EI / L ^ 2
  let kft := kmv
  let kmt := 3 * EI / L
  !![kfv, 0, -kfv, kft;
     0, 0, 0, 0;
     -kfv, 0, kfv, -kft;
     kft, 0, -kft, kmt]

/-- `Beam.k_PP`, `beam.py` 1043-1045. -/
def kPP : Mat4 K := 0

/-- `Beam.k_FF_timo`, `beam.py` 1310-1328. -/
def kFFtimo (EI GAv L : K) : Mat4 K :=
  let phi := 12 * EI / (GAv * L ^ 2)
  let c := EI / (1 + phi)
  let kfv := 12 * c / L ^ 3
  let kft := 6 * c / L ^ 2
  let kmt := (4 + phi) * c / L
  let kmth := (2 - phi) * c / L
  !![kfv, kft, -kfv, kft;
     kft, kmt, -kft, kmth;
     -kfv, -kft, kfv, -kft;
     kft, kmth, -kft, kmt]

/-- The table `{1: [], 2: [3], 3: [1], 4: [1, 3]}` of released rotations,
`beam.py` 902, 1230, 1449. -/
def EType.released : EType → List (Fin 4)
  | .FF => []
  | .FP => [3]
  | .PF => [1]
  | .PP => [1, 3]

/-- `np.linalg.inv` of a 2×2 matrix, by the closed formula; a singular matrix
raises `LinAlgError` (a subclass of `ValueError`). -/
def inv2 (m : Matrix (Fin 2) (Fin 2) K) : Except PyErr (Matrix (Fin 2) (Fin 2) K) :=
  let det := m 0 0 * m 1 1 - m 0 1 * m 1 0
  if det = 0 then .error .valueError
  else .ok !![m 1 1 / det, -m 0 1 / det; -m 1 0 / det, m 0 0 / det]

/-- `Beam._condense` with one released rotation `r`, `beam.py` 1256-1265: the
inverse is that of a 1×1 matrix. -/
def condense1 (k : Mat4 K) (r : Fin 4) : Except PyErr (Mat4 K) :=
  if k r r = 0 then .error .valueError
  else .ok (Matrix.of fun p q =>
    if p = r ∨ q = r then 0 else k p q - k p r * (1 / k r r) * k r q)

/-- `Beam._condense` with both rotations released (`[1, 3]`), `beam.py`
1256-1265. -/
def condense2 (k : Mat4 K) : Except PyErr (Mat4 K) :=
  match inv2 !![k 1 1, k 1 3; k 3 1, k 3 3] with
  | .error e => .error e
  | .ok i => .ok (Matrix.of fun p q =>
      if p = 1 ∨ q = 1 ∨ p = 3 ∨ q = 3 then 0
      else k p q - ((k p 1 * i 0 0 + k p 3 * i 1 0) * k 1 q
        + (k p 1 * i 0 1 + k p 3 * i 1 1) * k 3 q))

/-- `self._condense(k, released) if released else k`, `beam.py` 902-903,
1230-1233, 1449-1452. -/
def condenseFor (k : Mat4 K) : EType → Except PyErr (Mat4 K)
  | .FF => .ok k
  | .FP => condense1 k 3
  | .PF => condense1 k 1
  | .PP => condense2 k

/-- The 2×4 transformation `T`, `beam.py` 1221-1226 and 1441-1446, applied as
`T.T @ Kth @ T`. -/
def TtKT (Kth : Matrix (Fin 2) (Fin 2) K) (L : K) : Mat4 K :=
  let T : Matrix (Fin 2) (Fin 4) K := !![1 / L, 1, -1 / L, 0; 1 / L, 0, -1 / L, 1]
  T.transpose * Kth * T

/-- One integration node: abscissa, weight and rigidity there
(`Beam._gauss_nodes`, `beam.py` 1083-1094, with `EI(x)` or `GAv(x)`).  The
Gauss-Legendre table itself (`leggauss`) is not modelled: nodes are an input. -/
structure GNode (K : Type*) where
  x : K
  w : K
  EI : K

/-- `Beam._flexibility`, `beam.py` 1138-1149. -/
def flexibility (ns : List (GNode K)) (L : K) : Matrix (Fin 2) (Fin 2) K :=
  let mi := fun x : K => 1 - x / L
  let mj := fun x : K => -x / L
  let f00 := (ns.map fun n => n.w * mi n.x * mi n.x / n.EI).sum
  let f01 := (ns.map fun n => n.w * mi n.x * mj n.x / n.EI).sum
  let f11 := (ns.map fun n => n.w * mj n.x * mj n.x / n.EI).sum
  !![f00, f01; f01, f11]

/-- What the member code uses of a `SectionEI`: its integration nodes
(`_gauss_nodes`), its value at a station (`EI(x)`) and its breakpoints
(`EI.breakpoints`). -/
structure SecData (K : Type*) where
  nodes : List (GNode K)
  eval : K → K
  bps : List K

/-- A rigidity: a number, or a `SectionEI`. -/
inductive Rigidity (K : Type*) where
  | const (v : K)
  | section (s : SecData K)

/-- The rigidity at a station. -/
def Rigidity.eval : Rigidity K → K → K
  | .const v, _ => v
  | .section s, x => s.eval x

/-- The breakpoints of a rigidity (none for a number). -/
def Rigidity.bps : Rigidity K → List K
  | .const _ => []
  | .section s => s.bps

/-- `Beam._shear_flexibility`, `beam.py` 1358-1363. -/
def shearFlexibility (GAv : Rigidity K) (L : K) : K :=
  let integral := match GAv with
    | .section s => (s.nodes.map fun n => n.w / n.EI).sum
    | .const g => L / g
  integral / (L * L)

/-- `Beam._timo_flexibility`, `beam.py` 1393-1402 (the scalar is added to every
entry by numpy broadcasting). -/
def timoFlexibility (EI GAv : Rigidity K) (L : K) : Matrix (Fin 2) (Fin 2) K :=
  let F := match EI with
    | .section s => flexibility s.nodes L
    | .const e => !![L / (3 * e), -L / (6 * e); -L / (6 * e), L / (3 * e)]
  Matrix.of fun i j => F i j + shearFlexibility GAv L

/-- `Beam.k_timoshenko`, `beam.py` 1440-1452. -/
def kTimoshenko (EI GAv : Rigidity K) (L : K) (et : EType) : Except PyErr (Mat4 K) :=
  match inv2 (timoFlexibility EI GAv L) with
  | .error e => .error e
  | .ok Kth => condenseFor (TtKT Kth L) et

/-- `Beam.k_nonprismatic`, `beam.py` 1220-1233 (with `k_theta`, 1171). -/
def kNonprismatic (s : SecData K) (L : K) (et : EType) : Except PyErr (Mat4 K) :=
  match inv2 (flexibility s.nodes L) with
  | .error e => .error e
  | .ok Kth => condenseFor (TtKT Kth L) et

/-- A member without foundation: rigidities, length and type. -/
structure Member (K : Type*) where
  EI : Rigidity K
  L : K
  et : EType
  GAv : Option (Rigidity K)

/-- `Beam.get_span_k` for a member without elastic foundation, `beam.py`
884-918. -/
def Member.spanK (m : Member K) : Except PyErr (Mat4 K) :=
  match m.GAv, m.EI with
  | some (.const g), .const e => condenseFor (kFFtimo e g m.L) m.et
  | some g, e => kTimoshenko e g m.L m.et
  | none, .section s => kNonprismatic s m.L m.et
  | none, .const e => match m.et with
      | .FP => .ok (kFP e m.L)
      | .PF => .ok (kPF e m.L)
      | .PP => .ok kPP
      | .FF => .ok (kFF e m.L)

/-- The end forces as the vector `[Va, Ma, Vb, Mb]`. -/
def CNL.vec (c : CNL K) : Vec4 K := ![c.Va, c.Ma, c.Vb, c.Mb]

/-- The fixed-fixed end forces with end moments `Ma`, `Mb`: the simply supported
shears recovered from the slender fixed-end forces `c`, plus the couple.
`beam.py` 834-848 and 1593-1605. -/
def refFF (c : CNL K) (Ma Mb L : K) : CNL K :=
  let Va_ss := c.Va - (c.Ma + c.Mb) / L
  let Vb_ss := c.Vb + (c.Ma + c.Mb) / L
  ⟨Va_ss + (Ma + Mb) / L, Ma, Vb_ss - (Ma + Mb) / L, Mb⟩

/-- The fixed-fixed end forces of `Beam._ref_timoshenko` for a prismatic member,
`beam.py` 1582-1586 and 1593-1605. -/
def refTimoFF (c : CNL K) (EI GAv L : K) : CNL K :=
  let phi := 12 * EI / (GAv * L ^ 2)
  let denom := 2 * (1 + phi)
  let Ma := ((2 + phi) * c.Ma - phi * c.Mb) / denom
  let Mb := (-phi * c.Ma + (2 + phi) * c.Mb) / denom
  refFF c Ma Mb L

/-- The release step shared by `_ref_nonprismatic` (`beam.py` 850-867) and
`_ref_timoshenko` (1607-1622): `ref` are the fixed-fixed forces and `kff` the
fixed-fixed stiffness of the member (only computed for one released end). -/
def releaseRef (ref : CNL K) (kff : Except PyErr (Mat4 K)) (L : K) :
    EType → Except PyErr (CNL K)
  | .FF => .ok ref
  | .PP => .ok ⟨ref.Va + (ref.Ma + ref.Mb) / L, 0, ref.Vb - (ref.Ma + ref.Mb) / L, 0⟩
  | .FP =>
      match kff with
      | .error e => .error e
      | .ok kff =>
        if kff 3 3 = 0 then .error .valueError
        else
          let th := ref.Mb / kff 3 3
          .ok ⟨ref.Va - kff 0 3 * th, ref.Ma - kff 1 3 * th, ref.Vb - kff 2 3 * th,
            ref.Mb - kff 3 3 * th⟩
  | .PF =>
      match kff with
      | .error e => .error e
      | .ok kff =>
        if kff 1 1 = 0 then .error .valueError
        else
          let th := ref.Ma / kff 1 1
          .ok ⟨ref.Va - kff 0 1 * th, ref.Ma - kff 1 1 * th, ref.Vb - kff 2 1 * th,
            ref.Mb - kff 3 1 * th⟩

/-! ### Primary end rotations by Simpson's rule -/

/-- The integration pieces `zip(edges[:-1], edges[1:])` between sorted distinct
breakpoints, `beam.py` 808-816, 1497-1512, `load.py` 961-971: values outside
`[-1e-12, L + 1e-12]` are dropped and the outermost edges are moved to `0`, `L`. -/
def pieces (bps : List K) (L : K) : List (K × K) :=
  let e := ((bps ++ [0, L]).mergeSort (fun a b => a ≤ b)).dedup
  let e := e.filter fun x => -(1 / 10 ^ 12) ≤ x ∧ x ≤ L + 1 / 10 ^ 12
  let e := (e.set 0 0).set (e.length - 1) L
  (e.zip e.tail).filter fun p => p.1 < p.2

/-- An array sampled from `f` on `linspace(a, b, 2001)` whose two end entries
`get_mbr_results` has overwritten by zero (`load.py` 217-220 and so on). -/
def endsZeroed (a b : K) (f : K → K) (x : K) : K := if x = a ∨ x = b then 0 else f x

/-- Simply supported bending moment of a load (`LoadIC` reports zero). -/
def Load.ssM (ld : Load K) (L x : K) : K := match ld.stn L x with
  | some s => s.M
  | none => 0

/-- Simply supported shear of a load (`LoadIC` reports zero). -/
def Load.ssV (ld : Load K) (L x : K) : K := match ld.stn L x with
  | some s => s.V
  | none => 0

/-- Imposed curvature of a load (zero unless it is a `LoadIC`). -/
def Load.kappaImp : Load K → K → K
  | .ic k _, x => polyInc k x
  | _, _ => 0

/-- Primary end rotations of a load, `_ref_nonprismatic` `beam.py` 812-825 (with
`GAv = none`) and `_timo_theta0` `beam.py` 1509-1528. -/
def theta0 (ld : Load K) (EI : Rigidity K) (GAv : Option (Rigidity K)) (L : K) : K × K :=
  let bps := EI.bps ++ (match GAv with
    | some g => g.bps
    | none => [])
  let ps := pieces bps L
  let curv := fun (p : K × K) x =>
    endsZeroed p.1 p.2 (ld.ssM L) x / EI.eval x + ld.kappaImp x
  let shear := fun (p : K × K) => match GAv with
    | none => 0
    | some g => simpson 1000 (fun x => (-1 / L) *
        (endsZeroed p.1 p.2 (ld.ssV L) x / g.eval x)) p.1 p.2
  ((ps.map fun p => simpson 1000 (fun x => (1 - x / L) * curv p x) p.1 p.2 + shear p).sum,
   (ps.map fun p => simpson 1000 (fun x => (-x / L) * curv p x) p.1 p.2 + shear p).sum)

/-- `LoadIC.get_cnl` for a `SectionEI`, `load.py` 931-944, 960-979, 1002-1004. -/
def icCnlSection (kappa : List K) (s : SecData K) (L : K) : Except PyErr (CNL K) :=
  let ps := pieces s.bps L
  let t0 := (ps.map fun p => simpson 1000 (fun x => (1 - x / L) * polyInc kappa x) p.1 p.2).sum
  let t1 := (ps.map fun p => simpson 1000 (fun x => -x / L * polyInc kappa x) p.1 p.2).sum
  match inv2 (flexibility s.nodes L) with
  | .error e => .error e
  | .ok Kth =>
    let Ma := Kth 0 0 * t0 + Kth 0 1 * t1
    let Mb := Kth 1 0 * t0 + Kth 1 1 * t1
    .ok ⟨(Ma + Mb) / L, Ma, -(Ma + Mb) / L, Mb⟩

/-- `load.get_cnl(L, 1)` of a load whose rigidity was supplied from its member
(`Beam._set_loads`, `beam.py` 342-344); reading a field of the plain list that an
off-span partial UDL returns is an `AttributeError`. -/
def Member.cnl (m : Member K) (ld : Load K) : Except PyErr (CNL K) :=
  match ld, m.EI with
  | .ic kappa _, .section s => icCnlSection kappa s m.L
  | .ic kappa _, .const e => .ok (icCnl kappa e m.L)
  | ld, _ => match ld.getCnl m.L with
      | .error e => .error e
      | .ok (.plainList _) => .error .attributeError
      | .ok (.cnl c) => .ok c

/-- The contribution of one load in `Beam.get_ref` for a member without
foundation, `beam.py` 743-751, with `_ref_nonprismatic` (797-867) and
`_ref_timoshenko` (1578-1622). -/
def Member.ref (m : Member K) (ld : Load K) : Except PyErr (CNL K) :=
  match m.cnl ld with
  | .error e => .error e
  | .ok c =>
    match m.GAv, m.EI with
    | none, .const _ => .ok (releaseCnl c m.L m.et)
    | none, .section s =>
        match inv2 (flexibility s.nodes m.L) with
        | .error e => .error e
        | .ok Kth =>
          let t := theta0 ld (.section s) none m.L
          releaseRef (refFF c (Kth 0 0 * t.1 + Kth 0 1 * t.2) (Kth 1 0 * t.1 + Kth 1 1 * t.2) m.L)
            (kNonprismatic s m.L .FF) m.L m.et
    | some (.const g), .const e =>
        releaseRef (refTimoFF c e g m.L) (kTimoshenko (.const e) (.const g) m.L .FF) m.L m.et
    | some g, e =>
        match inv2 (timoFlexibility e g m.L) with
        | .error e => .error e
        | .ok Kth =>
          let t := theta0 ld e (some g) m.L
          releaseRef (refFF c (Kth 0 0 * t.1 + Kth 0 1 * t.2) (Kth 1 0 * t.1 + Kth 1 1 * t.2) m.L)
            (kTimoshenko e g m.L .FF) m.L m.et

end PyCBA
