import Verif.Analysis.Model
import Mathlib.Data.List.Sort

/-!
Model of `BeamResults`, `src/pycba/results.py` 31-323: the results along each member,
their concatenation and the query at a coordinate.

Arrays are functions on `ℕ` with an explicit length.  Members on an elastic
foundation are modelled separately.
-/

namespace PyCBA

variable {K : Type*} [Field K] [LinearOrder K]

/-- `MemberResults`, `types.py` 79-110. -/
structure MRes (K : Type*) where
  n : ℕ
  x : ℕ → K
  M : ℕ → K
  V : ℕ → K
  R : ℕ → K
  D : ℕ → K

/-- `scipy.integrate.cumulative_trapezoid(y, initial=0)` with the interval widths `h`. -/
def cumTrap (h y : ℕ → K) : ℕ → K
  | 0 => 0
  | k + 1 => cumTrap h y k + h k * (y k + y (k + 1)) / 2

/-- `dx * np.arange(0, npts + 1)`, `results.py` 188-189. -/
def uniformGrid (L : K) (npts : ℕ) : List K :=
  let dx := L / npts
  (List.range (npts + 1)).map fun k : ℕ => dx * (k : K)

/-- `_shear_point_offset`, `results.py` 23-28. -/
def shearOffset (L : K) : K := 1 / 10 ^ 9 * L

/-- The paired stations either side of the shear points inside the member,
`results.py` 199-200. -/
def shearPairs (L : K) (sp : List K) : List K :=
  (sp.filter fun xs => shearOffset L < xs ∧ xs < L - shearOffset L).flatMap fun xs =>
    [xs - shearOffset L, xs + shearOffset L]

/-- The evaluation grid `xr` of a member and whether it was augmented,
`results.py` 188-204. -/
def memberGrid (L : K) (npts : ℕ) (sp : List K) : List K × Bool :=
  match shearPairs L sp with
  | [] => (uniformGrid L npts, false)
  | p :: ps => ((uniformGrid L npts ++ p :: ps).mergeSort (fun a b => a ≤ b), true)

/-- The stations `x` with the two ends repeated, `results.py` 209-212. -/
def padded (g : List K) (k : ℕ) : K :=
  if k = 0 then g.getD 0 0
  else if k < g.length + 1 then g.getD (k - 1) 0
  else g.getD (g.length - 1) 0

/-- Rotation and deflection arrays of a load on a simply supported span at station
`k` of `n` (`get_mbr_results` of the load classes; `LoadIC` integrates its curvature,
`load.py` 1038-1048).  These are *not* divided by `EI` except for `LoadIC`. -/
def Load.ssRD (ld : Load K) (L : K) (n : ℕ) (x : ℕ → K) (k : ℕ) : K × K :=
  match ld with
  | .ic kappa _ =>
    let h := fun j => x (j + 1) - x j
    let rot := cumTrap h fun j => polyInc kappa (x j)
    let defl := cumTrap h rot
    let theta0 := -defl (n - 1) / L
    (rot k + theta0, defl k + theta0 * x k)
  | ld => match ld.stn L (x k) with
    | some s => (s.R, s.D)
    | none => (0, 0)

/-- The local variables of `_member_values` for one member: the member, its own loads,
its end forces and displacements, the resolution and its shear points, and the summed
clamped end moments `Ma`, `Mb` of its loads (`results.py` 174-234). -/
structure MCtx (K : Type*) where
  m : Member K
  own : List (Load K)
  f : Vec4 K
  d : Vec4 K
  npts : ℕ
  sp : List K
  Ma : K
  Mb : K

namespace MCtx

/-- `xr`, `results.py` 188-204. -/
def grid (c : MCtx K) : List K := (memberGrid c.m.L c.npts c.sp).1

/-- `len(x)`, `results.py` 209. -/
def n (c : MCtx K) : ℕ := c.grid.length + 2

/-- `x`, `results.py` 209-212. -/
def x (c : MCtx K) : ℕ → K := padded c.grid

/-- Interval widths of `x[1:-1]` used by the integrations, `results.py` 216. -/
def h (c : MCtx K) (j : ℕ) : K :=
  if (memberGrid c.m.L c.npts c.sp).2 then c.x (j + 2) - c.x (j + 1) else c.m.L / c.npts

/-- The two padding stations, whose shear and moment every `get_mbr_results` zeroes. -/
def IsEnd (c : MCtx K) (k : ℕ) : Prop := k = 0 ∨ k = c.n - 1

instance (c : MCtx K) (k : ℕ) : Decidable (c.IsEnd k) := by unfold IsEnd; infer_instance

/-- `res.M`, `results.py` 219-220, 231. -/
def M (c : MCtx K) (k : ℕ) : K := if c.IsEnd k then 0
  else (mambStn (c.f 1) (c.f 3) c.m.L (c.x k)).M + (c.own.map fun l => l.ssM c.m.L (c.x k)).sum

/-- `res.V`, `results.py` 219-220, 231. -/
def V (c : MCtx K) (k : ℕ) : K := if c.IsEnd k then 0
  else (mambStn (c.f 1) (c.f 3) c.m.L (c.x k)).V + (c.own.map fun l => l.ssV c.m.L (c.x k)).sum

/-- `kappa_imp`, `results.py` 227, 235-236. -/
def kappa (c : MCtx K) (k : ℕ) : K := (c.own.map fun l => l.kappaImp (c.x k)).sum

/-- `curv`, `results.py` 241-245. -/
def curv (c : MCtx K) (k : ℕ) : K := c.M k / c.m.EI.eval (c.x k) + c.kappa k

/-- `gamma`, `results.py` 253-259 (index `k` of `x[1:-1]` is station `k + 1`). -/
def gamma (c : MCtx K) (k : ℕ) : K := match c.m.GAv with
  | some gv => -c.V (k + 1) / gv.eval (c.x (k + 1))
  | none => 0

/-- `use_bc`, `results.py` 265-267. -/
def useBc (c : MCtx K) : Bool :=
  (match c.m.EI with | .section _ => true | .const _ => false) ||
    (List.range c.n).any (fun k => decide (c.kappa k ≠ 0)) || c.m.GAv.isSome

/-- `psi_prov`, `results.py` 270. -/
def psiProv (c : MCtx K) : ℕ → K := cumTrap c.h fun k => c.curv (k + 1)

/-- `D_prov`, `results.py` 275-276. -/
def Dprov (c : MCtx K) : ℕ → K := cumTrap c.h fun k => c.psiProv k + c.gamma k

/-- The rotation at the left end recovered from `D(L) = d[2]`, `results.py` 277. -/
def psiBc (c : MCtx K) : K := (c.d 2 - c.d 0 - c.Dprov (c.n - 3)) / c.m.L

/-- The closed-form rotation at the left end of a released prismatic member,
`results.py` 281-283. -/
def psiClosed (c : MCtx K) (EI : K) : K :=
  let theta := (c.d 2 - c.d 0) / c.m.L
  let phi := (c.m.L / (3 * EI)) * (-(c.f 1 - 1 / 2 * c.f 3) + (c.Ma - 1 / 2 * c.Mb))
  theta - phi

/-- What is added to `psi_prov`, `results.py` 272-286. -/
def psi0 (c : MCtx K) : K :=
  if c.m.et = .FF then c.d 1
  else if c.useBc then c.psiBc
  else match c.m.EI with
    | .const e => c.psiClosed e
    | .section _ => c.psiBc

/-- `psi`, `results.py` 272-286. -/
def psi (c : MCtx K) (k : ℕ) : K := c.psiProv k + c.psi0

/-- `D`, `results.py` 288-289. -/
def defl (c : MCtx K) (k : ℕ) : K := cumTrap c.h (fun k => c.psi k + c.gamma k) k + c.d 0

/-- `res.R` after 291: the padding stations keep the sums of the load objects. -/
def R (c : MCtx K) (k : ℕ) : K := if c.IsEnd k then
    (mambStn (c.f 1) (c.f 3) c.m.L (c.x k)).R +
      (c.own.map fun l => (l.ssRD c.m.L c.n c.x k).1).sum
  else c.psi (k - 1)

/-- `res.D` after 292: the padding stations keep the sums of the load objects. -/
def D (c : MCtx K) (k : ℕ) : K := if c.IsEnd k then
    (mambStn (c.f 1) (c.f 3) c.m.L (c.x k)).D +
      (c.own.map fun l => (l.ssRD c.m.L c.n c.x k).2).sum
  else c.defl (k - 1)

/-- The returned object, `results.py` 294. -/
def result (c : MCtx K) : MRes K := ⟨c.n, c.x, c.M, c.V, c.R, c.D⟩

end MCtx

/-- The loads on span `i`, `results.py` 228-230. -/
def ownLoads (i : ℕ) (ls : List (SpanLoad K)) : List (Load K) :=
  (ls.filter fun l => l.iSpan = (i : ℤ)).map SpanLoad.load

/-- The local variables of `_member_values`; the clamped end forces of a load may
raise. -/
def Member.ctx (m : Member K) (i : ℕ) (ls : List (SpanLoad K)) (f d : Vec4 K) (npts : ℕ)
    (sp : List K) : Except PyErr (MCtx K) :=
  match mapE m.cnl (ownLoads i ls) with
  | .error e => .error e
  | .ok cnls =>
    .ok ⟨m, ownLoads i ls, f, d, npts, sp, (cnls.map CNL.Ma).sum, (cnls.map CNL.Mb).sum⟩

/-- `BeamResults._member_values` for a member without foundation, `results.py`
174-294.  `f`, `d` are the member's end forces and displacements, `sp` its shear
points; `x` is still measured from the left end of the member. -/
def Member.values (m : Member K) (i : ℕ) (ls : List (SpanLoad K)) (f d : Vec4 K) (npts : ℕ)
    (sp : List K) : Except PyErr (MRes K) :=
  match m.ctx i ls f d npts sp with
  | .error e => .error e
  | .ok c => .ok c.result

/-- `BeamResults._member_analysis`, `results.py` 133-148: the results of every member
from the member end forces and nodal displacements, with `x` measured from the left
end of the beam. -/
def BeamDef.memberResults (b : BeamDef K) (res : Result K) (npts : ℕ) (sp : ℕ → List K) :
    Except PyErr (List (MRes K)) :=
  match b.setLoads with
  | .error e => .error e
  | .ok ls => mapE (fun mi : Member K × ℕ =>
      match mi.1.values mi.2 ls (res.fmbr mi.2) (elemVec res.d mi.2) npts (sp mi.2) with
      | .error e => .error e
      | .ok r => .ok
        { r with x := fun k => r.x k + ((b.members.take mi.2).map Member.L).sum })
      b.members.zipIdx

/-- An array as a list. -/
def MRes.list (r : MRes K) (a : MRes K → ℕ → K) : List K := (List.range r.n).map (a r)

/-- `BeamResults._concatenate_results`, `results.py` 96-114, for one array. -/
def concatResults (rs : List (MRes K)) (a : MRes K → ℕ → K) : List K := rs.flatMap (·.list a)

/-- `np.unique(x, return_index=True)` of a sorted array together with the picked
values: the first entry of every run of equal abscissae. -/
def uniqueFirst : List (K × K) → List (K × K)
  | [] => []
  | [p] => [p]
  | p :: q :: l => if p.1 = q.1 then
      match uniqueFirst (q :: l) with
      | [] => [p]
      | _ :: t => p :: t
    else p :: uniqueFirst (q :: l)

/-- `np.interp(x, xp, fp)`: linear between the points, constant outside (an empty
array raises `ValueError`). -/
def npInterp (x : K) : List (K × K) → Except PyErr K
  | [] => .error .valueError
  | [p] => .ok p.2
  | p :: q :: l =>
    if x ≤ p.1 then .ok p.2
    else if x < q.1 then .ok ((q.2 - p.2) / (q.1 - p.1) * (x - p.1) + p.2)
    else npInterp x (q :: l)

/-- `BeamResults.at`, `results.py` 317-323, for one array. -/
def resultsAt (rs : List (MRes K)) (a : MRes K → ℕ → K) (x : K) : Except PyErr K :=
  npInterp x (uniqueFirst ((concatResults rs MRes.x).zip (concatResults rs a)))

end PyCBA
