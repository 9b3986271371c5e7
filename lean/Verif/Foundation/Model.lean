import Verif.Modal.Model
import Verif.Bridge.Model
import Verif.Results.Model
import Mathlib.Analysis.SpecialFunctions.Pow.Real

/-!
Model of `src/pycba/foundation.py`: the beam-on-elastic-foundation super-element,
and of `Beam._foundation` with its uses (`beam.py` 682-714, 738-741, 889-892,
`results.py` 180-186).  `np.linalg.inv` is a parameter.
-/

namespace PyCBA

open Matrix

variable {K : Type*} [Field K] [LinearOrder K]

/-- `auto_subdivisions` with `characteristic_length`, `foundation.py` 30-50.  A zero
modulus divides by zero; a negative ratio makes the root complex and `np.ceil`
rejects it. -/
noncomputable def autoSubdivisions (L EI kf : ℝ) : Except PyErr ℕ :=
  if kf = 0 then .error .arithmetic
  else if 4 * EI / kf < 0 then .error .typeError
  else if 4 * EI / kf = 0 then .error .arithmetic
  else .ok (min (max ⌈8 * L / (4 * EI / kf) ^ (1 / 4 : ℝ)⌉ 8) 400).toNat

/-- `FoundationElement` before the matrices are formed, `foundation.py` 131-144. -/
structure Found (K : Type*) where
  L : K
  EI : K
  kf : K
  n : ℕ

namespace Found

/-- `self.h`, 143. -/
def h (F : Found K) : K := F.L / F.n

/-- `self.ndof`, 144. -/
def ndof (F : Found K) : ℕ := 2 * (F.n + 1)

/-- `ke`, 146. -/
def ke (F : Found K) : Mat4 K := kEbeam F.EI F.h + mConsistent F.kf F.h

/-- `K`, 147-150. -/
def stiff (F : Found K) : ℕ → ℕ → K :=
  (List.range F.n).foldl (fun k e => addBlock k (2 * e) F.ke) fun _ _ => 0

/-- `self.r`, 152: the degrees of freedom of the span ends. -/
def ret (F : Found K) : Fin 4 → ℕ := ![0, 1, F.ndof - 2, F.ndof - 1]

/-- `self.c`, 153. -/
def cond (F : Found K) : List ℕ := (List.range F.ndof).filter fun p => ∀ a, p ≠ F.ret a

/-- `self.Krc`, 155. -/
def Krc (F : Found K) : Matrix (Fin 4) (Fin F.cond.length) K :=
  Matrix.of fun a c => F.stiff (F.ret a) F.cond[c]

/-- `self.Kcr`, 156. -/
def Kcr (F : Found K) : Matrix (Fin F.cond.length) (Fin 4) K :=
  Matrix.of fun c a => F.stiff F.cond[c] (F.ret a)

/-- `K[np.ix_(r, r)]`, 159. -/
def Krr (F : Found K) : Mat4 K := Matrix.of fun a b => F.stiff (F.ret a) (F.ret b)

/-- `K[np.ix_(c, c)]`, 157. -/
def Kcc (F : Found K) : Matrix (Fin F.cond.length) (Fin F.cond.length) K :=
  subMatrix F.cond F.stiff

end Found

/-- `np.linalg.inv`: an inverse or `LinAlgError` (a `ValueError`). -/
abbrev Inverter (K : Type*) :=
  (m : ℕ) → Matrix (Fin m) (Fin m) K → Except PyErr (Matrix (Fin m) (Fin m) K)

/-- What `inv` promises. -/
def Inverter.Sound (inv : Inverter K) : Prop := ∀ m A X, inv m A = .ok X → A * X = 1

/-- The super-element with `self.Kcc_inv`. -/
structure FoundEl (K : Type*) extends Found K where
  inv : Matrix (Fin toFound.cond.length) (Fin toFound.cond.length) K

/-- The constructor, `foundation.py` 131-159, for a given number of sub-elements. -/
def Found.build (F : Found K) (inv : Inverter K) : Except PyErr (FoundEl K) :=
  match inv _ F.Kcc with
  | .error e => .error e
  | .ok X => .ok ⟨F, X⟩

/-- `self.k`, `foundation.py` 159. -/
def FoundEl.k (E : FoundEl K) : Mat4 K := E.Krr - E.Krc * E.inv * E.Kcr

/-! ### Loads -/

/-- `int(x)` of a float. -/
def truncInt [FloorRing K] (x : K) : ℤ := if 0 ≤ x then ⌊x⌋ else ⌈x⌉

/-- The pieces of one load on sub-element `e`, `foundation.py` 167-187. A point load
off the left end gives a negative index, which counts from the end of the list. -/
def Found.subLoad [FloorRing K] (F : Found K) : Load K → Except PyErr (ℕ → List (Load K))
  | .udl w => .ok fun _ => [.udl w]
  | .pl P a =>
    let e := min (truncInt (a / F.h)) ((F.n : ℤ) - 1)
    let i := if e < 0 then e + F.n else e
    if i < 0 then .error .indexError
    else .ok fun k => if (k : ℤ) = i then [.pl P (a - (e : K) * F.h)] else []
  | .pudl w a c => .ok fun e =>
      let x0 := (e : K) * F.h
      let x1 := ((e : K) + 1) * F.h
      let lo := max a x0
      let hi := min (a + c) x1
      if 1 / 10 ^ 12 * F.L < hi - lo then
        if npClose lo x0 ∧ npClose hi x1 then [.udl w] else [.pudl w (lo - x0) (hi - lo)]
      else []
  | _ => .error .notImplemented

/-- `_subelement_loads`, `foundation.py` 162-193. -/
def Found.subLoads [FloorRing K] (F : Found K) : List (Load K) → Except PyErr (ℕ → List (Load K))
  | [] => .ok fun _ => []
  | l :: ls => match F.subLoad l with
    | .error e => .error e
    | .ok p => match F.subLoads ls with
      | .error e => .error e
      | .ok q => .ok fun k => p k ++ q k

/-- `ref_e` of one sub-element, `foundation.py` 201-203. -/
def pieceRef (h : K) : List (Load K) → Except PyErr (Vec4 K)
  | [] => .ok 0
  | l :: ls => match l.getRef h .FF with
    | .error e => .error e
    | .ok c => match pieceRef h ls with
      | .error e => .error e
      | .ok v => .ok (c.vec + v)

/-- `_rfull`, `foundation.py` 195-206: the fixed-end forces of every sub-element. -/
def Found.refs [FloorRing K] (F : Found K) (loads : List (Load K)) :
    Except PyErr (List (Vec4 K)) :=
  match F.subLoads loads with
  | .error e => .error e
  | .ok per => mapE (fun e => pieceRef F.h (per e)) (List.range F.n)

/-- `Rfull`, `foundation.py` 198-204. -/
def rfull (refs : List (Vec4 K)) : ℕ → K :=
  (List.range refs.length).foldl (fun R e => fun p => R p + blockVec (2 * e) (refs.getD e 0) p)
    fun _ => 0

/-- `ref`, `foundation.py` 208-211, from the fixed-end forces of the pieces. -/
def FoundEl.refOf (E : FoundEl K) (refs : List (Vec4 K)) : Vec4 K :=
  (fun a => rfull refs (E.ret a)) - E.Krc *ᵥ (E.inv *ᵥ fun c => rfull refs E.cond[c])

/-- `ref`, `foundation.py` 208-211. -/
def FoundEl.ref [FloorRing K] (E : FoundEl K) (loads : List (Load K)) : Except PyErr (Vec4 K) :=
  match E.refs loads with
  | .error e => .error e
  | .ok refs => .ok (E.refOf refs)

/-! ### Recovery -/

/-- `dc`, `foundation.py` 221-222. -/
def FoundEl.dc (E : FoundEl K) (refs : List (Vec4 K)) (dr : Vec4 K) : Fin E.cond.length → K :=
  E.inv *ᵥ ((fun c => -rfull refs E.cond[c]) - E.Kcr *ᵥ dr)

/-- `d_mesh`, `foundation.py` 223-225. -/
def FoundEl.mesh (E : FoundEl K) (refs : List (Vec4 K)) (dr : Vec4 K) (p : ℕ) : K :=
  if p = E.ret 0 then dr 0 else if p = E.ret 1 then dr 1
  else if p = E.ret 2 then dr 2 else if p = E.ret 3 then dr 3
  else spread E.cond (E.dc refs dr) p

/-- `f_e`, `foundation.py` 231-232. -/
def FoundEl.pieceForces (E : FoundEl K) (refs : List (Vec4 K)) (dr : Vec4 K) (e : ℕ) : Vec4 K :=
  kEbeam E.EI E.h *ᵥ elemVec (E.mesh refs dr) e + refs.getD e 0

/-- `npts_sub`, `foundation.py` 227. -/
def FoundEl.nptsSub [FloorRing K] (E : FoundEl K) (npts : ℕ) : ℕ :=
  max 2 (pyRound ((npts : K) / E.n)).toNat

/-- `_eb_member_values`, `foundation.py` 80-104: the prismatic fixed-fixed branch of
`_member_values` on a piece of the member. -/
def pieceCtx (EI h : K) (f d : Vec4 K) (own : List (Load K)) (npts : ℕ) : MCtx K where
  m := ⟨.const EI, h, .FF, none⟩
  own := own
  f := f
  d := d
  npts := npts
  sp := []
  Ma := 0
  Mb := 0

/-- One station of a result. -/
structure FStn (K : Type*) where
  x : K
  M : K
  V : K
  R : K
  D : K

/-- The stations of one piece, `foundation.py` 233-235, moved to its place. -/
def FoundEl.pieceValues (E : FoundEl K) (refs : List (Vec4 K)) (per : ℕ → List (Load K))
    (dr : Vec4 K) (npts e : ℕ) : List (FStn K) :=
  let c := pieceCtx E.EI E.h (E.pieceForces refs dr e) (elemVec (E.mesh refs dr) e) (per e) npts
  (List.range c.n).map fun k => ⟨c.x k + (e : K) * E.h, c.M k, c.V k, c.R k, c.D k⟩

/-- `recover`, `foundation.py` 214-236, with `_concat_results` (107-113). -/
def FoundEl.recover [FloorRing K] (E : FoundEl K) (dr : Vec4 K) (loads : List (Load K)) (npts : ℕ) :
    Except PyErr (List (FStn K)) :=
  match E.subLoads loads with
  | .error e => .error e
  | .ok per => match E.refs loads with
    | .error e => .error e
    | .ok refs => .ok ((List.range E.n).flatMap fun e =>
        E.pieceValues refs per dr (E.nptsSub npts) e)

/-! ### Use in a beam -/

/-- `Beam._foundation`, `beam.py` 682-714, without its cache. -/
noncomputable def spanFoundation (inv : Inverter ℝ) (m : Member ℝ) (kf : ℝ) :
    Except PyErr (FoundEl ℝ) :=
  match m.EI, m.GAv, m.et with
  | .section _, _, _ => .error .notImplemented
  | .const _, some _, _ => .error .notImplemented
  | .const e, none, .FF => match autoSubdivisions m.L e kf with
    | .error e => .error e
    | .ok n => Found.build ⟨m.L, e, kf, n⟩ inv
  | .const _, none, _ => .error .notImplemented

/-- `Beam.get_span_k`, `beam.py` 884-918, for any span. -/
noncomputable def spanKf (inv : Inverter ℝ) (m : Member ℝ) : Option ℝ → Except PyErr (Mat4 ℝ)
  | none => m.spanK
  | some kf => match spanFoundation inv m kf with
    | .error e => .error e
    | .ok E => .ok E.k

/-- `Beam.get_ref`, `beam.py` 732-752, for any span. -/
noncomputable def spanRef (inv : Inverter ℝ) (m : Member ℝ) (i : ℕ) (ls : List (SpanLoad ℝ)) :
    Option ℝ → Except PyErr (Vec4 ℝ)
  | none => match m.refSum i ls with
    | .error e => .error e
    | .ok c => .ok c.vec
  | some kf => match spanFoundation inv m kf with
    | .error e => .error e
    | .ok E => E.ref (ownLoads i ls)

end PyCBA
