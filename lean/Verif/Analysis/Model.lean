import Verif.Stiffness.Model

/-!
Model of the direct stiffness analysis of `src/pycba/analysis.py` 406-816 and of
`Beam._set_loads` / `Beam.get_ref` (`src/pycba/beam.py` 325-344, 716-752).

Arrays indexed by degree of freedom are functions on `ℕ`; only indices below
`N = 2 * n + 2` matter.  `np.linalg.solve` is not modelled: the solver is a
parameter, and the theorems assume only that what it returns satisfies the
system it was given.
-/

namespace PyCBA

open Matrix

variable {K : Type*} [Field K] [LinearOrder K]

/-- The numbers an analysis works with: `n` members with stiffness `kb i` and
fixed-end forces `ref i`, restraints `r` and prescribed displacements. -/
structure System (K : Type*) where
  n : ℕ
  kb : ℕ → Mat4 K
  ref : ℕ → Vec4 K
  r : ℕ → K
  presc : ℕ → Option K

/-- `self._nDOF = 2 * self._no_nodes`, `analysis.py` 201-203. -/
def System.N (s : System K) : ℕ := 2 * s.n + 2

/-- The array that is `v` on the slice `[s : s + 4]` and zero elsewhere. -/
def blockVec (s : ℕ) (v : Vec4 K) (p : ℕ) : K :=
  if h : s ≤ p ∧ p < s + 4 then v ⟨p - s, by omega⟩ else 0

/-- `ksys[s : s + 4, s : s + 4] += kb`, `analysis.py` 677. -/
def addBlock (k : ℕ → ℕ → K) (s : ℕ) (kb : Mat4 K) : ℕ → ℕ → K :=
  fun p q => k p q + blockVec s (fun a => blockVec s (fun b => kb a b) q) p

/-- `f[s : s + 4] -= fmbr`, `analysis.py` 611. -/
def subBlock (f : ℕ → K) (s : ℕ) (ref : Vec4 K) : ℕ → K :=
  fun p => f p - blockVec s ref p

/-- `BeamAnalysis._forces`, `analysis.py` 605-612. -/
def System.forces (s : System K) : ℕ → K :=
  (List.range s.n).foldl (fun f i => subBlock f (2 * i) (s.ref i)) fun _ => 0

/-- `BeamAnalysis._assemble`, `analysis.py` 672-686. -/
def System.assemble (s : System K) : ℕ → ℕ → K :=
  let k := (List.range s.n).foldl (fun k i => addBlock k (2 * i) (s.kb i)) fun _ _ => 0
  (List.range s.N).foldl
    (fun k i => if 0 < s.r i then fun p q => if p = i ∧ q = i then k p q + s.r i else k p q
      else k) k

/-- `BeamAnalysis._validate`, `analysis.py` 645-654. -/
def System.validate (s : System K) (fU : ℕ → K) : Bool :=
  (List.range s.N).all fun i => ¬ (0 < s.r i ∧ (s.presc i).isSome ∧ fU i ≠ 0)

/-- The prescribed value of a degree of freedom, `analysis.py` 722-727: an
explicit displacement, zero for a rigid support, nothing for a free or spring
degree of freedom. -/
def System.constr (s : System K) (i : ℕ) : Option K :=
  match s.presc i with
  | some v => some v
  | none => if s.r i < 0 then some 0 else none

/-- One pass of the loop of `_apply_bc`, `analysis.py` 720-734. -/
def bcStep (c : ℕ → Option K) (kf : (ℕ → ℕ → K) × (ℕ → K)) (i : ℕ) :
    (ℕ → ℕ → K) × (ℕ → K) :=
  match c i with
  | none => kf
  | some di =>
    let f := fun p => kf.2 p - kf.1 p i * di
    let k := fun p q => if p = i then 0 else kf.1 p q
    let k := fun p q => if q = i then 0 else k p q
    let k := fun p q => if p = i ∧ q = i then 1 else k p q
    let f := fun p => if p = i then di else f p
    (k, f)

/-- The loop of `_apply_bc` over the degrees of freedom in the list `l`. -/
def applyBCOn (c : ℕ → Option K) (l : List ℕ) (kf : (ℕ → ℕ → K) × (ℕ → K)) :
    (ℕ → ℕ → K) × (ℕ → K) :=
  l.foldl (bcStep c) kf

/-- `BeamAnalysis._apply_bc`, `analysis.py` 718-735. -/
def System.applyBC (s : System K) (kf : (ℕ → ℕ → K) × (ℕ → K)) :
    (ℕ → ℕ → K) × (ℕ → K) :=
  applyBCOn s.constr (List.range s.N) kf

/-- Matrix times vector, over the first `N` indices. -/
def mulN (N : ℕ) (k : ℕ → ℕ → K) (d : ℕ → K) (p : ℕ) : K := ∑ q ∈ Finset.range N, k p q * d q

/-- `np.linalg.solve` as used by `_solver`, `analysis.py` 787-816: it is given the
size, the matrix and the right-hand side and either returns a vector or raises
(`LinAlgError`, turned into `ValueError`). -/
abbrev Solver (K : Type*) := ℕ → (ℕ → ℕ → K) → (ℕ → K) → Except PyErr (ℕ → K)

/-- What a linear solver must do: a vector it returns satisfies the system. -/
def Solver.Sound (solve : Solver K) : Prop :=
  ∀ N A b x, solve N A b = .ok x → ∀ p < N, mulN N A x p = b p

/-- The numbers an analysis reports: displacements, reactions at rigid
supports and spring forces (`analysis.py` 461-465), member end forces
(`results.py` 138-142). -/
structure Result (K : Type*) where
  d : ℕ → K
  r : List K
  rs : List K
  fmbr : ℕ → Vec4 K

/-- The residual array of `_reactions`, `analysis.py` 773. -/
def System.residual (s : System K) (d : ℕ → K) (p : ℕ) : K :=
  mulN s.N s.assemble d p - s.forces p

/-- `r` of `BeamAnalysis._reactions`, `analysis.py` 777. -/
def System.reactions (s : System K) (d : ℕ → K) : List K :=
  ((List.range s.N).filter fun i => s.r i < 0).map (s.residual d)

/-- `rs` of `BeamAnalysis._reactions`, `analysis.py` 782-784. -/
def System.springForces (s : System K) (d : ℕ → K) : List K :=
  ((List.range s.N).filter fun i => 0 < s.r i).map fun i => -s.r i * d i

/-- The four end values of member `i` in a global array, `d[2*i : 2*i + 4]`. -/
def elemVec (d : ℕ → K) (i : ℕ) : Vec4 K := fun a => d (2 * i + a)

/-- Member end forces, `results.py` 136-142. -/
def System.endForces (s : System K) (d : ℕ → K) (i : ℕ) : Vec4 K :=
  s.kb i *ᵥ elemVec d i + s.ref i

/-- `BeamAnalysis.analyze` after the member matrices are known and without the
stability check, `analysis.py` 449-466. -/
def System.analyze (s : System K) (solve : Solver K) : Except PyErr (Result K) :=
  let fU := s.forces
  if s.validate fU then
    let kf := s.applyBC (s.assemble, fU)
    match solve s.N kf.1 kf.2 with
    | .error _ => .error .valueError
    | .ok d => .ok ⟨d, s.reactions d, s.springForces d, s.endForces d⟩
  else .error .valueError

/-! ### From a beam to a system -/

/-- Apply a fallible function to a list, stopping at the first error. -/
def mapE {α β : Type*} (f : α → Except PyErr β) : List α → Except PyErr (List β)
  | [] => .ok []
  | a :: l => match f a with
    | .error e => .error e
    | .ok b => match mapE f l with
      | .error e => .error e
      | .ok bs => .ok (b :: bs)

/-- `Beam` (`beam.py` 40-153): members, restraints, prescribed displacements and
the load matrix.  Members on an elastic foundation are modelled separately. -/
structure BeamDef (K : Type*) where
  members : List (Member K)
  restraints : List K
  presc : List (Option K)
  LM : List (Row K)

/-- `Beam._set_loads`, `beam.py` 339-344.  Looking up the rigidity for an imposed
curvature on a span that does not exist is an `IndexError` (negative span indices
count from the end). -/
def BeamDef.setLoads (b : BeamDef K) : Except PyErr (List (SpanLoad K)) :=
  match parseLM b.LM with
  | .error e => .error e
  | .ok ls =>
    if ls.all fun l => match l.load with
      | .ic _ _ => -(b.members.length : ℤ) ≤ l.iSpan ∧ l.iSpan < b.members.length
      | _ => true
    then .ok ls else .error .indexError

/-- `Beam.get_ref` for a member without foundation, `beam.py` 732-752. -/
def Member.refSum (m : Member K) (i : ℕ) : List (SpanLoad K) → Except PyErr (CNL K)
  | [] => .ok ⟨0, 0, 0, 0⟩
  | l :: ls =>
    if l.iSpan = i then
      match m.ref l.load with
      | .error e => .error e
      | .ok c => match m.refSum i ls with
        | .error e => .error e
        | .ok t => .ok ⟨c.Va + t.Va, c.Ma + t.Ma, c.Vb + t.Vb, c.Mb + t.Mb⟩
    else m.refSum i ls

/-- The system of a beam: `_forces` (fixed-end forces of every member) and
`_assemble` (stiffness of every member), `analysis.py` 603-612, 672-677.  A
restraint list shorter than the number of degrees of freedom is an `IndexError`. -/
def BeamDef.system (b : BeamDef K) : Except PyErr (System K) :=
  match b.setLoads with
  | .error e => .error e
  | .ok ls =>
    match mapE (fun mi : Member K × ℕ => mi.1.refSum mi.2 ls) b.members.zipIdx with
    | .error e => .error e
    | .ok refs =>
      match mapE Member.spanK b.members with
      | .error e => .error e
      | .ok ks =>
        if b.restraints.length < 2 * b.members.length + 2 ∨
            b.presc.length < 2 * b.members.length + 2 then .error .indexError
        else .ok
          { n := b.members.length
            kb := fun i => ks.getD i 0
            ref := fun i => (refs.getD i ⟨0, 0, 0, 0⟩).vec
            r := fun i => b.restraints.getD i 0
            presc := fun i => b.presc.getD i none }

/-- `BeamAnalysis.analyze`, `analysis.py` 447-466, with the stability check as a
parameter. -/
def BeamDef.analyze (b : BeamDef K) (stable : System K → Bool) (solve : Solver K) :
    Except PyErr (Result K) :=
  match b.system with
  | .error e => .error e
  | .ok s =>
    if s.validate s.forces ∧ ¬ stable s then .error .valueError
    else s.analyze solve

end PyCBA
