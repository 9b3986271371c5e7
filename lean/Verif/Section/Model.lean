import Verif.Stiffness.Model
import Mathlib.Data.List.Sort

/-!
Model of `src/pycba/section.py` 48-399: building and evaluating a variable rigidity.
`numpy.polyfit` and the Gauss-Legendre rule are parameters.  Plotting is in `Plot/Drawings`.
-/

namespace PyCBA

variable {K : Type*} [Field K] [LinearOrder K]

/-- `_Piece`, `section.py` 48-67. -/
structure Piece (K : Type*) where
  x0 : K
  x1 : K
  coeffs : List K
  degree : ℕ
  deriving DecidableEq

/-- `np.polyval`: coefficients from the highest power down. -/
def polyval (cs : List K) (x : K) : K := cs.foldl (fun acc c => acc * x + c) 0

/-- `_Piece.__call__`, `section.py` 66-67. -/
def Piece.eval (p : Piece K) (x : K) : K := polyval p.coeffs x

/-- The attributes of a `SectionEI`, `section.py` 117-121. -/
structure Sec (K : Type*) where
  pieces : List (Piece K)
  joins : List K
  kinks : List K
  x0 : K
  fin : K
  deriving DecidableEq

/-- `SectionEI()`. -/
def Sec.empty : Sec K := ⟨[], [], [], 0, 0⟩

/-- The `ei` argument: numbers, or a callable. -/
inductive EIArg (K : Type*) where
  | values (vs : List K)
  | func (f : K → K)

/-- The `seg_type` argument. -/
inductive SegType where
  | const | linear | pwl | poly | unknown
  deriving DecidableEq

/-- One segment specification. -/
structure Seg (K : Type*) where
  kind : SegType
  x : List K
  ei : EIArg K
  degree : Option ℤ

/-- `np.any(np.diff(x) <= 0)` is false. -/
def strictly : List K → Bool
  | a :: b :: l => decide (a < b) && strictly (b :: l)
  | _ => true

/-- `_check_positive`, `section.py` 286-288. -/
def allPos (vs : List K) : Bool := vs.all fun v => decide (0 < v)

/-- The linear pieces of a `linear` or `pwl` segment, `section.py` 235-241. -/
def linPieces : List K → List K → List (Piece K)
  | xa :: xb :: xs, ya :: yb :: ys =>
    let slope := (yb - ya) / (xb - xa)
    ⟨xa, xb, [slope, ya - slope * xa], 1⟩ :: linPieces (xb :: xs) (yb :: ys)
  | _, _ => []

/-- `np.linspace(a, b, n)`, for `n` at least two. -/
def linspaceN (a b : K) (n : ℕ) : List K :=
  (List.range n).map fun i : ℕ => a + (i : K) * ((b - a) / ((n - 1 : ℕ) : K))

/-- `np.polyfit`: stations, values, degree; coefficients from the highest power down. -/
abbrev Fit (K : Type*) := List K → List K → ℕ → List K

/-- The new pieces and kinks of a segment, `section.py` 217-263.  A callable where numbers
are expected is a `TypeError`. -/
def segPieces (fit : Fit K) (s : Seg K) (x0 x1 : K) : Except PyErr (List (Piece K) × List K) :=
  match s.kind, s.ei with
  | .const, .values [v] => if allPos [v] then .ok ([⟨x0, x1, [v], 0⟩], []) else .error .valueError
  | .const, .values _ => .error .valueError
  | .linear, .values vs =>
    if vs.length ≠ s.x.length then .error .valueError
    else if s.x.length ≠ 2 then .error .valueError
    else if allPos vs then .ok (linPieces s.x vs, []) else .error .valueError
  | .pwl, .values vs =>
    if vs.length ≠ s.x.length then .error .valueError
    else if allPos vs then .ok (linPieces s.x vs, s.x.tail.dropLast) else .error .valueError
  | .poly, .func f =>
    let deg := s.degree.getD 8
    if deg < 0 then .error .valueError
    else
      let xs := linspaceN x0 x1 (deg.toNat + 2)
      let ys := xs.map f
      if allPos ys then .ok ([⟨x0, x1, fit xs ys deg.toNat, deg.toNat⟩], [])
      else .error .valueError
  | .poly, .values vs =>
    if vs.length ≠ s.x.length then .error .valueError
    else if allPos vs then
      let deg := s.degree.getD (s.x.length - 1)
      if deg < 0 then .error .valueError
      else .ok ([⟨x0, x1, fit s.x vs deg.toNat, deg.toNat⟩], [])
    else .error .valueError
  | .unknown, _ => .error .valueError
  | _, .func _ => .error .typeError

/-- `SectionEI.add_segment`, `section.py` 191-273.  Nothing is stored before all checks
have passed, so an error leaves the section as it was. -/
def Sec.add (fit : Fit K) (t : Sec K) (s : Seg K) : Except PyErr (Sec K) :=
  if s.kind = .unknown then .error .valueError
  else if s.x.length < 2 then .error .valueError
  else if strictly s.x = false then .error .valueError
  else
    let x0 := s.x.headD 0
    let x1 := s.x.getLastD 0
    let anchor := if t.pieces = [] then 0 else t.fin
    if ¬ (|x0 - anchor| ≤ 1 / 10 ^ 9 * max 1 |anchor|) then .error .valueError
    else match segPieces fit s x0 x1 with
      | .error e => .error e
      | .ok (ps, ks) => .ok
        { pieces := t.pieces ++ ps
          joins := t.joins ++ [x1]
          kinks := t.kinks ++ ks
          x0 := if t.joins = [] then x0 else t.x0
          fin := x1 }

/-- `SectionEI(segments)`, `section.py` 123-133, and chained `add_segment` calls. -/
def Sec.build (fit : Fit K) (t : Sec K) : List (Seg K) → Except PyErr (Sec K)
  | [] => .ok t
  | s :: ss => match t.add fit s with
    | .error e => .error e
    | .ok t => t.build fit ss

/-- `SectionEI.length`, `section.py` 293-296. -/
def Sec.length (t : Sec K) : K := t.fin - t.x0

/-- Keep an entry if it exceeds its predecessor by more than `tol`. -/
def keepApart (tol : K) : K → List K → List K
  | _, [] => []
  | a, b :: l => if tol < b - a then b :: keepApart tol b l else keepApart tol b l

/-- `SectionEI.breakpoints`, `section.py` 298-314. -/
def Sec.breakpoints (t : Sec K) : List K :=
  match ([t.x0] ++ t.joins ++ t.kinks).insertionSort (· ≤ ·) with
  | [] => []
  | a :: l => a :: keepApart (1 / 10 ^ 9 * max 1 t.length) a l

/-- `SectionEI.validate_length`, `section.py` 347-354, with the default tolerance. -/
def Sec.validate (t : Sec K) (L : K) : Except PyErr Unit :=
  if t.pieces = [] then .error .valueError
  else if |t.length - L| ≤ 1 / 10 ^ 6 * max 1 |L| then .ok () else .error .valueError

/-- The value `SectionEI.__call__` gives at one coordinate, `section.py` 374-399: an error
for an empty section; `none` when no branch assigns the entry, which then keeps whatever
was in the uninitialised array. -/
def Sec.eval (t : Sec K) (x : K) : Except PyErr (Option K) :=
  match t.pieces with
  | [] => .error .valueError
  | p0 :: ps =>
    match (p0 :: ps).find? fun p => decide (p.x0 - 1 / 10 ^ 12 ≤ x ∧ x ≤ p.x1 + 1 / 10 ^ 12) with
    | some p => .ok (some (p.eval x))
    | none =>
      if x < t.x0 then .ok (some (p0.eval x))
      else if t.fin < x then .ok (some ((ps.getLastD p0).eval x))
      else .ok none

end PyCBA
