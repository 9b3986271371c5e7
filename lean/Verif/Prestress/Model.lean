import Verif.Load.Model

/-!
Model of `src/pycba/prestress.py`: the tendon profiles and the equivalent loads.

Python floats are elements of an ordered field `K`.  A division of two Python floats by
zero raises `ZeroDivisionError` (`PyErr.arithmetic`); the only divisor that the checks of
the profiles leave unguarded is the length of a cantilever parabola.
-/

namespace PyCBA

variable {K : Type*} [Field K] [LinearOrder K]

/-- `prestress.py` 55: `_TOL`. -/
def pTol : K := 1 / 10 ^ 9

/-- `prestress.py` 57-66: `_Seg`, a piece of a tendon profile. -/
@[ext] structure TSeg (K : Type*) where
  x1 : K
  x2 : K
  e1 : K
  e2 : K
  epp : K
  deriving DecidableEq, Repr

namespace TSeg

/-- `prestress.py` 67-69. -/
def length (s : TSeg K) : K := s.x2 - s.x1

/-- `prestress.py` 71-74. -/
def slopeStart (s : TSeg K) : K := (s.e2 - s.e1) / s.length - 1 / 2 * s.epp * s.length

/-- `prestress.py` 76-77. -/
def slopeEnd (s : TSeg K) : K := s.slopeStart + s.epp * s.length

/-- The eccentricity formula of `_eval_e`, `prestress.py` 415. -/
def ecc (s : TSeg K) (x : K) : K :=
  s.e1 + s.slopeStart * (x - s.x1) + 1 / 2 * s.epp * (x - s.x1) ^ 2

end TSeg

/-- `_eval_e`, `prestress.py` 411-416. -/
def evalE (segs : List (TSeg K)) (x : K) : K :=
  match segs with
  | [] => 0
  | s :: rest => if s.x1 - pTol ≤ x ∧ x ≤ s.x2 + pTol then s.ecc x else evalE rest x

/-- `_parabola_through`, `prestress.py` 80-86. -/
def parabolaThrough (x1 e1 x2 e2 xm em : K) : K :=
  let f01 := (em - e1) / (xm - x1)
  let f12 := (e2 - em) / (x2 - xm)
  2 * (f12 - f01) / (x2 - x1)

/-- The `cantilever` argument of `segments`: the side of the free tip. -/
inductive Tip where
  | left
  | right
  deriving DecidableEq, Repr

/-- The profile classes of `prestress.py` 92-301 with their fields. -/
inductive Profile (K : Type*) where
  /-- `Parabola`, 92-117 -/
  | parabola (el em er cl cr : K)
  /-- `CompoundParabola`, 152-176 -/
  | compound (el em er a b c : K)
  /-- `Harp`, 214-237 -/
  | harp (el em er a cl cr : K)
  /-- `DoubleHarp`, 256-281 -/
  | doubleHarp (el e1 e2 er a b cl cr : K)
  deriving DecidableEq, Repr

/-- The horizontal piece from the left support to the high point, e.g. `prestress.py`
142-143. -/
def flatLeft (cl el : K) : List (TSeg K) := if pTol < cl then [⟨0, cl, el, el, 0⟩] else []

/-- The horizontal piece from the right high point to the support, e.g. `prestress.py`
145-146. -/
def flatRight (cr er L : K) : List (TSeg K) :=
  if pTol < cr then [⟨L - cr, L, er, er, 0⟩] else []

/-- The four pieces of a compound parabola, `prestress.py` 191-211. -/
def compoundSegs (el em er a b c L : K) : List (TSeg K) :=
  let d := L - b
  let a1 := (a / c) * (em - el)
  let a2 := (em - el) - a1
  let a4 := (b / d) * (em - er)
  let a3 := (em - er) - a4
  let ea := el + a1
  let ed := er + a4
  [⟨0, a, el, ea, 2 * a1 / a ^ 2⟩, ⟨a, c, ea, em, -2 * a2 / (c - a) ^ 2⟩,
    ⟨c, d, em, ed, -2 * a3 / (d - c) ^ 2⟩, ⟨d, L, ed, er, 2 * a4 / b ^ 2⟩]

/-- `segments` of the four classes. -/
def Profile.segments : Profile K → K → Option Tip → Except PyErr (List (TSeg K))
  | .parabola el _ er cl _, L, some .right =>
      -- prestress.py 121-128; `Le**2` of a zero length divides by zero
      let Le := L - cl
      if Le = 0 then .error .arithmetic
      else .ok (flatLeft cl el ++ [⟨cl, L, el, er, 2 * (er - el) / Le ^ 2⟩])
  | .parabola el _ er _ cr, L, some .left =>
      -- prestress.py 129-136
      let Le := L - cr - 0
      if Le = 0 then .error .arithmetic
      else .ok ([⟨0, L - cr, el, er, 2 * (el - er) / Le ^ 2⟩] ++ flatRight cr er L)
  | .parabola el em er cl cr, L, none =>
      -- prestress.py 137-149
      let x1 := cl
      let x2 := L - cr
      if x2 - x1 ≤ pTol then .error .valueError
      else
        let xm := 1 / 2 * (x1 + x2)
        .ok (flatLeft cl el ++ [⟨x1, x2, el, er, parabolaThrough x1 el x2 er xm em⟩]
          ++ flatRight cr er L)
  | .compound el em er a b c, L, cant =>
      -- prestress.py 179-211
      if cant ≠ none then .error .notImplemented
      else if ¬ (0 < a ∧ a < c ∧ c < L - b ∧ L - b < L) then .error .valueError
      else .ok (compoundSegs el em er a b c L)
  | .harp el em er a cl cr, L, _ =>
      -- prestress.py 240-253
      if ¬ (cl < a ∧ a < L - cr) then .error .valueError
      else .ok (flatLeft cl el ++ [⟨cl, a, el, em, 0⟩, ⟨a, L - cr, em, er, 0⟩]
        ++ flatRight cr er L)
  | .doubleHarp el e1 e2 er a b cl cr, L, _ =>
      -- prestress.py 284-298
      if ¬ (cl < a ∧ a < b ∧ b < L - cr) then .error .valueError
      else .ok (flatLeft cl el ++ [⟨cl, a, el, e1, 0⟩, ⟨a, b, e1, e2, 0⟩,
        ⟨b, L - cr, e2, er, 0⟩] ++ flatRight cr er L)

/-- The distributed load of one piece, `prestress.py` 372-377. -/
def curvRow (span : ℤ) (F L : K) (s : TSeg K) : List (Row K) :=
  if pTol < |s.epp| then
    if s.x1 ≤ pTol ∧ L - pTol ≤ s.x2 then [⟨span, 1, [F * s.epp]⟩]
    else [⟨span, 3, [F * s.epp, s.x1, s.length]⟩]
  else []

/-- The point load at the kink before one piece, `prestress.py` 379-383. -/
def kinkRow (span : ℤ) (F L : K) (prev : Option K) (s : TSeg K) : List (Row K) :=
  match prev with
  | none => []
  | some p =>
    let dSlope := s.slopeStart - p
    if pTol < |dSlope| ∧ pTol < s.x1 ∧ s.x1 < L - pTol then [⟨span, 2, [F * dSlope, s.x1]⟩]
    else []

/-- The loop over the pieces of one span, `prestress.py` 370-384. -/
def segRows (span : ℤ) (F L : K) : Option K → List (TSeg K) → List (Row K)
  | _, [] => []
  | prev, s :: rest =>
    curvRow span F L s ++ kinkRow span F L prev s ++ segRows span F L (some s.slopeEnd) rest

/-- The local variables of `equivalent_loads` that survive an iteration: the load matrix,
and `(e, F, slope)` at the two ends of the tendon (`none` while unbound). -/
structure PtState (K : Type*) where
  LM : List (Row K)
  first : Option (K × K × K)
  last : Option (K × K × K)

/-- The `cant` of span `i`, `prestress.py` 362-367 (`R` are the restraints of the beam). -/
def cantOf (R : ℕ → K) (i : ℕ) : Option Tip :=
  if R (2 * i) = 0 ∧ R (2 * i + 1) = 0 then some .left
  else if R (2 * (i + 1)) = 0 ∧ R (2 * (i + 1) + 1) = 0 then some .right
  else none

/-- One iteration of the loop over the spans, `prestress.py` 356-391. -/
def ptStep (R : ℕ → K) (i : ℕ) (L F : K) (prof : Option (Profile K)) (st : PtState K) :
    Except PyErr (PtState K) :=
  match prof with
  | none => .ok st
  | some p =>
    match p.segments L (cantOf R i) with
    | .error e => .error e
    | .ok [] => .error .indexError
    | .ok (s0 :: rest) =>
      let sl := (s0 :: rest).getLast (List.cons_ne_nil _ _)
      .ok ⟨st.LM ++ segRows (i + 1) F L none (s0 :: rest),
        some (st.first.getD (s0.e1, F, s0.slopeStart)), some (sl.e2, F, sl.slopeEnd)⟩

/-- The loop over the spans, `prestress.py` 356-391. -/
def ptLoop (R : ℕ → K) : ℕ → List (K × K × Option (Profile K)) → PtState K →
    Except PyErr (PtState K)
  | _, [], st => .ok st
  | i, (L, F, p) :: rest, st =>
    match ptStep R i L F p st with
    | .error e => .error e
    | .ok st' => ptLoop R (i + 1) rest st'

/-- The vertical anchorage force at a free tip, `prestress.py` 404-407: `first_slope` and
`last_slope` are unbound when no span has a profile. -/
def tipRow (free : Bool) (span : ℤ) (sgn at_ : K) (o : Option (K × K × K)) :
    Except PyErr (List (Row K)) :=
  if free then
    match o with
    | none => .error .unboundLocal
    | some (_, F, sl) => .ok (if pTol < |sl| then [⟨span, 2, [sgn * F * sl, at_]⟩] else [])
  else .ok []

/-- The anchorage couple, `prestress.py` 400-403. -/
def coupleRow (span : ℤ) (sgn at_ : K) (o : Option (K × K × K)) : List (Row K) :=
  match o with
  | none => []
  | some (e, F, _) => if pTol < |e| then [⟨span, 4, [sgn * F * e, at_]⟩] else []

/-- `equivalent_loads`, `prestress.py` 314-408.  `F` are the forces per span (a scalar force
is repeated, line 345), `Ls` the span lengths and `R` the restraints of the beam. -/
def equivalentLoads (Ls : List K) (R : ℕ → K) (F : List K) (profiles : List (Option (Profile K))) :
    Except PyErr (List (Row K)) :=
  let n := Ls.length
  if profiles.length ≠ n then .error .valueError
  else if F.length ≠ n then .error .valueError
  else
    match ptLoop R 0 (Ls.zip (F.zip profiles)) ⟨[], none, none⟩ with
    | .error e => .error e
    | .ok st =>
      let Ln := Ls.getLastD 0
      match tipRow (decide (R 0 = 0 ∧ R 1 = 0)) 1 1 0 st.first with
      | .error e => .error e
      | .ok t1 =>
        match tipRow (decide (R (2 * n) = 0 ∧ R (2 * n + 1) = 0)) n (-1) Ln st.last with
        | .error e => .error e
        | .ok t2 => .ok (st.LM ++ coupleRow 1 1 0 st.first ++ coupleRow n (-1) Ln st.last
            ++ t1 ++ t2)

end PyCBA
