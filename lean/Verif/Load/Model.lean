import Verif.Basic
import Mathlib.Algebra.BigOperators.Group.List.Basic

/-!
Model of `src/pycba/load.py`: the load classes, their fixed-end forces, their
simply supported span diagrams and the load-matrix helpers.

Python floats are elements of an ordered field `K`.  Array valued methods are
modelled by the value at one station (`ssV`, `ssM`, `ssR`, `ssD`) and the
zeroing of the two end stations is modelled by `zeroEnds` on lists.
-/

namespace PyCBA

variable {K : Type*} [Field K] [LinearOrder K]

/-- `load.py` 59-68: `MB`, the Macaulay bracket (`v.clip(0.0)`). -/
def mb (v : K) : K := max v 0

/-- `load.py` 70-83: `H`, `np.heaviside(v, value)`. -/
def hv (v value : K) : K := if v < 0 then 0 else if v = 0 then value else 1

/-- The load classes of `load.py` 135-1058 with their constructor arguments
(without the span index, kept in `SpanLoad`).  The rigidity of an imposed
curvature load is a scalar here (a `SectionEI` is treated separately). -/
inductive Load (K : Type*) where
  /-- `LoadUDL`, 135-157 -/
  | udl (w : K)
  /-- `LoadPL`, 225-250 -/
  | pl (P a : K)
  /-- `LoadPUDL`, 325-334 -/
  | pudl (w a c : K)
  /-- `LoadTrapez`, 435-474; `c = none` means "to the end of the span" -/
  | trapez (w1 w2 a : K) (c : Option K)
  /-- `LoadMaMb`, 673-681 -/
  | mamb (Ma Mb : K)
  /-- `LoadML`, 753-761 -/
  | ml (m a : K)
  /-- `LoadIC`, 852-912 -/
  | ic (kappa : List K) (EI : Option K)
  deriving DecidableEq, Repr

/-- What `get_cnl` returns: normally a `LoadCNL`, but `LoadPUDL.get_cnl`
(`load.py` 357-358) returns a plain Python list when the load is off the span. -/
inductive CnlRet (K : Type*) where
  | cnl (c : CNL K)
  | plainList (l : List K)
  deriving DecidableEq, Repr

/-- `LoadTrapez._resolve`, `load.py` 476-496: `(w1, w2, dw, a, c)` after
clipping to the span. -/
def resolveTrapez (w1 w2 a : K) (c : Option K) (L : K) : K × K × K × K × K :=
  let c0 := match c with
    | some c => c
    | none => L - a
  if L ≤ a ∨ c0 ≤ 0 then (w1, w2, 0, a, 0)
  else if L < a + c0 then
    let c1 := L - a
    let w2' := w1 + (w2 - w1) * c1 / c0
    (w1, w2', w2' - w1, a, c1)
  else (w1, w2, w2 - w1, a, c0)

/-- `LoadTrapez.get_cnl` after `_resolve`, `load.py` 524-575. -/
def trapezCnl (w1 w2 dw a c L : K) : CNL K :=
  let alpha := L - a
  let I1 := c ^ 4 / 4 + (a - 2 * alpha) * c ^ 3 / 3
    + (alpha ^ 2 - 2 * a * alpha) * c ^ 2 / 2 + a * alpha ^ 2 * c
  let I2 := c ^ 5 / 5 + (a - 2 * alpha) * c ^ 4 / 4
    + (alpha ^ 2 - 2 * a * alpha) * c ^ 3 / 3 + a * alpha ^ 2 * c ^ 2 / 2
  let Ma := (w1 / L ^ 2) * I1 + (dw / (c * L ^ 2)) * I2
  let J1 := -(c ^ 4) / 4 + (alpha - 2 * a) * c ^ 3 / 3
    + (2 * a * alpha - a ^ 2) * c ^ 2 / 2 + a ^ 2 * alpha * c
  let J2 := -(c ^ 5) / 5 + (alpha - 2 * a) * c ^ 4 / 4
    + (2 * a * alpha - a ^ 2) * c ^ 3 / 3 + a ^ 2 * alpha * c ^ 2 / 2
  let Mb := -((w1 / L ^ 2) * J1 + (dw / (c * L ^ 2)) * J2)
  let K1 := c ^ 4 / 2 + (a - alpha) * c ^ 3 - 3 * a * alpha * c ^ 2
    + (3 * a + alpha) * alpha ^ 2 * c
  let K2 := 2 * c ^ 5 / 5 + 3 * (a - alpha) * c ^ 4 / 4 - 2 * a * alpha * c ^ 3
    + (3 * a + alpha) * alpha ^ 2 * c ^ 2 / 2
  let Va := (w1 / L ^ 3) * K1 + (dw / (c * L ^ 3)) * K2
  let Vb := (w1 + w2) * c / 2 - Va
  { Va := Va, Vb := Vb, Ma := Ma, Mb := Mb }

/-- `LoadPUDL.get_cnl` after the cover `c` has been adjusted, `load.py` 365-375. -/
def pudlCnl (w a c L : K) : CNL K :=
  let s := a + c / 2
  let t := L - s
  { Va := (w * c / L ^ 3) * ((2 * s + L) * t ^ 2 + (s - t) * c ^ 2 / 4)
    Vb := w * c - (w * c / L ^ 3) * ((2 * s + L) * t ^ 2 + (s - t) * c ^ 2 / 4)
    Ma := (w * c / L ^ 2) * (s * t ^ 2 + (s - 2 * t) * c ^ 2 / 12)
    Mb := -(w * c / L ^ 2) * (t * s ^ 2 + (t - 2 * s) * c ^ 2 / 12) }

/-- `LoadPL.get_cnl`, `load.py` 270-282. -/
def plCnl (P a L : K) : CNL K :=
  let b := max (L - a) 0
  { Va := P / L ^ 3 * (b * L ^ 2 - a ^ 2 * b + a * b ^ 2)
    Vb := P / L ^ 3 * (a * L ^ 2 + a ^ 2 * b - a * b ^ 2)
    Ma := P * a * b ^ 2 / L ^ 2
    Mb := -P * a ^ 2 * b / L ^ 2 }

/-- `LoadUDL.get_cnl`, `load.py` 176-186. -/
def udlCnl (w L : K) : CNL K :=
  { Va := w * L / 2, Vb := w * L / 2
    Ma := w * L ^ 2 / 12, Mb := -w * L ^ 2 / 12 }

/-- `LoadMaMb.get_cnl`, `load.py` 700-711. -/
def mambCnl (Ma Mb L : K) : CNL K :=
  { Va := (Ma + Mb) / L, Vb := -(Ma + Mb) / L, Ma := Ma, Mb := Mb }

/-- `LoadML.get_cnl`, `load.py` 780-792. -/
def mlCnl (m a L : K) : CNL K :=
  let b := L - a
  { Va := 6 * m * a * b / L ^ 3
    Vb := -6 * m * a * b / L ^ 3
    Ma := (m * b / L ^ 2) * (2 * a - b)
    Mb := (m * a / L ^ 2) * (2 * b - a) }

/-- `np.polyval(kappa[::-1], x)`, `LoadIC.kappa_imp`, `load.py` 914-929:
coefficients in increasing powers (Horner form). -/
def polyInc : List K → K → K
  | [], _ => 0
  | k :: ks, x => k + x * polyInc ks x

/-- Composite Simpson rule on `2 * m` uniform intervals of `[a, b]`:
`scipy.integrate.simpson` on `np.linspace(a, b, 2 * m + 1)`
(used with `m = 1000`, `load.py` 972-977, `beam.py` 816-825). -/
def simpson (m : ℕ) (f : K → K) (a b : K) : K :=
  let h := (b - a) / (2 * m)
  ((List.range m).map fun i =>
    h / 3 * (f (a + (2 * i : ℕ) * h) + 4 * f (a + (2 * i + 1 : ℕ) * h)
      + f (a + (2 * i + 2 : ℕ) * h))).sum

/-- `LoadIC._end_moments` for a scalar rigidity, `load.py` 948-979 with
`_Ktheta` of 945-946. -/
def icEndMoments (kappa : List K) (EI L : K) : K × K :=
  let t0 := simpson 1000 (fun x => (1 - x / L) * polyInc kappa x) 0 L
  let t1 := simpson 1000 (fun x => -x / L * polyInc kappa x) 0 L
  ((2 * EI / L) * (2 * t0 + 1 * t1), (2 * EI / L) * (1 * t0 + 2 * t1))

/-- `LoadIC.get_cnl` for a scalar rigidity, `load.py` 1002-1004. -/
def icCnl (kappa : List K) (EI L : K) : CNL K :=
  let MaMb := icEndMoments kappa EI L
  { Va := (MaMb.1 + MaMb.2) / L, Vb := -(MaMb.1 + MaMb.2) / L
    Ma := MaMb.1, Mb := MaMb.2 }

/-- `get_cnl` of every load class. -/
def Load.getCnl : Load K → K → Except PyErr (CnlRet K)
  | .udl w, L => .ok (.cnl (udlCnl w L))
  | .pl P a, L => .ok (.cnl (plCnl P a L))
  | .pudl w a c, L =>
      -- load.py 357-363
      if L < a then .ok (.plainList [0, 0, 0, 0])
      else
        let d := L - (a + c)
        let c' := if d < 0 then c + d else c
        .ok (.cnl (pudlCnl w a c' L))
  | .trapez w1 w2 a c, L =>
      -- load.py 519-522
      let r := resolveTrapez w1 w2 a c L
      if r.2.2.2.2 ≤ 0 then .ok (.cnl ⟨0, 0, 0, 0⟩)
      else .ok (.cnl (trapezCnl r.1 r.2.1 r.2.2.1 r.2.2.2.1 r.2.2.2.2 L))
  | .mamb Ma Mb, L => .ok (.cnl (mambCnl Ma Mb L))
  | .ml m a, L => .ok (.cnl (mlCnl m a L))
  | .ic _ none, _ => .error .valueError
  | .ic kappa (some EI), L => .ok (.cnl (icCnl kappa EI L))

/-- `Load.get_ref`, `load.py` 105-132, on the fixed-end forces `c`. -/
def releaseCnl (c : CNL K) (L : K) (et : EType) : CNL K :=
  let fm := 6 / (4 * L)
  match et with
  | .FP => ⟨c.Va - fm * c.Mb, c.Ma - 1 / 2 * c.Mb, c.Vb - -fm * c.Mb, c.Mb - 1 * c.Mb⟩
  | .PF => ⟨c.Va - fm * c.Ma, c.Ma - 1 * c.Ma, c.Vb - -fm * c.Ma, c.Mb - 1 / 2 * c.Ma⟩
  | .PP => ⟨c.Va - -(c.Ma + c.Mb) / L, c.Ma - 1 * c.Ma, c.Vb - (c.Ma + c.Mb) / L,
      c.Mb - 1 * c.Mb⟩
  | .FF => ⟨c.Va - 0, c.Ma - 0, c.Vb - 0, c.Mb - 0⟩

/-- `Load.get_ref`, `load.py` 85-132.  Reading `.Va` of a plain list is an
`AttributeError`. -/
def Load.getRef (ld : Load K) (L : K) (et : EType) : Except PyErr (CNL K) :=
  match ld.getCnl L with
  | .error e => .error e
  | .ok (.plainList _) => .error .attributeError
  | .ok (.cnl c) => .ok (releaseCnl c L et)

/-! ### Simply supported span diagrams at one station -/

/-- Values reported at one station. -/
@[ext] structure Stn (K : Type*) where
  V : K
  M : K
  R : K
  D : K
  deriving DecidableEq, Repr

/-- `LoadUDL.get_mbr_results`, `load.py` 209-215. -/
def udlStn (w L x : K) : Stn K :=
  let Va := w * L / 2
  let Ra := -w * L ^ 3 / 24
  { V := Va - w * x
    M := Va * x - w / 2 * x ^ 2
    R := (Va / 2) * x ^ 2 - (w / 6) * x ^ 3 + Ra
    D := (Va / 6) * x ^ 3 - (w / 24) * x ^ 4 + Ra * x }

/-- `LoadPL.get_mbr_results`, `load.py` 305-315. -/
def plStn (P a L x : K) : Stn K :=
  let b := max (L - a) 0
  let Va := P * b / L
  let Ra := P * b * (b ^ 2 - L ^ 2) / (6 * L)
  { V := Va - P * hv (x - a) 0
    M := Va * x - P * mb (x - a)
    R := (Va / 2) * x ^ 2 - (P / 2) * mb (x - a) ^ 2 + Ra
    D := (Va / 6) * x ^ 3 - (P / 6) * mb (x - a) ^ 3 + Ra * x }

/-- `LoadPUDL.get_mbr_results`, `load.py` 400-425. -/
def pudlStn (w a c L x : K) : Stn K :=
  let b := c + a
  let Va := (L - b + c / 2) * c * w / L
  let Ra := -((Va / 6) * L ^ 3 + (w / 24) * (L - b) ^ 4 - (w / 24) * (L - a) ^ 4) / L
  { V := Va - w * mb (x - a) + w * mb (x - b)
    M := Va * x - (w / 2) * mb (x - a) ^ 2 + (w / 2) * mb (x - b) ^ 2
    R := (Va / 2) * x ^ 2 - (w / 6) * mb (x - a) ^ 3 + (w / 6) * mb (x - b) ^ 3 + Ra
    D := (Va / 6) * x ^ 3 - (w / 24) * mb (x - a) ^ 4 + (w / 24) * mb (x - b) ^ 4
      + Ra * x }

/-- `LoadTrapez.get_mbr_results` after `_resolve`, `load.py` 609-663. -/
def trapezStn (w1 w2 dw a c L x : K) : Stn K :=
  let b := a + c
  let alpha := L - a
  let delta := L - b
  let Va := ((w1 / 2) * alpha ^ 2 + (dw / (6 * c)) * alpha ^ 3
    - (w2 / 2) * delta ^ 2 - (dw / (6 * c)) * delta ^ 3) / L
  let Ra := (-(Va / 6) * L ^ 3 + (w1 / 24) * alpha ^ 4 + (dw / (120 * c)) * alpha ^ 5
    - (w2 / 24) * delta ^ 4 - (dw / (120 * c)) * delta ^ 5) / L
  let MBa := mb (x - a)
  let MBb := mb (x - b)
  { V := Va - w1 * MBa - (dw / (2 * c)) * MBa ^ 2 + w2 * MBb + (dw / (2 * c)) * MBb ^ 2
    M := Va * x - (w1 / 2) * MBa ^ 2 - (dw / (6 * c)) * MBa ^ 3 + (w2 / 2) * MBb ^ 2
      + (dw / (6 * c)) * MBb ^ 3
    R := (Va / 2) * x ^ 2 - (w1 / 6) * MBa ^ 3 - (dw / (24 * c)) * MBa ^ 4
      + (w2 / 6) * MBb ^ 3 + (dw / (24 * c)) * MBb ^ 4 + Ra
    D := (Va / 6) * x ^ 3 - (w1 / 24) * MBa ^ 4 - (dw / (120 * c)) * MBa ^ 5
      + (w2 / 24) * MBb ^ 4 + (dw / (120 * c)) * MBb ^ 5 + Ra * x }

/-- `LoadMaMb.get_mbr_results`, `load.py` 734-743. -/
def mambStn (Ma Mb L x : K) : Stn K :=
  let Va := (Ma + Mb) / L
  let Ra := Ma * L / 3 - Mb * L / 6
  { V := Va
    M := Va * x - Ma
    R := (Va / 2) * x ^ 2 - Ma * x + Ra
    D := (Va / 6) * x ^ 3 - (Ma / 2) * x ^ 2 + Ra * x }

/-- `LoadML.get_mbr_results`, `load.py` 815-842. -/
def mlStn (m a L x : K) : Stn K :=
  let b := L - a
  let Va := m / L
  let Ra := (m / 6) * (3 * b ^ 2 / L - L)
  { V := Va
    M := if a = 0 then Va * x - m * hv (x - a) 1
      else if a = L then Va * x - m * hv (x - a) 0
      else Va * x - m * hv (x - a) (1 / 2)
    R := (Va / 2) * x ^ 2 - m * mb (x - a) + Ra
    D := (Va / 6) * x ^ 3 - (m / 2) * mb (x - a) ^ 2 + Ra * x }

/-- The station values of `get_mbr_results` before the two end stations are
zeroed.  `LoadIC` reports `V = M = 0` (`load.py` 1047-1048); its rotation and
deflection are cumulative sums over the whole grid and are modelled separately
(`icResults`), so the pointwise model returns `none` for it. -/
def Load.stn : Load K → K → K → Option (Stn K)
  | .udl w, L, x => some (udlStn w L x)
  | .pl P a, L, x => some (plStn P a L x)
  | .pudl w a c, L, x => some (pudlStn w a c L x)
  | .trapez w1 w2 a c, L, x =>
      -- load.py 600-607
      let r := resolveTrapez w1 w2 a c L
      if r.2.2.2.2 ≤ 0 then some ⟨0, 0, 0, 0⟩
      else some (trapezStn r.1 r.2.1 r.2.2.1 r.2.2.2.1 r.2.2.2.2 L x)
  | .mamb Ma Mb, L, x => some (mambStn Ma Mb L x)
  | .ml m a, L, x => some (mlStn m a L x)
  | .ic _ _, _, _ => none

/-- `res.V[0] = 0; res.V[npts - 1] = 0` and the same for `M`, e.g. `load.py`
217-220 (on an empty array this raises `IndexError`; the callers pass at least
three stations). -/
def zeroEnds (l : List K) : List K :=
  (l.set 0 0).set (l.length - 1) 0

/-! ### Load matrices -/

/-- A row of a load matrix: span number (1-based), load type code and the
remaining numbers.  Simplification: the span number and the type code are
integers (Python computes `int(load[0] - 1)`). -/
structure Row (K : Type*) where
  span : ℤ
  ltype : ℤ
  args : List K
  deriving DecidableEq, Repr

/-- A parsed load with the 0-based index of its span. -/
structure SpanLoad (K : Type*) where
  iSpan : ℤ
  load : Load K
  deriving DecidableEq, Repr

/-- One iteration of `parse_LM`, `load.py` 1083-1118.  `.ok none` is a row whose
type code is not recognised: it is dropped without an error. Indexing past the
end of the row is an `IndexError`. -/
def parseRow (r : Row K) : Except PyErr (Option (SpanLoad K)) :=
  let span := r.span - 1
  if r.ltype = 1 then
    match r.args with
    | w :: _ => .ok (some ⟨span, .udl w⟩)
    | _ => .error .indexError
  else if r.ltype = 2 then
    match r.args with
    | P :: a :: _ => .ok (some ⟨span, .pl P a⟩)
    | _ => .error .indexError
  else if r.ltype = 3 then
    match r.args with
    | w :: a :: c :: _ => .ok (some ⟨span, .pudl w a c⟩)
    | _ => .error .indexError
  else if r.ltype = 4 then
    match r.args with
    | m :: a :: _ => .ok (some ⟨span, .ml m a⟩)
    | _ => .error .indexError
  else if r.ltype = 5 then
    match r.args with
    | w1 :: w2 :: a :: c :: _ => .ok (some ⟨span, .trapez w1 w2 a (some c)⟩)
    | [w1, w2, a] => .ok (some ⟨span, .trapez w1 w2 a none⟩)
    | [w1, w2] => .ok (some ⟨span, .trapez w1 w2 0 none⟩)
    | _ => .error .indexError
  else if r.ltype = 6 then
    .ok (some ⟨span, .ic r.args none⟩)
  else .ok none

/-- `parse_LM`, `load.py` 1061-1119. -/
def parseLM : List (Row K) → Except PyErr (List (SpanLoad K))
  | [] => .ok []
  | r :: rs =>
      match parseRow r with
      | .error e => .error e
      | .ok o =>
        match parseLM rs with
        | .error e => .error e
        | .ok ls => .ok (match o with
            | some l => l :: ls
            | none => ls)

/-- `add_LM`, `load.py` 1122-1146. -/
def addLM (LM1 LM2 : List (Row K)) : List (Row K) := LM1 ++ LM2

/-- One iteration of `factor_LM`, `load.py` 1168-1184 (an `IndexError` when the
row is too short). -/
def factorRow (g : K) (r : Row K) : Except PyErr (Row K) :=
  match r.args with
  | [] => .error .indexError
  | x :: rest =>
    if r.ltype = 1 then .ok ⟨r.span, r.ltype, [g * x]⟩
    else if r.ltype = 2 ∨ r.ltype = 4 then
      match rest with
      | a :: _ => .ok ⟨r.span, r.ltype, [g * x, a]⟩
      | [] => .error .indexError
    else if r.ltype = 5 then
      match rest with
      | w2 :: tl => .ok ⟨r.span, r.ltype, g * x :: g * w2 :: tl⟩
      | [] => .error .indexError
    else if r.ltype = 6 then
      .ok ⟨r.span, r.ltype, (x :: rest).map (g * ·)⟩
    else
      match rest with
      | a :: c :: _ => .ok ⟨r.span, r.ltype, [g * x, a, c]⟩
      | _ => .error .indexError

/-- `factor_LM`, `load.py` 1149-1186. -/
def factorLM (g : K) : List (Row K) → Except PyErr (List (Row K))
  | [] => .ok []
  | r :: rs =>
      match factorRow g r with
      | .error e => .error e
      | .ok r' =>
        match factorLM g rs with
        | .error e => .error e
        | .ok rs' => .ok (r' :: rs')

end PyCBA
