import Verif.Basic
import Mathlib.Algebra.Order.Field.Basic
import Mathlib.Order.Bounds.Basic

/-!
Model of `Envelopes`, `src/pycba/results.py` 378-909.

Arrays are functions on `ℕ`; only indices below the array's length matter.
-/

namespace PyCBA

variable {K : Type*} [Field K] [LinearOrder K]

/-- What an envelope reads of one `BeamResults` (`results.py` 72-78): the stations
with shear and moment, the reactions at rigid supports and the number of stations of
each member. -/
structure EnvRes (K : Type*) where
  npts : ℕ
  x : ℕ → K
  V : ℕ → K
  M : ℕ → K
  nsup : ℕ
  R : ℕ → K
  counts : List ℕ

/-- The attributes of an `Envelopes` object, `results.py` 420-438. -/
structure Envelope (K : Type*) where
  npts : ℕ
  nsup : ℕ
  nres : ℕ
  x : ℕ → K
  counts : List ℕ
  Vmax : ℕ → K
  Vmin : ℕ → K
  Mmax : ℕ → K
  Mmin : ℕ → K
  VcoMmax : ℕ → K
  VcoMmin : ℕ → K
  McoVmax : ℕ → K
  McoVmin : ℕ → K
  Rmax : ℕ → ℕ → K
  Rmin : ℕ → ℕ → K
  Rmaxval : ℕ → K
  Rminval : ℕ → K

/-- The eight arrays of `_get_envelopes_VM`. -/
structure VMArrays (K : Type*) where
  Vmax : ℕ → K
  Vmin : ℕ → K
  Mmax : ℕ → K
  Mmin : ℕ → K
  VcoMmax : ℕ → K
  VcoMmin : ℕ → K
  McoVmax : ℕ → K
  McoVmin : ℕ → K

/-- `np.where(mask, a, b)`. -/
def npWhere (mask : ℕ → Bool) (a b : ℕ → K) : ℕ → K := fun i => if mask i then a i else b i

/-- `np.zeros`. -/
def npZeros : ℕ → K := fun _ => 0

/-- The body of the loop of `_get_envelopes_VM`, `results.py` 479-496. -/
def vmStep (s : VMArrays K) (res : EnvRes K) : VMArrays K :=
  let V := res.V
  let M := res.M
  let mask1 := fun i => decide (M i > s.Mmax i)
  let VcoMmax := npWhere mask1 V s.VcoMmax
  let Mmax := npWhere mask1 M s.Mmax
  let mask2 := fun i => decide (M i < s.Mmin i)
  let VcoMmin := npWhere mask2 V s.VcoMmin
  let Mmin := npWhere mask2 M s.Mmin
  let mask3 := fun i => decide (V i > s.Vmax i)
  let McoVmax := npWhere mask3 M s.McoVmax
  let Vmax := npWhere mask3 V s.Vmax
  let mask4 := fun i => decide (V i < s.Vmin i)
  let McoVmin := npWhere mask4 M s.McoVmin
  let Vmin := npWhere mask4 V s.Vmin
  ⟨Vmax, Vmin, Mmax, Mmin, VcoMmax, VcoMmin, McoVmax, McoVmin⟩

/-- `_get_envelopes_VM`, `results.py` 468-498. -/
def envelopesVM (l : List (EnvRes K)) : VMArrays K :=
  l.foldl vmStep ⟨npZeros, npZeros, npZeros, npZeros, npZeros, npZeros, npZeros, npZeros⟩

/-- `Rmax` of `_get_envelope_R`, `results.py` 521-528: support `j`, result `i`. -/
def envelopeRmax (l : List (EnvRes K)) (j i : ℕ) : K :=
  match l[i]? with
  | some res => max 0 (res.R j)
  | none => 0

/-- `Rmin` of `_get_envelope_R`, `results.py` 521-528. -/
def envelopeRmin (l : List (EnvRes K)) (j i : ℕ) : K :=
  match l[i]? with
  | some res => min 0 (res.R j)
  | none => 0

/-- `a.max(axis=1)` of an array with `n + 1` columns. -/
def rowMax (n : ℕ) (a : ℕ → K) : K := (List.range n).foldl (fun m i => max m (a (i + 1))) (a 0)

/-- `a.min(axis=1)` of an array with `n + 1` columns. -/
def rowMin (n : ℕ) (a : ℕ → K) : K := (List.range n).foldl (fun m i => min m (a (i + 1))) (a 0)

/-- `Envelopes.__init__`, `results.py` 420-438.  An empty list raises at
`vResults[0]`.  Results whose number of stations or of reactions differs from the
first one's raise in the array operations (simplification: NumPy would broadcast an
array of length one). The station coordinates are not compared. -/
def Envelope.new : List (EnvRes K) → Except PyErr (Envelope K)
  | [] => .error .indexError
  | r0 :: rs =>
    let l := r0 :: rs
    if l.all fun r => r.npts = r0.npts ∧ r.nsup = r0.nsup then
      let vm := envelopesVM l
      let Rmax := envelopeRmax l
      let Rmin := envelopeRmin l
      .ok
        { npts := r0.npts, nsup := r0.nsup, nres := l.length, x := r0.x, counts := r0.counts
          Vmax := vm.Vmax, Vmin := vm.Vmin, Mmax := vm.Mmax, Mmin := vm.Mmin
          VcoMmax := vm.VcoMmax, VcoMmin := vm.VcoMmin
          McoVmax := vm.McoVmax, McoVmin := vm.McoVmin
          Rmax := Rmax, Rmin := Rmin
          Rmaxval := fun j => rowMax rs.length (Rmax j)
          Rminval := fun j => rowMin rs.length (Rmin j) }
    else .error .valueError

/-- `Envelopes.zero_like`, `results.py` 549-563. -/
def Envelope.zeroLike (e : Envelope K) : Envelope K :=
  { e with
    Vmax := npZeros, Vmin := npZeros, Mmax := npZeros, Mmin := npZeros
    VcoMmax := npZeros, VcoMmin := npZeros, McoVmax := npZeros, McoVmin := npZeros
    Rmax := fun _ => npZeros, Rmin := fun _ => npZeros
    Rmaxval := npZeros, Rminval := npZeros }

/-- `Envelopes.augment`, `results.py` 679-708: the new value of `self`. -/
def Envelope.augment (self env : Envelope K) : Except PyErr (Envelope K) :=
  if self.npts ≠ env.npts ∨ self.nsup ≠ env.nsup then .error .valueError
  else
    let vmaxUpdate := fun i => decide (env.Vmax i > self.Vmax i)
    let vminUpdate := fun i => decide (env.Vmin i < self.Vmin i)
    let mmaxUpdate := fun i => decide (env.Mmax i > self.Mmax i)
    let mminUpdate := fun i => decide (env.Mmin i < self.Mmin i)
    .ok
      { self with
        Vmax := fun i => max (self.Vmax i) (env.Vmax i)
        Vmin := fun i => min (self.Vmin i) (env.Vmin i)
        Mmax := fun i => max (self.Mmax i) (env.Mmax i)
        Mmin := fun i => min (self.Mmin i) (env.Mmin i)
        VcoMmax := npWhere mmaxUpdate env.VcoMmax self.VcoMmax
        VcoMmin := npWhere mminUpdate env.VcoMmin self.VcoMmin
        McoVmax := npWhere vmaxUpdate env.McoVmax self.McoVmax
        McoVmin := npWhere vminUpdate env.McoVmin self.McoVmin
        Rmaxval := fun j => max (self.Rmaxval j) (env.Rmaxval j)
        Rminval := fun j => min (self.Rminval j) (env.Rminval j)
        Rmax := if self.nres = env.nres then fun j i => max (self.Rmax j i) (env.Rmax j i)
          else fun _ _ => 0
        Rmin := if self.nres = env.nres then fun j i => min (self.Rmin j i) (env.Rmin j i)
          else fun _ _ => 0 }

/-- `Envelopes.sum`, `results.py` 737-754: the new value of `self`. -/
def Envelope.sum (self env : Envelope K) : Except PyErr (Envelope K) :=
  if self.npts ≠ env.npts ∨ self.nsup ≠ env.nsup then .error .valueError
  else .ok
      { self with
        Vmax := fun i => self.Vmax i + env.Vmax i
        Vmin := fun i => self.Vmin i + env.Vmin i
        Mmax := fun i => self.Mmax i + env.Mmax i
        Mmin := fun i => self.Mmin i + env.Mmin i
        Rmaxval := fun j => self.Rmaxval j + env.Rmaxval j
        Rminval := fun j => self.Rminval j + env.Rminval j
        Rmax := if self.nres = env.nres then fun j i => self.Rmax j i + env.Rmax j i
          else fun _ _ => 0
        Rmin := if self.nres = env.nres then fun j i => self.Rmin j i + env.Rmin j i
          else fun _ _ => 0 }

/-- The merging modes of `combine` (any other string raises `ValueError`). -/
inductive CombineMode where
  | envelope
  | sum
  deriving DecidableEq

/-- One pass of the loop of `combine`, `results.py` 610-614. -/
def Envelope.merge (mode : CombineMode) (out env : Envelope K) : Except PyErr (Envelope K) :=
  match mode with
  | .envelope => out.augment env
  | .sum => out.sum env

/-- The loop of `combine`, `results.py` 610-615. -/
def Envelope.mergeAll (mode : CombineMode) : Envelope K → List (Envelope K) →
    Except PyErr (Envelope K)
  | out, [] => .ok out
  | out, e :: es => match out.merge mode e with
    | .error err => .error err
    | .ok out' => mergeAll mode out' es

/-- `Envelopes.combine`, `results.py` 603-615; also `__or__` and `__add__`, 756-782. -/
def Envelope.combine (mode : CombineMode) : List (Envelope K) → Except PyErr (Envelope K)
  | [] => .error .valueError
  | e :: es => e.zeroLike.mergeAll mode (e :: es)

/-- The loop of `per_span`, `results.py` 895-899: the chunks of an array. -/
def chunksFrom (values : ℕ → K) : ℕ → List ℕ → List (List K)
  | _, [] => []
  | start, c :: cs =>
    ((List.range c).map fun k => values (start + k)) :: chunksFrom values (start + c) cs

/-- `per_span` with `reduce="max"`, `results.py` 892-909 (the maximum of an empty chunk
raises `ValueError`). -/
def perSpanMax (e : Envelope K) (values : ℕ → K) : Option (List K) :=
  (chunksFrom values 0 e.counts).mapM List.max?

/-- `per_span` with `reduce="min"`. -/
def perSpanMin (e : Envelope K) (values : ℕ → K) : Option (List K) :=
  (chunksFrom values 0 e.counts).mapM List.min?

end PyCBA
