import Verif.Build.Model
import Verif.Envelope.Model
import Mathlib.Algebra.Order.Floor.Ring
import Mathlib.Data.List.Dedup
import Mathlib.Data.List.Sort

/-!
Model of `src/pycba/vehicle.py` (vehicles and trains) and `src/pycba/bridge.py`
(moving-load analyses).
-/

namespace PyCBA

variable {K : Type*} [Field K] [LinearOrder K]

/-! ## Vehicles -/

/-- The attributes of a `Vehicle`, `vehicle.py` 42-53. -/
structure Vehicle (K : Type*) where
  axs : List K
  axw : List K
  L : K
  W : K
  noAxles : ℕ
  coords : List K
  deriving DecidableEq, Repr

/-- The loop of `vehicle.py` 51-53: each coordinate is the previous one plus the spacing. -/
def axleCoords (x : K) : List K → List K
  | [] => [x]
  | s :: ss => x :: axleCoords (x + s) ss

/-- `Vehicle.__init__`, `vehicle.py` 42-53. -/
def Vehicle.new (axs axw : List K) : Except PyErr (Vehicle K) :=
  if axs.length + 1 ≠ axw.length then .error .valueError
  else .ok ⟨axs, axw, axs.sum, axw.sum, axw.length, axleCoords 0 axs⟩

/-- `Vehicle.reverse(in_place=True)`, `vehicle.py` 74. -/
def Vehicle.reverseInPlace (v : Vehicle K) : Vehicle K :=
  { v with coords := v.coords.map fun c => v.L - c }

/-- `Vehicle.reverse(in_place=False)`, `vehicle.py` 76. -/
def Vehicle.reverseCopy (v : Vehicle K) : Except PyErr (Vehicle K) :=
  Vehicle.new v.axs.reverse v.axw.reverse

/-- `a[a == 0] = vals` where the counts agree: the zeros are replaced in order. -/
def replaceZeros : List K → List K → List K
  | [], _ => []
  | x :: xs, vals =>
    if x = 0 then match vals with
      | [] => x :: replaceZeros xs []
      | v :: vs => v :: replaceZeros xs vs
    else x :: replaceZeros xs vals

/-- NumPy's assignment through a mask, `a[a == 0] = vals`: one value is broadcast, otherwise
the number of values must be the number of zeros. -/
def maskAssign (a vals : List K) : Except PyErr (List K) :=
  match vals with
  | [v] => .ok (a.map fun x => if x = 0 then v else x)
  | _ => if vals.length = (a.filter fun x => x = 0).length then .ok (replaceZeros a vals)
    else .error .valueError

/-- `make_train`, `vehicle.py` 197-213 (every list entry is a vehicle). -/
def makeTrain (vs : List (Vehicle K)) (spacings : List K) : Except PyErr (Vehicle K) :=
  if (vs.length : ℤ) - 1 ≠ spacings.length then .error .valueError
  else
    let axles := vs.flatMap fun v => v.axw
    let spaces := vs.flatMap fun v => 0 :: v.axs
    match maskAssign spaces (0 :: spacings) with
    | .error e => .error e
    | .ok s => Vehicle.new s.tail axles

/-! ## Shear points -/

/-- `_vertical_support_xs`, `bridge.py` 14-20 (with restraints for every node). -/
def verticalSupports (b : BeamB K) : List K :=
  ((List.range (b.lens.length + 1)).filter fun i : ℕ => b.restraints.getD (2 * i) 0 ≠ 0).map
    fun i : ℕ => (b.lens.take i).sum

/-- The candidate sections, `bridge.py` 58-63. -/
def shearCandidates (b : BeamB K) (points : Option (List K)) (dv : Option K) : List K :=
  (match points with
    | some ps => ps
    | none => []) ++
  match dv with
    | some d => (verticalSupports b).flatMap fun x0 => [x0 - d, x0 + d]
    | none => []

/-- `sorted({...})`: each element once, in ascending order. -/
def sortedSet (l : List K) : List K := l.dedup.insertionSort (· ≤ ·)

/-- `resolve_shear_points`, `bridge.py` 58-74: the points per member (a member without points
has no entry in the dictionary and gets `[]` here) and the global points. -/
def resolveShearPoints (b : BeamB K) (points : Option (List K)) (dv : Option K) :
    (ℤ → List K) × List K :=
  let pg := sortedSet ((shearCandidates b points dv).filter fun g => 0 < g ∧ g < b.length)
  (fun i => (pg.filterMap fun g =>
      let c := b.localCoords g
      if c.1 ≠ -1 ∧ c.1 = i then some c.2 else none).insertionSort (· ≤ ·), pg)

/-! ## Load matrices of a vehicle position -/

/-- `BridgeAnalysis._axle_LM`, `bridge.py` 299-309. -/
def axleLM (b : BeamB K) (v : Vehicle K) (pos : K) : List (Row K) :=
  (v.coords.zip v.axw).filterMap fun cw =>
    let c := b.localCoords (pos - cw.1)
    if c.1 ≠ -1 then some ⟨c.1 + 1, 2, [cw.2, c.2, 0]⟩ else none

/-- `BridgeAnalysis._interval_udl_LM`, `bridge.py` 329-337. -/
def intervalUdlLM (b : BeamB K) (xa xb w : K) : List (Row K) :=
  (List.range b.noSpans).filterMap fun i : ℕ =>
    let x0 := (b.lens.take i).sum
    let x1 := (b.lens.take (i + 1)).sum
    let lo := max xa x0
    let hi := min xb x1
    if hi - lo > 1 / 10 ^ 9 then some ⟨(i : ℤ) + 1, 3, [w, lo - x0, hi - lo]⟩ else none

/-- The lane load at one vehicle position, `bridge.py` 566-579. -/
def laneLM (b : BeamB K) (v : Vehicle K) (w : K) (clearances : Option (K × K)) (pos : K) :
    List (Row K) :=
  match clearances with
  | none => intervalUdlLM b 0 b.length w
  | some (back, front) =>
    let lo := pos - v.L - back
    let hi := pos + front
    (if lo > 0 then intervalUdlLM b 0 (min lo b.length) w else []) ++
      (if hi < b.length then intervalUdlLM b (max hi 0) b.length w else [])

/-- `_validate_clearances`, `bridge.py` 458-469 (two finite numbers). -/
def validateClearances (c : Option (K × K)) : Except PyErr (K × K) :=
  match c with
  | none => .ok (0, 0)
  | some (back, front) => if back < 0 ∨ front < 0 then .error .valueError else .ok (back, front)

/-- Python's `round`: to the nearest integer, halves to the even one. -/
def pyRound [FloorRing K] (x : K) : ℤ :=
  if x - ⌊x⌋ < 1 / 2 then ⌊x⌋
  else if x - ⌊x⌋ > 1 / 2 then ⌊x⌋ + 1
  else if ⌊x⌋ % 2 = 0 then ⌊x⌋ else ⌊x⌋ + 1

/-- The positions visited by `run_vehicle` (`bridge.py` 417-431) and `run_load_model`
(550-560).  A step of zero raises in the division or in `round`. -/
def runPositions [FloorRing K] (b : BeamB K) (v : Vehicle K) (step : K) (start stop : Option K) :
    Except PyErr (List K) :=
  let s := start.getD 0
  let e := stop.getD (b.length + v.L)
  if step = 0 then .error .arithmetic
  else .ok ((List.range (pyRound ((e - s) / step) + 1).toNat).map fun i : ℕ => s + i * step)

/-! ## The analysis object -/

/-- The parts of a `BridgeAnalysis` that decide which loads are analysed: the beam with its
load list, the captured static loads (`bridge.py` 118-119, 153, 174), and whether `static_LM`
is the same list object as the beam's (the `loads` property returns the list itself,
`beam.py` 278-288). -/
structure BridgeState (K : Type*) where
  beam : BeamB K
  veh : Vehicle K
  static : List (Row K)
  aliased : Bool

/-- What may happen to it: one vehicle position analysed, with or without a lane load
(`bridge.py` 339-359, 581-583), a new vehicle (211), capturing the bridge's loads (the
constructor and `set_bridge`, 118-119 and 173-174), a load added to the beam
(`analysis.py` `add_udl` etc., `beam.py` 324) and the beam's loads replaced
(`analysis.py` 276). -/
inductive BridgeOp (K : Type*) where
  | position (pos : K)
  | lanePosition (pos w : K) (clearances : Option (K × K))
  | setVehicle (v : Vehicle K)
  | capture
  | addLoad (r : Row K)
  | setLoads (LM : List (Row K))

/-- The beam with other loads (`Beam.loads` setter, `beam.py` 305-306). -/
def BeamB.setLM (b : BeamB K) (LM : List (Row K)) : BeamB K := { b with LM := LM }

/-- One step: the new state and the load matrix analysed, if any. -/
def BridgeState.step (s : BridgeState K) : BridgeOp K → BridgeState K × Option (List (Row K))
  | .position pos =>
    let LM := addLM s.static (axleLM s.beam s.veh pos)
    ({ s with beam := s.beam.setLM LM, aliased := false }, some LM)
  | .lanePosition pos w c =>
    let LM := addLM s.static (axleLM s.beam s.veh pos ++ laneLM s.beam s.veh w c pos)
    ({ s with beam := s.beam.setLM LM, aliased := false }, some LM)
  | .setVehicle v => ({ s with veh := v }, none)
  | .capture => ({ s with static := s.beam.LM, aliased := true }, none)
  | .addLoad r =>
    ({ s with
        beam := s.beam.setLM (s.beam.LM ++ [r])
        static := if s.aliased then s.static ++ [r] else s.static }, none)
  | .setLoads LM => ({ s with beam := s.beam.setLM LM, aliased := false }, none)

/-- The load matrices analysed in a sequence of steps. -/
def BridgeState.run (s : BridgeState K) : List (BridgeOp K) → BridgeState K × List (List (Row K))
  | [] => (s, [])
  | op :: ops =>
    let t := s.step op
    let u := t.1.run ops
    (u.1, t.2.toList ++ u.2)

/-! ## Critical values -/

/-- `a.max()` of the first `n + 1` entries is `rowMax n a`; `a.argmax()`: the first index
attaining it. -/
def argMax (n : ℕ) (a : ℕ → K) : ℕ :=
  (List.range n).foldl (fun b i => if a b < a (i + 1) then i + 1 else b) 0

/-- `a.argmin()`. -/
def argMin (n : ℕ) (a : ℕ → K) : ℕ :=
  (List.range n).foldl (fun b i => if a (i + 1) < a b then i + 1 else b) 0

/-- `np.isclose(a, b)`. -/
def npClose (a b : K) : Prop := |a - b| ≤ 1 / 10 ^ 8 + 1 / 10 ^ 5 * |b|

instance (a b : K) : Decidable (npClose a b) := inferInstanceAs (Decidable (_ ≤ _))

/-- One entry of the dictionary. -/
structure Crit (K : Type*) where
  val : K
  at_ : K
  pos : List K
  co : K

/-- The positions of the results that pass the test, `bridge.py` 637-656 and 666;
`self.pos[i]` raises when there are fewer positions than results. -/
def critPos (pos : List K) (test : EnvRes K → Bool) (l : List (EnvRes K)) : List K :=
  ((l.zip pos).filter fun rp => test rp.1).map Prod.snd

/-- `critical_values`, `bridge.py` 631-686, for the moments and shears.  The number of
stations is positive, and there is one position per result. -/
def criticalVM (l : List (EnvRes K)) (pos : List K) (e : Envelope K) :
    Except PyErr (Crit K × Crit K × Crit K × Crit K) :=
  let n := e.npts - 1
  let Mmax := rowMax n e.Mmax
  let Mmin := rowMin n e.Mmin
  let Vmax := rowMax n e.Vmax
  let Vmin := rowMin n e.Vmin
  let p1 := critPos pos (fun r => npClose (rowMax (r.npts - 1) r.M) Mmax) l
  let p2 := critPos pos (fun r => npClose (rowMin (r.npts - 1) r.M) Mmin) l
  let p3 := critPos pos (fun r => npClose (rowMax (r.npts - 1) r.V) Vmax) l
  let p4 := critPos pos (fun r => npClose (rowMin (r.npts - 1) r.V) Vmin) l
  if p1 = [] ∨ p2 = [] ∨ p3 = [] ∨ p4 = [] then .error .valueError
  else .ok
    (⟨Mmax, e.x (argMax n e.Mmax), p1, e.VcoMmax (argMax n e.Mmax)⟩,
     ⟨Mmin, e.x (argMin n e.Mmin), p2, e.VcoMmin (argMin n e.Mmin)⟩,
     ⟨Vmax, e.x (argMax n e.Vmax), p3, e.McoVmax (argMax n e.Vmax)⟩,
     ⟨Vmin, e.x (argMin n e.Vmin), p4, e.McoVmin (argMin n e.Vmin)⟩)

/-- The reaction entries, `bridge.py` 688-696: value and position, maximum and minimum. -/
def criticalR (pos : List K) (e : Envelope K) (j : ℕ) : (K × Option K) × (K × Option K) :=
  let n := e.nres - 1
  ((rowMax n (e.Rmax j), pos[argMax n (e.Rmax j)]?),
   (rowMin n (e.Rmin j), pos[argMin n (e.Rmin j)]?))

end PyCBA
