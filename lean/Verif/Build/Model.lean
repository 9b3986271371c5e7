import Verif.Analysis.Model
import Mathlib.Data.List.SplitOn
import Mathlib.Data.Rat.Defs

/-!
Model of how a beam is described: `MemberType.coerce` (`src/pycba/types.py` 38-69), support
names and beam strings (`src/pycba/utils.py`), the `Beam` constructor, `add_span` and
`get_local_span_coords` (`src/pycba/beam.py` 40-242, 502-528) and the copy of a beam made for
a load case (`src/pycba/load_cases.py` 849-871).

Strings are lists of characters.  Python's `upper` and `lower` are modelled on ASCII letters
only (other characters are left alone); `strip` and the white space it removes are complete.
`float(...)` on a string is a parameter.
-/

set_option linter.unusedSectionVars false

namespace PyCBA

variable {K : Type*} [Field K] [LinearOrder K]

/-! ### Text -/

/-- The characters `str.strip` removes (`str.isspace`). -/
def pySpace (c : Char) : Bool :=
  let n := c.toNat
  (9 ≤ n && n ≤ 13) || (28 ≤ n && n ≤ 32) || n = 0x85 || n = 0xA0 || n = 0x1680 ||
    (0x2000 ≤ n && n ≤ 0x200A) || n = 0x2028 || n = 0x2029 || n = 0x202F || n = 0x205F ||
    n = 0x3000

/-- `str.strip()`. -/
def pyStrip (s : List Char) : List Char :=
  ((s.dropWhile pySpace).reverse.dropWhile pySpace).reverse

/-- `str.upper()`, ASCII letters only. -/
def pyUpper (s : List Char) : List Char := s.map Char.toUpper

/-- `str.lower()`, ASCII letters only. -/
def pyLower (s : List Char) : List Char := s.map Char.toLower

/-! ### Member types -/

/-- The integer codes, `types.py` 32-35. -/
def EType.code : EType → ℤ
  | .FF => 1
  | .FP => 2
  | .PF => 3
  | .PP => 4

/-- What may be passed as a member type: a string, or something numpy turns into an array
(the values in it; a scalar is an array of one value). -/
inductive TypeSpec where
  | name (s : List Char)
  | num (vals : List ℚ)
  deriving DecidableEq

/-- `int(x)` of a number: towards zero. -/
def pyInt (q : ℚ) : ℤ := q.num.tdiv q.den

/-- `MemberType.coerce`, `types.py` 50-69. -/
def coerce : TypeSpec → Except PyErr EType
  | .name s =>
    let k := pyUpper (pyStrip s)
    if k = ['F', 'F'] then .ok .FF
    else if k = ['F', 'P'] then .ok .FP
    else if k = ['P', 'F'] then .ok .PF
    else if k = ['P', 'P'] then .ok .PP
    else .error .valueError
  | .num [q] =>
    let iv := pyInt q
    if iv = 1 then .ok .FF
    else if iv = 2 then .ok .FP
    else if iv = 3 then .ok .PF
    else if iv = 4 then .ok .PP
    else .error .valueError
  | .num _ => .error .valueError

/-! ### Supports -/

/-- A support: a name or a restraint pair. -/
inductive SupportSpec (K : Type*) where
  | name (s : List Char)
  | pair (l : List K)
  deriving DecidableEq

/-- `_SUPPORT_DOF`, `utils.py` 15-27. -/
def supportDof (K : Type*) [Field K] : List (String × List K) :=
  [("p", [-1, 0]), ("pin", [-1, 0]), ("pinned", [-1, 0]), ("r", [-1, 0]), ("roller", [-1, 0]),
   ("e", [-1, -1]), ("encastre", [-1, -1]), ("fixed", [-1, -1]), ("clamped", [-1, -1]),
   ("f", [0, 0]), ("free", [0, 0])]

/-- `_SUPPORT_DOF[key]`; `none` for a `KeyError`. -/
def lookupDof (k : List Char) : Option (List K) :=
  ((supportDof K).find? fun e => e.1.toList = k).map Prod.snd

/-- `_support_pair`, `utils.py` 58-78. -/
def supportPair : SupportSpec K → Except PyErr (List K)
  | .name s =>
    let key := pyLower (pyStrip s)
    if key = "h".toList ∨ key = "hinge".toList then .error .valueError
    else match lookupDof key with
      | some p => .ok p
      | none => .error .valueError
  | .pair l => if l.length ≠ 2 then .error .valueError else .ok l

/-- `supports_to_R`, `utils.py` 128-135. -/
def supportsToR (ss : List (SupportSpec K)) (nNodes : Option ℕ) : Except PyErr (List K) :=
  if nNodes.any (· ≠ ss.length) then .error .valueError
  else match mapE supportPair ss with
    | .error e => .error e
    | .ok ps => .ok ps.flatten

/-! ### Beam strings -/

/-- `[efhpr]`, `utils.py` 196. -/
def isTerm (c : Char) : Bool := c = 'e' || c = 'f' || c = 'h' || c = 'p' || c = 'r'

/-- The restraints of one terminal, `utils.py` 218-224. -/
def termDof (t : Char) : List K :=
  if t = 'h' then [0, 0] else (lookupDof [t]).getD []

/-- `parse_beam_string`, `utils.py` 195-226.  The slices between consecutive matches of
`[efhpr]` are the inner pieces of the string split at those characters.  `toFloat` is
`float(...)`, `none` for a `ValueError`. -/
def parseBeamString (toFloat : List Char → Option K) (s : List Char) :
    Except PyErr (List K × List K × List K × List EType) :=
  let s := pyLower s
  let terminals := s.filter isTerm
  let slices := (s.splitOnP isTerm).tail.dropLast
  if terminals.length < 2 then .error .valueError
  else if terminals.head? = some 'h' ∨ terminals.getLast? = some 'h' then .error .valueError
  else if terminals.tail.dropLast.any fun t => t = 'f' || t = 'e' then .error .valueError
  else
    match mapE (fun x => match toFloat x with | some v => .ok v | none => .error .valueError)
      slices with
    | .error e => .error e
    | .ok L =>
      if terminals.length - 1 ≠ L.length then .error .valueError
      else .ok (L, L.map fun _ => 300000, (terminals.map termDof).flatten,
        terminals.tail.map fun t => if t = 'h' then .FP else .FF)

/-! ### Beams -/

/-- The fields of a `Beam`, `beam.py` 93-112. -/
structure BeamB (K : Type*) where
  lens : List K
  EIs : List (Rigidity K)
  GAvs : List (Option (Rigidity K))
  kfs : List (Option K)
  types : List EType
  restraints : List K
  presc : List (Option K)
  LM : List (Row K)
  noSpans : ℕ
  length : K
  coords : List K
  version : ℕ

/-- `Beam()`, `beam.py` 93-112. -/
def BeamB.empty : BeamB K := ⟨[], [], [], [], [], [], [], [], 0, 0, [0], 0⟩

/-- One span as passed to `add_span`. -/
structure SpanSpec (K : Type*) where
  L : K
  EI : Rigidity K
  et : TypeSpec
  GAv : Option (Rigidity K)
  kf : Option K

/-- `Beam.add_span`, `beam.py` 227-243: the beam afterwards and the exception if one was
raised.  `fits` is `SectionEI.validate_length` (true of plain numbers).  The lists of lengths
and rigidities have already grown when the member type is rejected. -/
def BeamB.addSpan (fits : Rigidity K → K → Bool) (b : BeamB K) (s : SpanSpec K) :
    BeamB K × Option PyErr :=
  if ¬ fits s.EI s.L then (b, some .valueError)
  else if s.GAv.any (fun g => ¬ fits g s.L) then (b, some .valueError)
  else
    let b := { b with
      lens := b.lens ++ [s.L]
      EIs := b.EIs ++ [s.EI]
      GAvs := b.GAvs ++ [s.GAv]
      kfs := b.kfs ++ [s.kf] }
    match coerce s.et with
    | .error e => (b, some e)
    | .ok t =>
      ({ b with
        types := b.types ++ [t]
        noSpans := b.lens.length
        length := b.length + s.L
        coords := b.coords ++ [b.coords.getLastD 0 + s.L]
        version := b.version + 1 }, none)

/-- `add_span` calls in order, up to the first exception. -/
def BeamB.addSpans (fits : Rigidity K → K → Bool) (b : BeamB K) :
    List (SpanSpec K) → Except PyErr (BeamB K)
  | [] => .ok b
  | s :: ss => match b.addSpan fits s with
    | (_, some e) => .error e
    | (b', none) => b'.addSpans fits ss

/-- A per-span argument: one value for every span or one per span. -/
inductive PerSpan (α : Type*) where
  | one (a : α)
  | each (l : List α)

/-- The arguments of `Beam(...)`, `beam.py` 29-39. -/
structure BeamArgs (K : Type*) where
  L : Option (List K) := none
  EI : PerSpan (Rigidity K) := .each []
  R : Option (List K) := none
  LM : Option (List (Row K)) := none
  eletype : Option (List TypeSpec) := none
  D : Option (List (Option K)) := none
  supports : Option (List (SupportSpec K)) := none
  GAv : Option (PerSpan (Option (Rigidity K))) := none
  kf : Option (PerSpan (Option K)) := none

/-- `_broadcast_GAv`, `_broadcast_kf`, `beam.py` 155-190. -/
def broadcast {α : Type*} (n : ℕ) : Option (PerSpan (Option α)) → Except PyErr (List (Option α))
  | none => .ok (List.replicate n none)
  | some (.one a) => .ok (List.replicate n a)
  | some (.each l) => if l.length ≠ n then .error .valueError else .ok l

/-- `zip(L, EI, eletype, GAv_list, kf_list)`, which stops at the shortest. -/
def zipSpans : List K → List (Rigidity K) → List TypeSpec → List (Option (Rigidity K)) →
    List (Option K) → List (SpanSpec K)
  | l :: ls, e :: es, t :: ts, g :: gs, k :: ks => ⟨l, e, t, g, k⟩ :: zipSpans ls es ts gs ks
  | _, _, _, _, _ => []

/-- The restraint vector, `beam.py` 116-121. -/
def BeamArgs.restraints (a : BeamArgs K) : Except PyErr (Option (List K)) :=
  match a.supports with
  | none => .ok a.R
  | some ss =>
    if a.R.isSome then .error .valueError
    else match a.L with
      | none => .error .valueError
      | some L => match supportsToR ss (some (L.length + 1)) with
        | .error e => .error e
        | .ok R => .ok (some R)

/-- The rigidity of each span, `beam.py` 129-137. -/
def BeamArgs.rigidities (a : BeamArgs K) (n : ℕ) : Except PyErr (List (Rigidity K)) :=
  match a.EI with
  | .one e => .ok (List.replicate n e)
  | .each l => if n = l.length then .ok l else .error .valueError

/-- The loads are kept as given, `beam.py` 152-153. -/
def BeamB.withLM (b : BeamB K) : Option (List (Row K)) → BeamB K
  | none => b
  | some LM => { b with LM := LM }

/-- Lines 138-151 of `beam.py`: restraints and prescribed displacements. -/
def BeamB.finish (b : BeamB K) (n : ℕ) (R : Option (List K)) (D : Option (List (Option K))) :
    Except PyErr (BeamB K) :=
  match R with
  | none => .error .valueError
  | some R =>
    if R.length = 2 * n + 2 then
      match D with
      | none => .ok { b with restraints := R, presc := List.replicate R.length none }
      | some D =>
        if D.length ≠ R.length then .error .valueError
        else .ok { b with restraints := R, presc := D }
    else .error .valueError

/-- `Beam.__init__`, `beam.py` 93-153. -/
def BeamArgs.build (fits : Rigidity K → K → Bool) (a : BeamArgs K) : Except PyErr (BeamB K) :=
  match a.restraints with
  | .error e => .error e
  | .ok R =>
    match a.L, a.eletype with
    | some L, some et =>
      match broadcast L.length a.GAv, broadcast L.length a.kf, a.rigidities L.length with
      | .ok G, .ok k, .ok E =>
        match BeamB.empty.addSpans fits (zipSpans L E et G k) with
        | .error e => .error e
        | .ok b => match b.finish L.length R a.D with
          | .error e => .error e
          | .ok b => .ok (b.withLM a.LM)
      | .error e, _, _ => .error e
      | _, .error e, _ => .error e
      | _, _, .error e => .error e
    | _, _ => .ok (BeamB.empty.withLM a.LM)

/-- `Beam.get_local_span_coords`, `beam.py` 520-529, on a beam with at least one span. -/
def BeamB.localCoords (b : BeamB K) (pos : K) : ℤ × K :=
  if pos < 0 ∨ b.length < pos then (-1, 0)
  else
    let i : ℤ := match b.coords.findIdx? (pos < ·) with
      | some j => (j : ℤ) - 1
      | none => (b.noSpans : ℤ) - 1
    (i, pos - b.coords.getD i.toNat 0)

/-- `build_pycba_model`, `load_cases.py` 862-871: the arguments passed to the constructor
(through `BeamAnalysis`, which passes them on). -/
def BeamB.caseArgs (b : BeamB K) (loads : List (Row K)) : BeamArgs K where
  L := some b.lens
  EI := .each b.EIs
  R := some b.restraints
  LM := some loads
  eletype := some (b.types.map fun t => .num [(t.code : ℚ)])
  D := some b.presc
  GAv := if b.GAvs = [] then none else some (.each b.GAvs)

/-- `BeamAnalysis.__init__`, `analysis.py` 183-199: the default member type is
`np.ones((len(L), 1))`. -/
def BeamArgs.analysis (fits : Rigidity K → K → Bool) (a : BeamArgs K) : Except PyErr (BeamB K) :=
  match a.eletype, a.L with
  | some _, _ => a.build fits
  | none, none => .error .typeError
  | none, some L => { a with eletype := some (List.replicate L.length (.num [1])) }.build fits

end PyCBA
