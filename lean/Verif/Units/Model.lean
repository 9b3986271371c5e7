import Verif.Build.Model

/-!
Model of the choice of display units, `src/pycba/units.py` 26-234.  Names are lists of
characters, `lower` is modelled on ASCII letters.  The label and formatting helpers of
`UnitSystem` (65-103) are in `Verif/Plot/Model.lean`; number formats are not modelled.
-/

namespace PyCBA

/-- `UnitSystem`, `units.py` 26-63. -/
structure UnitSystem where
  name : String
  force : String := ""
  length : String := ""
  moment : String := ""
  distributed : String := ""
  dispLabel : String := ""
  dispScale : ℚ := 1
  deriving DecidableEq

namespace UnitSystem

/-- `SI`, `units.py` 109-117. -/
def SI : UnitSystem := ⟨"SI (kN, m)", "kN", "m", "kNm", "kN/m", "mm", 1000⟩
/-- `SI_N_MM`, `units.py` 119-127. -/
def SI_N_MM : UnitSystem := ⟨"SI (N, mm)", "N", "mm", "N·mm", "N/mm", "mm", 1⟩
/-- `US_KIP_FT`, `units.py` 129-141. -/
def US_KIP_FT : UnitSystem := ⟨"US (kip, ft)", "kip", "ft", "kip·ft", "kip/ft", "in", 12⟩
/-- `US_KIP_IN`, `units.py` 143-151. -/
def US_KIP_IN : UnitSystem := ⟨"US (kip, in)", "kip", "in", "kip·in", "kip/in", "in", 1⟩
/-- `NONE`, `units.py` 153. -/
def NONE : UnitSystem := { name := "dimensionless" }

/-- `_REGISTRY`, `units.py` 157-176. -/
def registry : List (String × UnitSystem) :=
  [("si", SI), ("kn-m", SI), ("knm", SI), ("eu", SI), ("aus", SI), ("metric", SI),
   ("si-n-mm", SI_N_MM), ("n-mm", SI_N_MM), ("nmm", SI_N_MM),
   ("us", US_KIP_FT), ("us-ft", US_KIP_FT), ("kip-ft", US_KIP_FT), ("us-customary", US_KIP_FT),
   ("us-in", US_KIP_IN), ("kip-in", US_KIP_IN),
   ("none", NONE), ("dimensionless", NONE), ("", NONE)]

end UnitSystem

/-- What `.lower().replace("_", "-").replace(" ", "-")` does to one character. -/
def normChar (c : Char) : Char :=
  let d := c.toLower
  let d := if d = '_' then '-' else d
  if d = ' ' then '-' else d

/-- `_normalise`, `units.py` 181-182. -/
def normaliseName (s : List Char) : List Char := (pyStrip s).map normChar

/-- A `units` argument. -/
inductive UnitArg where
  | none
  | name (s : List Char)
  | system (u : UnitSystem)

/-- `resolve`, `units.py` 210-234, with the current default. -/
def resolveUnits (dflt : UnitSystem) : UnitArg → Except PyErr UnitSystem
  | .none => .ok dflt
  | .system u => .ok u
  | .name s =>
    match UnitSystem.registry.find? fun p => p.1.toList = normaliseName s with
    | some p => .ok p.2
    | Option.none => .error .keyError

/-- A call of `set_units`, of `resolve` or of `get_units`. -/
inductive UnitOp where
  | set (a : UnitArg)
  | resolve (a : UnitArg)
  | get

/-- One call: the default afterwards and what the call returns or raises, `units.py` 185-234. -/
def UnitOp.step (dflt : UnitSystem) : UnitOp → UnitSystem × Except PyErr UnitSystem
  | .set a => match resolveUnits dflt a with
    | .ok u => (u, .ok u)
    | .error e => (dflt, .error e)
  | .resolve a => (dflt, resolveUnits dflt a)
  | .get => (dflt, .ok dflt)

/-- A sequence of calls from the state of a freshly imported module (`_default = SI`,
`units.py` 178), most recent call last: the default and the outcomes. -/
def runUnits : List UnitOp → UnitSystem × List (Except PyErr UnitSystem)
  | ops => ops.foldl (fun acc o =>
      let r := o.step acc.1
      (r.1, acc.2 ++ [r.2])) (UnitSystem.SI, [])

end PyCBA
