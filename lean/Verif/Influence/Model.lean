import Verif.Bridge.Model
import Verif.LoadCases.Model

/-!
Model of `InfluenceLines` (`src/pycba/inf_lines.py` 20-200).

The object keeps a `BeamAnalysis`, the list `pos` of load positions and the list `vResults` of
the results of one analysis per position.  Restraints are taken as integers where the code uses
them to index (`idx_mask`, 130-133: with a floating-point entry, such as a spring stiffness, the
mask is a float array and indexing with it raises).
-/

set_option linter.unusedSectionVars false

namespace PyCBA

variable {K : Type*} [Field K] [LinearOrder K] [IsStrictOrderedRing K]

/-- The member data of a beam without foundation as the analysis reads them
(`beam.py` 530-640: lengths, rigidities, shear rigidities and types, by span). -/
def zipMembers : List K → List (Rigidity K) → List EType → List (Option (Rigidity K)) →
    List (Member K)
  | l :: ls, e :: es, t :: ts, g :: gs => ⟨e, l, t, g⟩ :: zipMembers ls es ts gs
  | _, _, _, _ => []

/-- The beam an analysis sees. -/
def BeamB.toDef (b : BeamB K) : BeamDef K :=
  ⟨zipMembers b.lens b.EIs b.types b.GAvs, b.restraints, b.presc, b.LM⟩

/-- `BeamAnalysis` with its stability check, solver and number of points. -/
structure Analyser (K : Type*) [Field K] where
  stable : System K → Bool
  solve : Solver K
  npts : ℕ

/-- The attributes of `InfluenceLines`: the beam of `self.ba` (its loads are overwritten by
every analysis and are not kept here), `self.pos` and `self.vResults`. -/
structure ILState (K : Type*) where
  beam : BeamB K
  pos : List K
  res : List (Result K × List (MRes K))

/-- `InfluenceLines.__init__`, `inf_lines.py` 41-44. -/
def ILState.new (b : BeamB K) : ILState K := ⟨b, [], []⟩

/-- The load row of one position, `inf_lines.py` 85-89. -/
def ilRow (b : BeamB K) (P pos : K) : Row K :=
  ⟨(b.localCoords pos).1 + 1, 2, [P, (b.localCoords pos).2, 0]⟩

/-- The loop of `create_ils`, `inf_lines.py` 80-95.  The load value stays zero after a position
off the beam.  An exception leaves the lists as they are at that moment. -/
def ilLoop (A : Analyser K) (step : K) : List ℕ → K → ILState K → ILState K × Except PyErr Unit
  | [], _, s => (s, .ok ())
  | i :: is, P, s =>
    let pos := (i : K) * step
    let s1 : ILState K := { s with pos := s.pos ++ [pos] }
    let P1 := if (s.beam.localCoords pos).1 = -1 then 0 else P
    match runCase s.beam.toDef A.stable A.solve A.npts [ilRow s.beam P1 pos] with
    | .error e => (s1, .error e)
    | .ok r => ilLoop A step is P1 { s1 with res := s1.res ++ [r] }

/-- `InfluenceLines.create_ils`, `inf_lines.py` 73-95.  `vResults` is emptied first, `pos` is
not. -/
def ILState.create [FloorRing K] (A : Analyser K) (s : ILState K) (step : Option K) (P : K) :
    ILState K × Except PyErr Unit :=
  let s0 : ILState K := { s with res := [] }
  let st := step.getD (s.beam.length / 100)
  if st = 0 then (s0, .error .arithmetic)
  else ilLoop A st (List.range (pyRound (s.beam.length / st) + 1).toNat) P s0

/-- `np.abs(l - x).argmin()`, an error on an empty array. -/
def nearestIdx (x : K) : List K → Except PyErr ℕ
  | [] => .error .valueError
  | l => .ok (argMin (l.length - 1) fun i => |l.getD i 0 - x|)

/-- The span and station of the point of interest, `inf_lines.py` 139-146. -/
def ilStation (b : BeamB K) (r0 : Result K × List (MRes K)) (poi : K) : Except PyErr (ℕ × ℕ) :=
  let i := (b.localCoords poi).1
  let j := if i = -1 then b.noSpans - 1 else i.toNat
  match r0.2[j]? with
  | none => .error .indexError
  | some m =>
    match nearestIdx poi ((List.range (m.n - 2)).map fun k => m.x (k + 1)) with
    | .error e => .error e
    | .ok k => .ok (j, k + 1)

/-- The load effects of `get_il`: `V`, `R`, `MR`, anything else is the moment. -/
inductive ILEffect where
  | V | M | R | MR
  deriving DecidableEq

/-- `node_locations`, `inf_lines.py` 128. -/
def nodeLocations (b : BeamB K) : List K :=
  (List.range (b.lens.length + 1)).map fun i => (b.lens.take i).sum

/-- The index in the array of reactions of the support nearest to the point of interest,
`inf_lines.py` 130-133 and 156-172 (`off = 0`, vertical) or 178-189 (`off = 1`, rotation). -/
def ilReaction (b : BeamB K) (off : ℕ) (poi : K) : Except PyErr ℕ :=
  let sup := (List.range (b.restraints.length / 2)).filter fun j =>
    b.restraints.getD (2 * j + off) 0 = -1
  let locs := sup.map fun j => (nodeLocations b).getD j 0
  match nearestIdx poi locs with
  | .error e => .error e
  | .ok k =>
    match (nodeLocations b).findIdx? (fun x => decide (x = locs.getD k 0)) with
    | none => .error .indexError
    | some node =>
      -- `idx_mask[dof]`: the number of supported degrees of freedom before this one
      let dof := 2 * node + off
      if b.restraints.getD dof 0 = -1 then
        .ok ((List.range dof).filter fun p => b.restraints.getD p 0 = -1).length
      else .ok 0

/-- The ordinates of `get_il`, `inf_lines.py` 148-193, from the stored results. -/
def ilOrdinates (b : BeamB K) (res : List (Result K × List (MRes K))) (poi : K) (e : ILEffect) :
    Except PyErr (List K) :=
  match res with
  | [] => .error .indexError
  | r0 :: _ =>
    match ilStation b r0 poi with
    | .error er => .error er
    | .ok (j, k) =>
      match e with
      | .V => .ok (res.map fun r => (r.2.getD j ⟨0, 0, 0, 0, 0, 0⟩).V k)
      | .M => .ok (res.map fun r => (r.2.getD j ⟨0, 0, 0, 0, 0, 0⟩).M k)
      | .R => match ilReaction b 0 poi with
        | .error er => .error er
        | .ok q => .ok (res.map fun r => r.1.r.getD q 0)
      | .MR => match ilReaction b 1 poi with
        | .error er => .error er
        | .ok q => .ok (res.map fun r => r.1.r.getD q 0)

/-- `InfluenceLines.get_il`, `inf_lines.py` 119-195. -/
def ILState.get [FloorRing K] (A : Analyser K) (s : ILState K) (poi : K) (e : ILEffect) :
    ILState K × Except PyErr (List K × List K) :=
  let c := if s.res.isEmpty then s.create A none 1 else (s, .ok ())
  match c.2 with
  | .error er => (c.1, .error er)
  | .ok _ => match ilOrdinates c.1.beam c.1.res poi e with
    | .error er => (c.1, .error er)
    | .ok eta => (c.1, .ok (c.1.pos, eta))

end PyCBA
