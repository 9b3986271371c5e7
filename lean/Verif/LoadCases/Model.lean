import Verif.Results.Model
import Mathlib.Data.Nat.Bitwise

/-!
Model of `src/pycba/load_cases.py` and `src/pycba/pattern.py`: named load cases,
combinations, envelopes over subsets of cases, patterned loads.

Simplifications: a load case's metadata is reduced to its optional `load_position`;
`deepcopy` is the identity because Lean values are immutable; response arrays are
lists.
-/

namespace PyCBA

variable {K : Type*} [Field K] [LinearOrder K]

/-- `LoadCase`, `load_cases.py` 34-47. -/
structure LCase (K : Type*) where
  name : String
  loads : List (Row K)
  loadedSpans : List ℤ
  loadPosition : Option ℕ

/-- What `append` accepts, `load_cases.py` 759-787: a bare load matrix or an object (or
dictionary) that may lack a name. -/
inductive LCSource (K : Type*) where
  | matrix (loads : List (Row K))
  | object (name : Option String) (loads : List (Row K)) (loadedSpans : List ℤ)
      (loadPosition : Option ℕ)

/-- `_load_case_name`, `load_cases.py` 759-763. -/
def LCSource.name (i : ℕ) : LCSource K → String
  | .matrix _ => s!"LC {i + 1}"
  | .object n _ _ _ => n.getD s!"LC {i + 1}"

/-- `_load_case_loads`, `load_cases.py` 766-770. -/
def LCSource.loads : LCSource K → List (Row K)
  | .matrix l => l
  | .object _ l _ _ => l

/-- `_load_case_loaded_spans`, `load_cases.py` 773-787. -/
def LCSource.loadedSpans : LCSource K → List ℤ
  | .matrix l => ((l.map fun r => r.span - 1).dedup).mergeSort (fun a b => a ≤ b)
  | .object _ l s _ => if s = [] then ((l.map fun r => r.span - 1).dedup).mergeSort (fun a b => a ≤ b)
      else s

/-- The mutating operations of `LoadCases`. -/
inductive LCOp (K : Type*) where
  /-- `add` / `add_case`, `load_cases.py` 365-404 -/
  | add (c : LCase K)
  /-- `set`, 406-423 -/
  | set (c : LCase K)
  /-- `append`, 425-438 -/
  | append (s : LCSource K)
  /-- `add_load`, `add_udl`, `add_pl`, ... by case name, 461-544 -/
  | addLoad (name : String) (r : Row K)

/-- `LoadCases.names`, `load_cases.py` 323-327. -/
def lcNames (cs : List (LCase K)) : List String := cs.map LCase.name

/-- `LoadCases.add`, `load_cases.py` 395-404: the collection afterwards and the
outcome. -/
def lcAdd (cs : List (LCase K)) (c : LCase K) : List (LCase K) × Except PyErr Unit :=
  if c.name ∈ lcNames cs then (cs, .error .valueError) else (cs ++ [c], .ok ())

/-- Replace the contents of the first case of that name, `load_cases.py` 415-423. -/
def lcReplace (c : LCase K) : List (LCase K) → List (LCase K)
  | [] => []
  | d :: cs => if d.name = c.name then c :: cs else d :: lcReplace c cs

/-- `self.case(name).add_load(load)`: append a row to the first case of that name,
`load_cases.py` 49-53, 358-360. -/
def lcAddLoad (name : String) (r : Row K) : List (LCase K) → List (LCase K)
  | [] => []
  | d :: cs => if d.name = name then { d with loads := d.loads ++ [r] } :: cs
      else d :: lcAddLoad name r cs

/-- One operation on a collection: the collection afterwards and the outcome. -/
def lcStep (cs : List (LCase K)) : LCOp K → List (LCase K) × Except PyErr Unit
  | .add c => lcAdd cs c
  | .set c => if c.name ∈ lcNames cs then (lcReplace c cs, .ok ()) else lcAdd cs c
  | .append s => match s with
    | .matrix l => lcAdd cs ⟨s.name cs.length, l, s.loadedSpans, none⟩
    | .object _ l _ p => lcAdd cs ⟨s.name cs.length, l, s.loadedSpans, p⟩
  | .addLoad name r =>
    if name ∈ lcNames cs then (lcAddLoad name r cs, .ok ())
    else
      -- `case(name)` creates the missing case (361-363), then the row is appended
      let cs' := (lcAdd cs ⟨name, [], [], none⟩).1
      (lcAddLoad name r cs', .ok ())

/-- A history of operations; a raised exception is caught by the caller, who goes on. -/
def lcRun (cs : List (LCase K)) (ops : List (LCOp K)) : List (LCase K) :=
  ops.foldl (fun cs op => (lcStep cs op).1) cs

/-! ### Factors -/

/-- The keys of a mapping of factors. -/
inductive FKey where
  | name (s : String)
  | index (i : ℤ)
  deriving DecidableEq

/-- What `factors` accepts, `load_cases.py` 587-592. -/
inductive FSpec (K : Type*) where
  /-- a mapping, as its items in order -/
  | mapping (items : List (FKey × K))
  /-- a one-dimensional sequence -/
  | vec (v : List K)

/-- The index of the last case of a name: `name_to_index[key]` of the dictionary built
at `load_cases.py` 606. -/
def nameIndex (cs : List (LCase K)) (s : String) : Option ℕ :=
  cs.zipIdx.foldl (fun o ci => if ci.1.name = s then some ci.2 else o) none

/-- One pass of the loop at `load_cases.py` 607-614; `out[idx] = value` with a negative
index counts from the end. -/
def factorStep (cs : List (LCase K)) (out : List K) (kv : FKey × K) : Except PyErr (List K) :=
  match kv.1 with
  | .name s => match nameIndex cs s with
    | none => .error .keyError
    | some i => .ok (out.set i kv.2)
  | .index i =>
    if 0 ≤ i ∧ i < cs.length then .ok (out.set i.toNat kv.2)
    else if -(cs.length : ℤ) ≤ i ∧ i < 0 then .ok (out.set (i + cs.length).toNat kv.2)
    else .error .indexError

/-- The loop at `load_cases.py` 607-614. -/
def factorLoop (cs : List (LCase K)) : List K → List (FKey × K) → Except PyErr (List K)
  | out, [] => .ok out
  | out, kv :: kvs => match factorStep cs out kv with
    | .error e => .error e
    | .ok out => factorLoop cs out kvs

/-- `LoadCases.factors` for one factor set, `load_cases.py` 601-626 (a
`LoadCombination` is replaced by its factors, 601-602). -/
def lcFactors (cs : List (LCase K)) : FSpec K → Except PyErr (List K)
  | .mapping items => factorLoop cs (List.replicate cs.length 0) items
  | .vec v => if v.length ≠ cs.length then .error .valueError else .ok v

/-! ### Analysing cases -/

/-- `build_pycba_model` then `analyze` then `beam_results.results`, `load_cases.py`
849-871, 913-915, for members without foundation: the base beam with the case's loads. -/
def runCase (b : BeamDef K) (stable : System K → Bool) (solve : Solver K) (npts : ℕ)
    (LM : List (Row K)) : Except PyErr (Result K × List (MRes K)) :=
  let b' : BeamDef K := { b with LM := LM }
  match b'.analyze stable solve with
  | .error e => .error e
  | .ok res => match b'.memberResults res npts (fun _ => []) with
    | .error e => .error e
    | .ok rs => .ok (res, rs)

/-- The four responses of `load_cases.py` 897-911. -/
inductive Resp where
  | M | V | R | D
  deriving DecidableEq

/-- `getattr(results, attr)`, `load_cases.py` 916. -/
def Resp.get : Resp → MRes K → ℕ → K
  | .M => MRes.M
  | .V => MRes.V
  | .R => MRes.R
  | .D => MRes.D

/-- `np.allclose(x, x_ref)` on arrays of equal length. -/
def allClose (x y : List K) : Bool :=
  (x.zip y).all fun p => |p.1 - p.2| ≤ 1 / 10 ^ 8 + 1 / 10 ^ 5 * |p.2|

/-- The loop of `collect_response_matrix`, `load_cases.py` 941-949, after the first
case. -/
def collectRest (x : List K) : List (List K × List K) → Except PyErr (List (List K))
  | [] => .ok []
  | (x', y) :: l =>
    if x'.length ≠ x.length ∨ ¬ allClose x' x then .error .valueError
    else match collectRest x l with
      | .error e => .error e
      | .ok rows => .ok (y :: rows)

/-- `collect_response_matrix`, `load_cases.py` 938-954: stations and one row per case. -/
def responseMatrix (b : BeamDef K) (stable : System K → Bool) (solve : Solver K) (npts : ℕ)
    (cs : List (LCase K)) (rp : Resp) : Except PyErr (List K × List (List K)) :=
  match mapE (fun c : LCase K => runCase b stable solve npts c.loads) cs with
  | .error e => .error e
  | .ok runs =>
    match runs.map fun r => (concatResults r.2 MRes.x, concatResults r.2 rp.get) with
    | [] => .error .valueError
    | (x, y) :: rest => match collectRest x rest with
      | .error e => .error e
      | .ok rows => .ok (x, y :: rows)

/-- `f @ B` for a vector `f` and the rows of `B`, each of length `m`. -/
def vecMat (m : ℕ) (f : List K) (B : List (List K)) : List K :=
  (List.range m).map fun k => (List.zipWith (fun a row => a * row.getD k 0) f B).sum

/-- `LoadCases.combine`, `load_cases.py` 670-672. -/
def lcCombine (b : BeamDef K) (stable : System K → Bool) (solve : Solver K) (npts : ℕ)
    (cs : List (LCase K)) (spec : FSpec K) (rp : Resp) : Except PyErr (List K × List K) :=
  match responseMatrix b stable solve npts cs rp with
  | .error e => .error e
  | .ok (x, B) => match lcFactors cs spec with
    | .error e => .error e
    | .ok f => .ok (x, vecMat x.length f B)

/-- The loop of `combined_loads`, `load_cases.py` 692-697. -/
def combinedLoads : List K → List (LCase K) → Except PyErr (List (Row K))
  | f :: fs, c :: cs =>
    if f = 0 then combinedLoads fs cs
    else match factorLM f c.loads with
      | .error e => .error e
      | .ok l => match combinedLoads fs cs with
        | .error e => .error e
        | .ok t => .ok (l ++ t)
  | _, _ => .ok []

/-- `LoadCases.analyze_combination`, `load_cases.py` 714-717. -/
def analyzeCombination (b : BeamDef K) (stable : System K → Bool) (solve : Solver K) (npts : ℕ)
    (cs : List (LCase K)) (spec : FSpec K) : Except PyErr (Result K × List (MRes K)) :=
  match lcFactors cs spec with
  | .error e => .error e
  | .ok f => match combinedLoads f cs with
    | .error e => .error e
    | .ok LM => runCase b stable solve npts LM

/-! ### Envelopes over subsets of cases -/

/-- Column `k` of a response matrix. -/
def column (B : List (List K)) (k : ℕ) : List K := B.map (·.getD k 0)

/-- `np.argsort` of a column: any function that returns a permutation of the indices
putting the column in nondecreasing order (the order of ties is not specified). -/
structure Argsort (K : Type*) [LinearOrder K] where
  order : List K → List ℕ
  perm : ∀ c, (order c).Perm (List.range c.length)
  sorted : ∀ c : List K, ∀ (d : K), ((order c).map fun i => c.getD i d).Pairwise (· ≤ ·)

/-- `additive_envelope`, `load_cases.py` 968-985, for a matrix with `m` stations: the
negative and positive envelope and the picked cases at every station. -/
def additiveEnvelope (as : Argsort K) (B : List (List K)) (m : ℕ) (n : ℤ) :
    Except PyErr (List K × List K × List (List ℕ) × List (List ℕ)) :=
  if n < 1 then .error .valueError
  else if (B.length : ℤ) < n then .error .valueError
  else
    let neg := fun k => (as.order (column B k)).take n.toNat
    let pos := fun k =>
      (as.order (column B k)).drop ((as.order (column B k)).length - n.toNat)
    let tot := fun (idx : ℕ → List ℕ) (k : ℕ) =>
      ((idx k).map fun i => (column B k).getD i 0).sum
    .ok ((List.range m).map (tot neg), (List.range m).map (tot pos),
      (List.range m).map neg, (List.range m).map pos)

/-- The positions of `sign_selective_envelope`, `load_cases.py` 1005-1012. -/
def selPositions (n : ℕ) : Option (List ℕ) → Except PyErr (List ℕ)
  | none => .ok ((List.range n).map fun i => 1 <<< i)
  | some l => if l.length ≠ n then .error .valueError else .ok l

/-- The two masks of one station, `load_cases.py` 1020-1028. -/
def signMasks : List ℕ → List K → ℕ × ℕ
  | p :: ps, v :: vs =>
    let t := signMasks ps vs
    if v < 0 then (p ||| t.1, t.2)
    else if 0 < v then (t.1, p ||| t.2)
    else t
  | _, _ => (0, 0)

/-- `sign_selective_envelope`, `load_cases.py` 1000-1030, at the `m` stations:
minimum, maximum and the masks. -/
def signSelective (B : List (List K)) (m : ℕ) (pos : Option (List ℕ)) :
    Except PyErr (List K × List K × List ℕ × List ℕ) :=
  match selPositions B.length pos with
  | .error e => .error e
  | .ok ps => .ok
    ((List.range m).map fun k => ((column B k).map fun v => if v < 0 then v else 0).sum,
     (List.range m).map fun k => ((column B k).map fun v => if 0 < v then v else 0).sum,
     (List.range m).map fun k => (signMasks ps (column B k)).1,
     (List.range m).map fun k => (signMasks ps (column B k)).2)

/-! ### Target combinations -/

/-- One row of `_response_at`, `load_cases.py` 1042-1050, for sorted stations. -/
def responseAt (x : List K) (x0 : K) (row : List K) : Except PyErr K :=
  if x = [] then .error .valueError
  else if x0 < x.headD 0 ∨ x.getLastD 0 < x0 then .error .valueError
  else npInterp x0 (uniqueFirst (x.zip row))

/-- The factors of `_make_target_combination`, `load_cases.py` 1078-1086, from the
responses of the cases at the target. -/
def targetFactors (minimum : Bool) (sel unsel : K) (vals : List K) : List K :=
  vals.map fun v => if (if minimum then v < 0 else 0 < v) then sel else unsel

/-- `sense`, `load_cases.py` 1070-1076 (`none` is an unknown word). -/
def targetSense (sense : String) : Option Bool :=
  if sense.toLower ∈ ["min", "minimum", "neg", "negative", "hogging"] then some true
  else if sense.toLower ∈ ["max", "maximum", "pos", "positive", "sagging"] then some false
  else none

/-- `_make_target_combination`, `load_cases.py` 1070-1103: the factors and the target
values. -/
def targetCombination (b : BeamDef K) (stable : System K → Bool) (solve : Solver K) (npts : ℕ)
    (cs : List (LCase K)) (x0 : K) (sense : String) (rp : Resp) (sel unsel : K) :
    Except PyErr (List K × List K) :=
  match targetSense sense with
  | none => .error .valueError
  | some mn => match responseMatrix b stable solve npts cs rp with
    | .error e => .error e
    | .ok (x, B) => match mapE (responseAt x x0) B with
      | .error e => .error e
      | .ok vals => .ok (targetFactors mn sel unsel vals, vals)

/-! ### Patterned loads -/

/-- `_span_boundaries`, `load_cases.py` 790-791. -/
def boundary (Ls : List K) (i : ℕ) : K := (Ls.take i).sum

/-- The cover of segment `j` of `n`, `load_cases.py` 1185-1188. -/
def segCover (L : K) (n j : ℕ) : K :=
  if j = n - 1 then L - (j : K) * (L / n) else L / n

/-- The case of segment `j` (from 0) of span `i` (from 1), `load_cases.py` 1187-1205. -/
def segCase (w L : K) (n i j idx : ℕ) : LCase K :=
  ⟨s!"UDL span {i} segment {j + 1}",
    [⟨(i : ℤ), 3, [w, (j : K) * (L / n), segCover L n j]⟩], [(i : ℤ) - 1], some (1 <<< idx)⟩

/-- Add cases one after the other, stopping at the first exception. -/
def lcAddAll (cs : List (LCase K)) : List (LCase K) → Except PyErr (List (LCase K))
  | [] => .ok cs
  | c :: l => match lcAdd cs c with
    | (_, .error e) => .error e
    | (cs', .ok _) => lcAddAll cs' l

/-- `make_patterned_udl`, `load_cases.py` 1177-1208 (`n_segments` an integer). -/
def patternedUdl (Ls : List K) (w : K) (n : ℤ) : Except PyErr (List (LCase K)) :=
  if n < 1 then .error .valueError
  else lcAddAll [] (Ls.zipIdx.flatMap fun Li =>
    (List.range n.toNat).map fun j =>
      segCase w Li.1 n.toNat (Li.2 + 1) j (Li.2 * n.toNat + j))

/-- `make_span_udl_cases` / `add_span_udl`, `load_cases.py` 446-459. -/
def spanUdl (cs : List (LCase K)) (Ls : List K) (w : K) : Except PyErr (List (LCase K)) :=
  lcAddAll cs ((List.range Ls.length).map fun i : ℕ =>
    ⟨s!"UDL on span {i + 1}", [⟨(i : ℤ) + 1, 1, [w]⟩], [(i : ℤ)], none⟩)

/-- `np.isclose(a, b, atol)` with the default `rtol`. -/
def isClose (a b atol : K) : Bool := |a - b| ≤ atol + 1 / 10 ^ 5 * |b|

/-- The row of one span in `_make_segment_udl`, `load_cases.py` 1135-1151: span `i`
(from 0) between `s` and `e`. -/
def segmentRow (x0 x1 w : K) (i : ℕ) (s e : K) : Option (Row K) :=
  let tol : K := 1 / 10 ^ 9
  let os := max x0 s
  let oe := min x1 e
  let cover := oe - os
  if cover ≤ tol then none
  else
    let L := e - s
    let a := os - s
    let a := if isClose a 0 tol then 0 else a
    let cover := if isClose cover L tol then L else cover
    if a = 0 ∧ cover = L then some ⟨(i : ℤ) + 1, 1, [w]⟩
    else some ⟨(i : ℤ) + 1, 3, [w, a, cover]⟩

/-- `_make_segment_udl`, `load_cases.py` 1118-1153. -/
def segmentUdl (Ls : List K) (x0 x1 w : K) : Except PyErr (List (Row K)) :=
  let tol : K := 1 / 10 ^ 9
  let total := Ls.sum
  if x1 ≤ x0 then .error .valueError
  else if x0 < -tol ∨ total + tol < x1 then .error .valueError
  else
    let x0 := max 0 (min x0 total)
    let x1 := max 0 (min x1 total)
    .ok ((List.range Ls.length).filterMap fun i =>
      segmentRow x0 x1 w i (boundary Ls i) (boundary Ls (i + 1)))

/-- `_choose_max_by_span`, `load_cases.py` 841-846. -/
def chooseMax (wmin wmax : List (Row K)) (spans : List ℤ) : List (Row K) :=
  List.zipWith (fun lo hi => if hi.span ∈ spans then hi else lo) wmin wmax

/-- The patterns of `LoadPattern.to_load_cases`, `pattern.py` 148-190, as names and
spans loaded with the maximum. -/
def patternSpans (N : ℕ) : List (String × List ℤ) :=
  ((List.range (N - 1)).map fun i : ℕ =>
    (s!"Max hogging spans {i + 1}-{i + 2}", [(i : ℤ) + 1, (i : ℤ) + 2])) ++
  [("Max odd spans", ((List.range N).filter fun i => i % 2 = 0).map fun i : ℕ => (i : ℤ) + 1),
   ("Max even spans", ((List.range N).filter fun i => i % 2 = 1).map fun i : ℕ => (i : ℤ) + 1)]

/-- `LoadPattern.to_load_cases`, `pattern.py` 139-190. -/
def loadPattern (N : ℕ) (LMg LMq : Option (List (Row K))) (gmax gmin qmax qmin : K) :
    Except PyErr (List (LCase K)) :=
  match LMg, LMq with
  | some g, some q =>
    match factorLM gmax g, factorLM qmax q, factorLM gmin g, factorLM qmin q with
    | .ok g1, .ok q1, .ok g0, .ok q0 =>
      lcAddAll [] (((patternSpans N).map fun p =>
        ⟨p.1, chooseMax (g0 ++ q0) (g1 ++ q1) p.2, p.2.map (· - 1), none⟩) ++
        [⟨"All spans max", g1 ++ q1, (List.range N).map (fun i : ℕ => (i : ℤ)), none⟩])
    | .error e, _, _, _ => .error e
    | _, .error e, _, _ => .error e
    | _, _, .error e, _ => .error e
    | _, _, _, .error e => .error e
  | _, _ => .error .valueError

end PyCBA
