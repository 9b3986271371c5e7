import Verif.Analysis.Equil
import Verif.Nonlinear.Model

/-!
Model of the schematic of `src/pycba/render.py`: what `BeamPlotter` infers from a beam
(118-283) and the TikZ commands it writes (884-977, 1033-1156).  The matplotlib drawing is
`Render/Mpl`.  The number formatting `:g` (six digits), colours and, in TikZ, labels of
magnitudes are not modelled.  Also `BeamAnalysis._reactions_by_node`, `analysis.py` 1032-1061.
-/

namespace PyCBA

variable {K : Type*} [Field K] [LinearOrder K]

/-! ### Supports and hinges -/

/-- The support symbols, `render.py` 37-43. -/
inductive SupKind where
  | fixed
  | pin
  | roller
  | spring
  | guided
  | torsion
  deriving DecidableEq, Repr

/-- `Support`, `render.py` 57-68. -/
structure DrawnSup (K : Type*) where
  x : K
  kind : SupKind
  node : ℕ
  atLeft : Bool
  atRight : Bool
  rotSpring : Bool
  deriving DecidableEq

/-- The symbol of a node with restraints `v`, `r`, `render.py` 195-212. -/
def supKind (v r : K) (pinAssigned : Bool) : Option SupKind :=
  if v = -1 ∧ r = -1 then some .fixed
  else if v = -1 then some (if pinAssigned then .roller else .pin)
  else if 0 < v then some .spring
  else if v = 0 ∧ r = -1 then some .guided
  else if v = 0 ∧ 0 < r then some .torsion
  else none

/-- The loop over the nodes, `render.py` 193-226; `i` is the next node, `n` the number of
the last one. -/
def supLoop (x : ℕ → K) (R : ℕ → K) (n : ℕ) : (left i : ℕ) → Bool → List (DrawnSup K)
  | 0, _, _ => []
  | left + 1, i, pinAssigned =>
    let v := R (2 * i)
    let r := R (2 * i + 1)
    let k := supKind v r pinAssigned
    let rest := supLoop x R n left (i + 1) (pinAssigned || k == some .pin)
    match k with
    | none => rest
    | some k => ⟨x i, k, i, i == 0, i == n, v = -1 ∧ 0 < r⟩ :: rest

/-- `_infer_supports`, `render.py` 183-226. -/
def inferSupports (b : BeamDef K) : Except PyErr (List (DrawnSup K)) :=
  let n := b.members.length
  let R := fun i => b.restraints.getD i 0
  if b.restraints.length < 2 * n + 2 then .error .indexError
  else
    let hasFixed := (List.range (n + 1)).any fun i => R (2 * i) = -1 ∧ R (2 * i + 1) = -1
    .ok (supLoop b.nodeX R n (n + 1) 0 hasFixed)

/-- `_infer_hinges`, `render.py` 260-275: the nodes where a hinge is drawn. -/
def inferHinges (b : BeamDef K) : List ℕ :=
  (List.range' 1 (b.members.length - 1)).filter fun i =>
    (b.members[i - 1]?.any fun m => m.et = .FP ∨ m.et = .PP) ||
      b.members[i]?.any fun m => m.et = .PF ∨ m.et = .PP

/-! ### Loads -/

/-- `DistLoad`, `render.py` 71-79. -/
structure DrawnDist (K : Type*) where
  iSpan : ℤ
  x0 : K
  x1 : K
  w0 : K
  w1 : K
  deriving DecidableEq

/-- `PointLoad` and `MomentLoad`, `render.py` 82-97. -/
structure DrawnPoint (K : Type*) where
  iSpan : ℤ
  x : K
  v : K
  deriving DecidableEq

/-- What `_infer_loads` returns. -/
structure DrawnLoads (K : Type*) where
  dist : List (DrawnDist K)
  points : List (DrawnPoint K)
  moments : List (DrawnPoint K)
  skipped : List (SpanLoad K)
  deriving DecidableEq

/-- One pass of the loop of `_infer_loads`, `render.py` 239-257, once the start and the
length of the span are known. -/
def drawLoad (off len : K) (l : SpanLoad K) (t : DrawnLoads K) : DrawnLoads K :=
  match l.load with
  | .udl w => { t with dist := t.dist ++ [⟨l.iSpan, off, off + len, w, w⟩] }
  | .pudl w a c => { t with dist := t.dist ++ [⟨l.iSpan, off + a, off + a + c, w, w⟩] }
  | .trapez w1 w2 a c =>
    let q := resolveTrapez w1 w2 a c len
    if 0 < q.2.2.2.2 then
      { t with dist := t.dist ++
          [⟨l.iSpan, off + q.2.2.2.1, off + q.2.2.2.1 + q.2.2.2.2, q.1, q.2.1⟩] }
    else t
  | .pl P a => { t with points := t.points ++ [⟨l.iSpan, off + a, P⟩] }
  | .ml m a => { t with moments := t.moments ++ [⟨l.iSpan, off + a, m⟩] }
  | .ic _ _ => { t with skipped := t.skipped ++ [l] }
  | .mamb _ _ => t

/-- `node_x[i]` and `mbr_lengths[i]` with Python's negative indices. -/
def spanPlace (b : BeamDef K) (i : ℤ) : Except PyErr (K × K) :=
  match NL.pyIndex (b.members.length + 1) i with
  | .error e => .error e
  | .ok j => match NL.pyIndex b.members.length i with
    | .error e => .error e
    | .ok k => .ok (b.nodeX j, ((b.members.map Member.L).getD k 0))

/-- The loop of `_infer_loads`, `render.py` 238-257. -/
def drawLoop (b : BeamDef K) : List (SpanLoad K) → DrawnLoads K → Except PyErr (DrawnLoads K)
  | [], t => .ok t
  | l :: ls, t => match spanPlace b l.iSpan with
    | .error e => .error e
    | .ok (off, len) => drawLoop b ls (drawLoad off len l t)

/-- `_infer_loads`, `render.py` 228-258. -/
def inferLoads (b : BeamDef K) : Except PyErr (DrawnLoads K) :=
  match parseLM b.LM with
  | .error e => .error e
  | .ok ls => drawLoop b ls ⟨[], [], [], []⟩

/-! ### TikZ -/

/-- `_node_name`, `render.py` 1033-1034. -/
def nodeName (i : ℕ) : List Char :=
  if i < 26 then [Char.ofNat (97 + i)] else 'p' :: Nat.toDigits 10 i

/-- The TikZ commands that place things.  A `node` command names the point that divides the
segment between two named points in the ratio `f`. -/
inductive Tikz (K : Type*) where
  | point (name : List Char) (x : K)
  | beam (a b : List Char)
  | support (code : String) (at_ : List Char) (rot : Option ℤ)
  | node (name a b : List Char) (f : K)
  | lineload (a b : List Char) (h0 h1 : K)
  | load (code : String) (at_ : List Char) (angle : Option ℤ)
  | dim (a b : List Char) (len : K)
  | hinge (at_ : List Char) (half : Option (List Char × List Char))
  | label (at_ : List Char) (letter : Char)

/-- `_support_tikz`, `render.py` 1036-1059. -/
def supTikz (s : DrawnSup K) : Tikz K :=
  let n := nodeName s.node
  match s.kind with
  | .pin => .support "1" n none
  | .roller => .support "2ooo" n none
  | .fixed => .support "4" n (if s.atRight then some 90 else if s.atLeft then some (-90) else none)
  | .spring => .support "5" n none
  | .guided => .support "3" n (some 90)
  | .torsion => .support "6" n none

/-- `_hinges_tikz`, `render.py` 1061-1081. -/
def hingesTikz (b : BeamDef K) (ss : List (DrawnSup K)) : List (Tikz K) :=
  let at_ := ss.filter fun s => s.kind = .pin ∨ s.kind = .roller
  at_.map (fun s => .hinge (nodeName s.node)
    (if s.atLeft || s.atRight then none else some (nodeName (s.node - 1), nodeName (s.node + 1))))
  ++ ((inferHinges b).filter fun i => ! (at_.map DrawnSup.node).contains i).map
    fun i => .hinge (nodeName i) none

/-- `nodes[i]` with Python's negative indices. -/
def nodeAt (b : BeamDef K) (i : ℤ) : Except PyErr (List Char × K) :=
  match NL.pyIndex (b.members.length + 1) i with
  | .error e => .error e
  | .ok j => .ok (nodeName j, b.nodeX j)

/-- `nodes[i_span]`, `nodes[i_span + 1]` and `_span_fraction`, `render.py` 1083-1086. -/
def placeTikz (b : BeamDef K) (name : List Char) (i : ℤ) (x : K) : Except PyErr (Tikz K) :=
  match nodeAt b i with
  | .error e => .error e
  | .ok (a, xa) => match nodeAt b (i + 1) with
    | .error e => .error e
    | .ok (c, xc) =>
      let len := xc - xa
      .ok (.node name a c (if len = 0 then 0 else (x - xa) / len))

/-- `wmax` of `_loads_tikz`, `render.py` 1092. -/
def wMax (ds : List (DrawnDist K)) : K :=
  let m := ((ds.map fun d => max |d.w0| |d.w1|).foldl max 0)
  if m = 0 then 1 else m

/-- The commands for one distributed load, `render.py` 1094-1102. -/
def distTikz (b : BeamDef K) (wmax : K) (k : ℕ) (d : DrawnDist K) : Except PyErr (List (Tikz K)) :=
  let na := 'd' :: 'l' :: (Nat.toDigits 10 k ++ ['a'])
  let nb := 'd' :: 'l' :: (Nat.toDigits 10 k ++ ['b'])
  match placeTikz b na d.iSpan d.x0 with
  | .error e => .error e
  | .ok p => match placeTikz b nb d.iSpan d.x1 with
    | .error e => .error e
    | .ok q => .ok [p, q, .lineload na nb (3 / 10 + 4 / 10 * |d.w0| / wmax) (3 / 10 + 4 / 10 * |d.w1| / wmax)]

/-- The commands for one point load, `render.py` 1125-1133. -/
def pointTikz (b : BeamDef K) (k : ℕ) (p : DrawnPoint K) : Except PyErr (List (Tikz K)) :=
  let n := 'p' :: 'l' :: Nat.toDigits 10 k
  match placeTikz b n p.iSpan p.x with
  | .error e => .error e
  | .ok q => .ok [q, .load "1" n (some (if 0 ≤ p.v then 90 else 270))]

/-- The commands for one couple, `render.py` 1141-1151. -/
def momentTikz (b : BeamDef K) (k : ℕ) (p : DrawnPoint K) : Except PyErr (List (Tikz K)) :=
  let n := 'm' :: 'l' :: Nat.toDigits 10 k
  match placeTikz b n p.iSpan p.x with
  | .error e => .error e
  | .ok q => .ok [q, .load (if 0 ≤ p.v then "3" else "2") n none]

/-- `_loads_tikz`, `render.py` 1088-1156, without the notes of magnitudes. -/
def loadsTikz (b : BeamDef K) (t : DrawnLoads K) : Except PyErr (List (Tikz K)) :=
  match mapE (fun p : DrawnDist K × ℕ => distTikz b (wMax t.dist) p.2 p.1) t.dist.zipIdx with
  | .error e => .error e
  | .ok a => match mapE (fun p : DrawnPoint K × ℕ => pointTikz b p.2 p.1) t.points.zipIdx with
    | .error e => .error e
    | .ok c => match mapE (fun p : DrawnPoint K × ℕ => momentTikz b p.2 p.1) t.moments.zipIdx with
      | .error e => .error e
      | .ok d => .ok (a.flatten ++ c.flatten ++ d.flatten)

/-- `render_tikz`, `render.py` 884-977, without the notes of magnitudes. -/
def renderTikz (b : BeamDef K) : Except PyErr (List (Tikz K)) :=
  match inferSupports b with
  | .error e => .error e
  | .ok ss => match inferLoads b with
    | .error e => .error e
    | .ok t => match loadsTikz b t with
      | .error e => .error e
      | .ok ls =>
        let n := b.members.length
        .ok ((List.range (n + 1)).map (fun i => .point (nodeName i) (b.nodeX i))
          ++ (List.range n).map (fun i => .beam (nodeName i) (nodeName (i + 1)))
          ++ ss.map supTikz ++ hingesTikz b ss ++ ls
          ++ (List.range n).map (fun i =>
            .dim (nodeName i) (nodeName (i + 1)) (b.nodeX (i + 1) - b.nodeX i))
          ++ ss.map (fun s => .label (nodeName s.node) (Char.ofNat (65 + s.node))))

/-! ### Reactions -/

/-- The loop of `_reactions_by_node`, `analysis.py` 1050-1057: the values of the lists of
reactions and spring forces, dealt out to the degrees of freedom in order. -/
def dealReactions : List K → List K → List K → Except PyErr (List K)
  | [], _, _ => .ok []
  | r :: rs, R, S =>
    if r < 0 then match R with
      | [] => .error .indexError
      | v :: R => match dealReactions rs R S with
        | .error e => .error e
        | .ok l => .ok (v :: l)
    else if 0 < r then match S with
      | [] => .error .indexError
      | v :: S => match dealReactions rs R S with
        | .error e => .error e
        | .ok l => .ok (v :: l)
    else match dealReactions rs R S with
      | .error e => .error e
      | .ok l => .ok (0 :: l)

/-- One of the dictionaries of `_reactions_by_node`, `analysis.py` 1058-1060: component `c`
of the nodes whose value exceeds `1e-6`. -/
def nodeDict (full : List K) (c : ℕ) : List (ℕ × K) :=
  ((List.range (full.length / 2)).filter fun n => 1 / 10 ^ 6 < |full.getD (2 * n + c) 0|).map
    fun n => (n, full.getD (2 * n + c) 0)

/-- `_reactions_by_node`, `analysis.py` 1032-1061. -/
def reactionsByNode (restraints : List K) (res : Result K) :
    Except PyErr (List (ℕ × K) × List (ℕ × K)) :=
  match dealReactions restraints res.r res.rs with
  | .error e => .error e
  | .ok full => .ok (nodeDict full 0, nodeDict full 1)

end PyCBA
