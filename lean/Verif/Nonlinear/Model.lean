import Verif.Analysis.Model
import Verif.Bridge.Model

/-!
Model of `src/pycba/nonlinear.py` 430-1159: the mesh, the load vectors, the
Generalized Clough stiffness, the incremental analyses for proportional and for
moving loads.  `np.linalg.solve` and the rank test are parameters.  The plots
are in `Verif/Nonlinear/Plots.lean`.

Arrays indexed by node, element or degree of freedom are functions on `ℕ`.
Division by a zero plastic moment is `0` here, while numpy gives `inf` or `nan`;
the theorems that depend on it ask for positive plastic moments.
-/

namespace PyCBA

open Matrix

variable {K : Type*} [Field K] [LinearOrder K]

/-! ### Element stiffness -/

/-- `_k_FF`, `nonlinear.py` 430-441. -/
def nlFF (EI L : K) : Mat4 K :=
  let L2 := L * L
  let L3 := L * L * L
  let c := EI / L3
  c • !![12, 6 * L, -12, 6 * L;
         6 * L, 4 * L2, -6 * L, 2 * L2;
         -12, -6 * L, 12, -6 * L;
         6 * L, 2 * L2, -6 * L, 4 * L2]

/-- `_k_PF`, `nonlinear.py` 444-455. -/
def nlPF (EI L : K) : Mat4 K :=
  let L2 := L * L
  let L3 := L * L * L
  let c := EI / L3
  c • !![3, 0, -3, 3 * L;
         0, 0, 0, 0;
         -3, 0, 3, -3 * L;
         3 * L, 0, -3 * L, 3 * L2]

/-- `_k_FP`, `nonlinear.py` 458-469. -/
def nlFP (EI L : K) : Mat4 K :=
  let L2 := L * L
  let L3 := L * L * L
  let c := EI / L3
  c • !![3, 3 * L, -3, 0;
         3 * L, 3 * L2, -3 * L, 0;
         -3, -3 * L, 3, 0;
         0, 0, 0, 0]

/-! ### Mesh -/

/-- The lists built by `_build_mesh`, `nonlinear.py` 505-507. -/
structure Mesh (K : Type*) where
  nodes : List K
  elemL : List K
  n2s : List ℕ

/-- `ne`, `nonlinear.py` 511. -/
def meshCount [FloorRing K] (ms L : K) : ℕ := max 1 (pyRound (L / ms)).toNat

/-- One pass of the loop over spans, `nonlinear.py` 509-517. -/
def meshStep [FloorRing K] (ms : K) (m : Mesh K) (Li : K × ℕ) : Mesh K :=
  let ne := meshCount ms Li.1
  let h := Li.1 / ne
  let x0 := m.nodes.getLastD 0
  { nodes := m.nodes ++ (List.range ne).map fun j : ℕ => x0 + ((j : K) + 1) * h
    elemL := m.elemL ++ List.replicate ne h
    n2s := m.n2s ++ List.replicate ne Li.2 }

/-- The mesh of `_build_mesh`, `nonlinear.py` 504-521. -/
def buildMesh [FloorRing K] (ms : K) (Ls : List K) : Mesh K :=
  Ls.zipIdx.foldl (meshStep ms) ⟨[0], [], [0]⟩

/-- `np.argmin(np.abs(xs - x))`: the first index where the distance is least. -/
def argminAbs (xs : List K) (x : K) : ℕ :=
  let ds := xs.map fun y => |y - x|
  ds.idxOf (ds.foldl min (ds.headD 0))

/-- `support_x` and `span_starts`, `nonlinear.py` 524, 716: `[0, cumsum(L)]`. -/
def spanStart (Ls : List K) (i : ℕ) : K := (Ls.take i).sum

/-- `bc_dofs`, `nonlinear.py` 523-530. -/
def bcDofs (nodes Ls R : List K) : Except PyErr (List ℕ) :=
  if R.length < 2 * Ls.length + 2 then .error .indexError
  else .ok ((List.range (Ls.length + 1)).flatMap fun i =>
    let mn := argminAbs nodes (spanStart Ls i)
    (if R.getD (2 * i) 0 = -1 then [2 * mn] else []) ++
      (if R.getD (2 * i + 1) 0 = -1 then [2 * mn + 1] else []))

/-! ### The analysis object -/

/-- An argument that is one value for all spans or one per span. -/
inductive SpanArg (α : Type*) where
  | all (v : α)
  | each (vs : List α)

/-- `_as`, `nonlinear.py` 620-624. -/
def SpanArg.expand {α : Type*} (n : ℕ) : SpanArg α → List α
  | .all v => List.replicate n v
  | .each vs => vs

/-- Indexing an array with an array of indices: `IndexError` if one is too large. -/
def takeIdx {α : Type*} (vs : List α) (is : List ℕ) : Except PyErr (List α) :=
  mapE (fun i => match vs[i]? with
    | some v => .ok v
    | none => .error .indexError) is

/-- The attributes of `NonlinearBeamAnalysis` after `__init__`. -/
structure NL (K : Type*) where
  spanL : List K
  q : K
  mesh : Mesh K
  bc : List ℕ
  EI : List K
  Mp : List K
  My : List K

/-- A number, or `TypeError` for a `SectionEI`, `nonlinear.py` 607-618. -/
def constRigidity : Rigidity K → Except PyErr K
  | .const e => .ok e
  | .section _ => .error .typeError

/-- The check and expansion of `EI`, `nonlinear.py` 607-625. -/
def nlEI (n : ℕ) : SpanArg (Rigidity K) → Except PyErr (List K)
  | .all r => match constRigidity r with
    | .error e => .error e
    | .ok v => .ok (List.replicate n v)
  | .each rs => mapE constRigidity rs

/-- `NonlinearBeamAnalysis.__init__`, `nonlinear.py` 588-659.  A mesh size of zero makes
`round` fail on an infinity. -/
def NL.new [FloorRing K] (L : List K) (EI : SpanArg (Rigidity K)) (R : List K) (Mp : SpanArg K)
    (My : Option (SpanArg K)) (q ms : K) : Except PyErr (NL K) :=
  match nlEI L.length EI with
  | .error e => .error e
  | .ok spanEI =>
    let spanMp := Mp.expand L.length
    let spanMy := match My with
      | none => spanMp.map (· / (115 / 100))
      | some v => v.expand L.length
    if ms = 0 ∧ L ≠ [] then .error .arithmetic
    else
      let mesh := buildMesh ms L
      match bcDofs mesh.nodes L R with
      | .error e => .error e
      | .ok bc =>
        match takeIdx spanEI (mesh.n2s.take mesh.elemL.length) with
        | .error e => .error e
        | .ok EIs => match takeIdx spanMp mesh.n2s with
          | .error e => .error e
          | .ok Mps => match takeIdx spanMy mesh.n2s with
            | .error e => .error e
            | .ok Mys => .ok ⟨L, q, mesh, bc, EIs, Mps, Mys⟩

namespace NL

/-- `self.n_elem`, `nonlinear.py` 634. -/
def nElem (c : NL K) : ℕ := c.mesh.elemL.length

/-- `self.n_nodes`, `nonlinear.py` 633. -/
def nNodes (c : NL K) : ℕ := c.mesh.nodes.length

/-- `self.n_dof`, `nonlinear.py` 635. -/
def nDof (c : NL K) : ℕ := 2 * c.nNodes

/-- `self.node_coords[j]`. -/
def x (c : NL K) (j : ℕ) : K := c.mesh.nodes.getD j 0

/-- `self.elem_L[i]`. -/
def len (c : NL K) (i : ℕ) : K := c.mesh.elemL.getD i 0

/-- `self.node_Mp[j]`. -/
def mp (c : NL K) (j : ℕ) : K := c.Mp.getD j 0

/-- `self.node_gamma_y[j]`, `nonlinear.py` 642. -/
def gy (c : NL K) (j : ℕ) : K := c.My.getD j 0 / c.mp j

/-- `self.total_length`, `nonlinear.py` 600. -/
def total (c : NL K) : K := c.spanL.sum

/-- `_ke_all[i]`, `nonlinear.py` 645-647. -/
def ke (c : NL K) (i : ℕ) : Mat4 K := nlFF (c.EI.getD i 0) (c.len i)

/-- `_k1_all[i]`, `nonlinear.py` 648-650. -/
def k1 (c : NL K) (i : ℕ) : Mat4 K := nlPF (c.EI.getD i 0) (c.len i)

/-- `_k2_all[i]`, `nonlinear.py` 651-653. -/
def k2 (c : NL K) (i : ℕ) : Mat4 K := nlFP (c.EI.getD i 0) (c.len i)

/-- The stiffness of an element with end factors, `nonlinear.py` 680-684, 774-778. -/
def kR (c : NL K) (R : ℕ → Fin 2 → K) (i : ℕ) : Mat4 K :=
  if R i 1 ≤ R i 0 then R i 1 • c.ke i + (R i 0 - R i 1) • c.k2 i
  else R i 0 • c.ke i + (R i 1 - R i 0) • c.k1 i

/-- `_assemble_elastic` and `_assemble_from_elem_R`, `nonlinear.py` 663-687: the loop over
elements. -/
def assembleK (c : NL K) (k : ℕ → Mat4 K) : ℕ → ℕ → K :=
  (List.range c.nElem).foldl (fun A i => addBlock A (2 * i) (k i)) fun _ _ => 0

/-- `_apply_bc_inplace`, `nonlinear.py` 689-695, and the matrix of `_apply_bc`. -/
def bcK (c : NL K) (A : ℕ → ℕ → K) : ℕ → ℕ → K :=
  c.bc.foldl (fun A d =>
    let A := fun p q => if p = d then 0 else A p q
    let A := fun p q => if q = d then 0 else A p q
    fun p q => if p = d ∧ q = d then 1 else A p q) A

/-- The right-hand side of `_apply_bc`, `nonlinear.py` 701-705, and 1107-1108. -/
def bcF (c : NL K) (F : ℕ → K) : ℕ → K :=
  c.bc.foldl (fun F d => fun p => if p = d then 0 else F p) F

/-! ### Load vectors -/

/-- `F[p] -= v`. -/
def sub (F : ℕ → K) (p : ℕ) (v : K) : ℕ → K := fun r => if r = p then F r - v else F r

/-- `_add_point_load`, `nonlinear.py` 736-756. -/
def addPoint (c : NL K) (F : ℕ → K) (P x : K) : ℕ → K :=
  if x < 0 ∨ c.total < x then F
  else
    let ni := argminAbs c.mesh.nodes x
    if |c.x ni - x| < 1 / 10 ^ 10 then sub F (2 * ni) P
    else
      let nL := if c.x ni < x then ni else ni - 1
      let nR := nL + 1
      let h := c.x nR - c.x nL
      let a := x - c.x nL
      let b := h - a
      let F := sub F (2 * nL) (P * b ^ 2 * (3 * a + b) / h ^ 3)
      let F := sub F (2 * nL + 1) (P * a * b ^ 2 / h ^ 2)
      let F := sub F (2 * nR) (P * a ^ 2 * (a + 3 * b) / h ^ 3)
      sub F (2 * nR + 1) (-(P * a ^ 2 * b / h ^ 2))

/-- The loop over elements for a UDL, `nonlinear.py` 722-731. -/
def addUdl (c : NL K) (F : ℕ → K) (w xs xe : K) : ℕ → K :=
  (List.range c.nElem).foldl (fun F ie =>
    if c.x (ie + 1) ≤ xs + 1 / 10 ^ 10 ∨ xe - 1 / 10 ^ 10 ≤ c.x ie then F
    else sub (sub F (2 * ie) (w * c.len ie / 2)) (2 * (ie + 1)) (w * c.len ie / 2)) F

/-- An index into an array of length `n`, negative ones counting from the end. -/
def pyIndex (n : ℕ) (i : ℤ) : Except PyErr ℕ :=
  if 0 ≤ i ∧ i < n then .ok i.toNat
  else if i < 0 ∧ 0 ≤ i + n then .ok (i + n).toNat
  else .error .indexError

/-- One row of `_build_force_vector`, `nonlinear.py` 718-733. -/
def addRow (c : NL K) (F : ℕ → K) (r : Row K) : Except PyErr (ℕ → K) :=
  let i := r.span - 1
  let n := c.spanL.length + 1
  match r.args with
  | [] => .error .indexError
  | val :: rest =>
    if r.ltype = 1 then
      match pyIndex n i with
      | .error e => .error e
      | .ok s => match pyIndex n (i + 1) with
        | .error e => .error e
        | .ok t => .ok (c.addUdl F val (spanStart c.spanL s) (spanStart c.spanL t))
    else if r.ltype = 2 then
      match pyIndex n i with
      | .error e => .error e
      | .ok s => match rest with
        | [] => .error .indexError
        | a :: _ => .ok (c.addPoint F val (spanStart c.spanL s + a))
    else .ok F

/-- `_build_force_vector`, `nonlinear.py` 710-734. -/
def forces (c : NL K) (F : ℕ → K) : List (Row K) → Except PyErr (ℕ → K)
  | [] => .ok F
  | r :: rs => match c.addRow F r with
    | .error e => .error e
    | .ok F => c.forces F rs

/-- `_vehicle_force_vector`, `nonlinear.py` 987-1005. -/
def vehicleF (c : NL K) (axles : List (K × K)) (pos : K) : ℕ → K :=
  axles.foldl (fun F a =>
    let x := pos - a.2
    if 0 ≤ x ∧ x ≤ c.total then c.addPoint F a.1 x else F) fun _ => 0

/-! ### Moments and stiffness factors -/

/-- `_extract_moments` and `_extract_moments_elastic`, `nonlinear.py` 766-794, for the
element stiffness used. -/
def moments (c : NL K) (k : ℕ → Mat4 K) (u : ℕ → K) (j : ℕ) : K :=
  if c.nElem = 0 ∨ c.nElem < j then 0
  else if j = 0 then (k 0 *ᵥ elemVec u 0) 1
  else (k (j - 1) *ᵥ elemVec u (j - 1)) 3

end NL

/-- `HingeEvent`, `nonlinear.py` 50-70; `plastic` tells `"plastic_hinge"` from
`"initial_yield"`. -/
structure HingeEvent (K : Type*) where
  factor : K
  location : K
  node : ℕ
  plastic : Bool

/-- What an analysis keeps between steps, `nonlinear.py` 913-920.  The sets are lists. -/
structure NLState (K : Type*) where
  R : ℕ → Fin 2 → K
  mom : ℕ → K
  gmax : ℕ → K
  yielded : List ℕ
  hinged : List ℕ
  events : List (HingeEvent K)

namespace NL

/-- The start of both analyses, `nonlinear.py` 913-920, 1065-1069. -/
def start : NLState K := ⟨fun _ _ => 1, fun _ => 0, fun _ => 0, [], [], []⟩

/-- `gamma[j]`, `nonlinear.py` 810. -/
def gamma (c : NL K) (mom : ℕ → K) (j : ℕ) : K := |mom j| / c.mp j

/-- The factor of a section at its largest demand so far, `nonlinear.py` 819-825. -/
def factor (c : NL K) (g : K) (j : ℕ) : K :=
  if g ≤ c.gy j then 1
  else if 1 ≤ g then c.q
  else 1 - (g - c.gy j) / (1 - c.gy j) * (1 - c.q)

/-- `R_elem[ie, end] = v`, with the owning end of node `j`, `nonlinear.py` 814-815. -/
def setR (R : ℕ → Fin 2 → K) (j : ℕ) (v : K) : ℕ → Fin 2 → K :=
  fun i a => if i = j - 1 ∧ a = (if 0 < j then 1 else 0) then v else R i a

/-- One pass of the loop of `_update_R`, `nonlinear.py` 813-839. -/
def updateNode (c : NL K) (lab : K) (s : NLState K × Bool) (j : ℕ) : NLState K × Bool :=
  let st := s.1
  let g := c.gamma st.mom j
  let st := if st.gmax j ≤ g then
      { st with
        gmax := fun i => if i = j then g else st.gmax i
        R := setR st.R j (c.factor g j) }
    else { st with R := setR st.R j 1 }
  let st := if c.gy j ≤ g ∧ j ∉ st.yielded then
      { st with
        yielded := j :: st.yielded
        events := st.events ++ [⟨lab, c.x j, j, false⟩] }
    else st
  if 1 ≤ g ∧ j ∉ st.hinged then
    ({ st with
        hinged := j :: st.hinged
        events := st.events ++ [⟨lab, c.x j, j, true⟩] }, true)
  else (st, s.2)

/-- `_update_R`, `nonlinear.py` 798-840. -/
def updateR (c : NL K) (lab : K) (st : NLState K) : NLState K × Bool :=
  (List.range c.nNodes).foldl (c.updateNode lab) (st, false)

/-! ### Mechanism test -/

/-- The loop of `_cluster_hinges`, `nonlinear.py` 856-861, with the clusters and their
members in reverse order. -/
def clusters (x : ℕ → K) (tol : K) : List ℕ → List (List ℕ) → List (List ℕ)
  | [], acc => acc
  | n :: ns, (m :: ms) :: acc =>
    if x n - x m ≤ tol then clusters x tol ns ((n :: m :: ms) :: acc)
    else clusters x tol ns ([n] :: (m :: ms) :: acc)
  | n :: ns, acc => clusters x tol ns ([n] :: acc)

/-- `_cluster_hinges`, `nonlinear.py` 844-862, for the default tolerance. -/
def clusterHinges (c : NL K) (hinged : List ℕ) : List ℕ :=
  let tol := 2 * (c.mesh.elemL.foldl min (c.mesh.elemL.headD 0))
  let sn := hinged.insertionSort (· ≤ ·)
  ((clusters c.x tol sn []).map fun cl => cl.reverse.getD (cl.length / 2) 0).reverse

/-- `R_test`, `nonlinear.py` 874-879. -/
def testR (c : NL K) (reps : List ℕ) : ℕ → Fin 2 → K :=
  reps.foldl (fun R j =>
    let R := if 0 < j then fun i a => if i = j - 1 ∧ a = 1 then 0 else R i a else R
    if j < c.nElem then fun i a => if i = j ∧ a = 0 then 0 else R i a else R) fun _ _ => 1

/-- `_is_mechanism`, `nonlinear.py` 864-882.  `deficient N A` stands for
`np.linalg.matrix_rank(A, tol=1e-6) < N`. -/
def isMechanism (c : NL K) (deficient : ℕ → (ℕ → ℕ → K) → Bool) (hinged : List ℕ) : Bool :=
  let reps := c.clusterHinges hinged
  if reps.length < 2 then false
  else deficient c.nDof (c.bcK (c.assembleK (c.kR (c.testR reps))))

end NL

/-! ### The analyses -/

/-- `NonlinearResult`, `nonlinear.py` 74-111; the state holds the events, the final
moments and factors. -/
structure NLResult (K : Type*) where
  lam : K
  collapsed : Bool
  st : NLState K
  hist : List (K × (ℕ → K))
  u : ℕ → K

/-- `Rmin`, `nonlinear.py` 924. -/
def NL.rMin (c : NL K) (R : ℕ → Fin 2 → K) : K :=
  ((List.range c.nElem).map fun i => min (R i 0) (R i 1)).foldl min (R 0 0)

/-- The size of the next increment, `nonlinear.py` 925-926. -/
def NL.dl (c : NL K) (R : ℕ → Fin 2 → K) (lam lamMax : K) : K :=
  let m := c.rMin R
  min (if 1 / 2 < m then 1 / 10 else if 1 / 4 < m then 1 / 100 else 1 / 1000) (lamMax - lam)

/-- The loop of `analyze`, `nonlinear.py` 923-983.  The first number counts the steps
that are left, `step` those made.  Without elements `R_elem.min()` raises. -/
def NL.loop (c : NL K) (solve : Solver K) (deficient : ℕ → (ℕ → ℕ → K) → Bool) (F : ℕ → K)
    (lamMax : K) (every : ℕ) : (fuel step : ℕ) → (lam : K) → (u : ℕ → K) →
    List (K × (ℕ → K)) → NLState K → Except PyErr (NLResult K)
  | 0, _, lam, u, hist, st => .ok ⟨lam, false, st, hist, u⟩
  | fuel + 1, step, lam, u, hist, st =>
    if lam < lamMax then
      if c.nElem = 0 then .error .valueError
      else
        let dl := c.dl st.R lam lamMax
        match solve c.nDof (c.bcK (c.assembleK (c.kR st.R))) (c.bcF fun p => dl * F p) with
        | .error _ => .ok ⟨lam + dl - dl, true, st, hist, u⟩
        | .ok du =>
          let u := fun p => u p + du p
          let st' := { st with mom := fun j => st.mom j + c.moments (c.kR st.R) du j }
          let su := c.updateR (lam + dl) st'
          if su.2 ∧ c.isMechanism deficient su.1.hinged then .ok ⟨lam + dl, true, su.1, hist, u⟩
          else
            let hist := if 0 < every ∧ (step + 1) % every = 0 then hist ++ [(lam + dl, su.1.mom)]
              else hist
            NL.loop c solve deficient F lamMax every fuel (step + 1) (lam + dl) u hist su.1
    else .ok ⟨lam, false, st, hist, u⟩

/-- `analyze`, `nonlinear.py` 886-983. -/
def NL.analyze (c : NL K) (solve : Solver K) (deficient : ℕ → (ℕ → ℕ → K) → Bool)
    (LM : List (Row K)) (lamMax : K) (every maxSteps : ℕ) : Except PyErr (NLResult K) :=
  match c.forces (fun _ => 0) LM with
  | .error e => .error e
  | .ok F => c.loop solve deficient F lamMax every maxSteps 0 0 (fun _ => 0) [] NL.start

/-- A state, and whether the analysis ended there because the stiffness was singular. -/
structure NLStep (K : Type*) where
  st : NLState K
  singular : Bool

/-- Update, then a load increment, `nonlinear.py` 1079-1102, 1112-1136. -/
def NL.reload (c : NL K) (solve : Solver K) (F : ℕ → K) (df lab : K) (st : NLState K) : NLStep K :=
  let st := (c.updateR lab st).1
  match solve c.nDof (c.bcK (c.assembleK (c.kR st.R))) (c.bcF fun p => df * F p) with
  | .error _ => ⟨st, true⟩
  | .ok u => ⟨{ st with mom := fun j => st.mom j + c.moments (c.kR st.R) u j }, false⟩

/-- The elastic unloading increment, `nonlinear.py` 1106-1110. -/
def NL.unload (c : NL K) (solve : Solver K) (F : ℕ → K) (df : K) (st : NLState K) :
    Except PyErr (NLState K) :=
  match solve c.nDof (c.bcK (c.assembleK c.ke)) (c.bcF fun p => -df * F p) with
  | .error _ => .error .valueError
  | .ok u => .ok { st with mom := fun j => st.mom j + c.moments c.ke u j }

/-- The sub-increments at the first position, `nonlinear.py` 1078-1102. -/
def NL.firstSub (c : NL K) (solve : Solver K) (F : ℕ → K) (df lab : K) : ℕ → NLState K → NLStep K
  | 0, st => ⟨st, false⟩
  | n + 1, st =>
    let r := c.reload solve F df lab st
    if r.singular then r else c.firstSub solve F df lab n r.st

/-- The sub-increments at a later position, `nonlinear.py` 1104-1136. -/
def NL.laterSub (c : NL K) (solve : Solver K) (Fp F : ℕ → K) (df lab : K) :
    ℕ → NLState K → Except PyErr (NLStep K)
  | 0, st => .ok ⟨st, false⟩
  | n + 1, st => match c.unload solve Fp df st with
    | .error e => .error e
    | .ok st =>
      let r := c.reload solve F df lab st
      if r.singular then .ok r else c.laterSub solve Fp F df lab n r.st

/-- The loop over the later positions, `nonlinear.py` 1074-1153; `i` is the index of the
next position, `last` the position before it. -/
def NL.moveLoop (c : NL K) (solve : Solver K) (deficient : ℕ → (ℕ → ℕ → K) → Bool)
    (axles : List (K × K)) (nsub every : ℕ) : List K → (i : ℕ) → (last : K) → (Fp : ℕ → K) →
    List (K × (ℕ → K)) → NLState K → Except PyErr (NLResult K)
  | [], _, last, _, hist, st => .ok ⟨last, false, st, hist, fun _ => 0⟩
  | x :: xs, i, _, Fp, hist, st =>
    let F := c.vehicleF axles x
    match c.laterSub solve Fp F (1 / nsub) x nsub st with
    | .error e => .error e
    | .ok r =>
      if r.singular then .ok ⟨x, true, r.st, hist, fun _ => 0⟩
      else
        let su := c.updateR x r.st
        if su.2 ∧ c.isMechanism deficient su.1.hinged then .ok ⟨x, true, su.1, hist, fun _ => 0⟩
        else
          let hist := if 0 < every ∧ i % every = 0 then hist ++ [(x, su.1.mom)] else hist
          NL.moveLoop c solve deficient axles nsub every xs (i + 1) x F hist su.1

/-- `np.arange(0, stop, step)`. -/
def arange0 [FloorRing K] (stop step : K) : List K :=
  (List.range ⌈stop / step⌉.toNat).map fun i : ℕ => (i : K) * step

/-- `analyze_moving`, `nonlinear.py` 1009-1153, once the vehicle is resolved into axles
(weight, offset behind the front one) and its length.  No displacements are returned. -/
def NL.analyzeMoving [FloorRing K] (c : NL K) (solve : Solver K)
    (deficient : ℕ → (ℕ → ℕ → K) → Bool) (axles : List (K × K)) (vL step : K) (nsub every : ℕ) :
    Except PyErr (NLResult K) :=
  if step = 0 then .error .arithmetic
  else if nsub = 0 then .error .arithmetic
  else match arange0 (c.total + vL + step / 2) step with
    | [] => .error .indexError
    | x :: xs =>
      let F := c.vehicleF axles x
      let r := c.firstSub solve F (1 / nsub) x nsub NL.start
      if r.singular then .ok ⟨x, true, r.st, [], fun _ => 0⟩
      else
        let hist := if 0 < every then [(x, r.st.mom)] else []
        c.moveLoop solve deficient axles nsub every xs 1 x F hist r.st

end PyCBA
