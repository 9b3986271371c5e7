import Verif.Analysis.Stability
import Mathlib.Analysis.Real.Sqrt

/-!
Model of `src/pycba/modal.py` 27-52 (element matrices) and 186-281
(`_broadcast_mass`, `solve_modal`).  `scipy.linalg.eigh` is a parameter.
`ModalResults` is in `Modal/Shape`.  Plotting is modelled in `Modal/Plots`.
-/

namespace PyCBA

open Matrix

variable {K : Type*} [Field K] [LinearOrder K]

/-- `_k_ebeam`, `modal.py` 27-38 (the same function is in `foundation.py` 53-64). -/
def kEbeam (EI L : K) : Mat4 K :=
  let L2 := L * L
  let L3 := L2 * L
  EI • !![12 / L3, 6 / L2, -12 / L3, 6 / L2;
          6 / L2, 4 / L, -6 / L2, 2 / L;
          -12 / L3, -6 / L2, 12 / L3, -6 / L2;
          6 / L2, 2 / L, -6 / L2, 4 / L]

/-- `_m_consistent`, `modal.py` 41-51 (`_k_found`, `foundation.py` 67-77, is the same
matrix with the foundation modulus in place of the mass). -/
def mConsistent (m L : K) : Mat4 K :=
  let L2 := L * L
  (m * L / 420) • !![156, 22 * L, 54, -13 * L;
                     22 * L, 4 * L2, 13 * L, -3 * L2;
                     54, 13 * L, 156, -22 * L;
                     -13 * L, -3 * L2, -22 * L, 4 * L2]

/-- The `mass` argument: a number or a sequence. -/
inductive MassArg (K : Type*) where
  | scalar (m : K)
  | seq (ms : List K)

/-- `_broadcast_mass`, `modal.py` 187-194. -/
def broadcastMass (mass : MassArg K) (n : ℕ) : Except PyErr (List K) :=
  match mass with
  | .scalar m => .ok (List.replicate n m)
  | .seq ms => if ms.length ≠ n then .error .valueError else .ok ms

/-- The checks of `solve_modal`, `modal.py` 215-226: `some EI` for each span it
accepts. -/
def modalEI (m : Member K) : Except PyErr K :=
  match m.EI, m.GAv, m.et with
  | .section _, _, _ => .error .notImplemented
  | .const _, some _, _ => .error .notImplemented
  | .const e, none, .FF => .ok e
  | .const _, none, _ => .error .notImplemented

/-- The assembly loops, `modal.py` 235-247, of one matrix: element matrix `ke i` for
every one of the `nseg` pieces of span `i`. -/
def meshAssemble (N nseg : ℕ) (ke : ℕ → Mat4 K) : ℕ → ℕ → K :=
  (List.range N).foldl (fun k i =>
    (List.range nseg).foldl (fun k s => addBlock k (2 * (i * nseg + s)) (ke i)) k) fun _ _ => 0

/-- The degree of freedom of the mesh for degree of freedom `P` of the beam,
`gdof = 2 * (j * nseg) + d`, `modal.py` 253-255. -/
def meshDof (nseg P : ℕ) : ℕ := 2 * (P / 2 * nseg) + P % 2

/-- The support loops, `modal.py` 250-260, over the `2 * (N + 1)` restraints (the
two nested loops are one loop here). -/
def meshSupports (nseg : ℕ) (r : ℕ → K) (l : List ℕ) (st : (ℕ → ℕ → K) × List ℕ) :
    (ℕ → ℕ → K) × List ℕ :=
  l.foldl (fun st P =>
    let g := meshDof nseg P
    if r P = -1 then (st.1, st.2 ++ [g])
    else if 0 < r P then (fun p q => if p = g ∧ q = g then st.1 p q + r P else st.1 p q, st.2)
    else st) st

/-- `node_x`, `modal.py` 233 and 244. -/
def meshNodes (N nseg : ℕ) (L : ℕ → K) : List K :=
  (List.range N).foldl (fun xs i =>
    (List.range nseg).foldl (fun xs _ => xs ++ [xs.getLastD 0 + L i / nseg]) xs) [0]

/-- `scipy.linalg.eigh(A, B)`: pairs of an eigenvalue and an eigenvector, or
`LinAlgError` (a `ValueError`). -/
abbrev Eigh (K : Type*) :=
  (m : ℕ) → Matrix (Fin m) (Fin m) K → Matrix (Fin m) (Fin m) K →
    Except PyErr (List (K × (Fin m → K)))

/-- What `eigh` promises for symmetric matrices: as many pairs as the matrix has
rows, each a solution of `A v = w B v` with `v ≠ 0`, in ascending order, with
`vᵀ B v' = 0` for different ones. -/
def Eigh.Sound (eigh : Eigh K) : Prop :=
  ∀ m A B l, A.transpose = A → B.transpose = B → eigh m A B = .ok l →
    l.length = m ∧ (∀ wv ∈ l, wv.2 ≠ 0 ∧ A *ᵥ wv.2 = wv.1 • (B *ᵥ wv.2)) ∧
      (l.map Prod.fst).Pairwise (· ≤ ·) ∧ l.Pairwise fun x y => x.2 ⬝ᵥ (B *ᵥ y.2) = 0

/-- One row of the results: circular frequency and mode shape over the full set of
degrees of freedom. -/
structure Mode (K : Type*) where
  omega : K
  phi : ℕ → K

/-- `ModalResults`, `modal.py` 75-84: frequencies with modes, mesh coordinates. -/
structure ModalResult (K : Type*) where
  modes : List (Mode K)
  x : List K

/-- `K[np.ix_(free, free)]`, `modal.py` 262-264. -/
def subMatrix (free : List ℕ) (A : ℕ → ℕ → K) :
    Matrix (Fin free.length) (Fin free.length) K :=
  Matrix.of fun a c => A free[a] free[c]

/-- The columns of `phi`, `modal.py` 271-272: `v` at the free degrees of freedom,
zero elsewhere. -/
def spread (free : List ℕ) (v : Fin free.length → K) (p : ℕ) : K :=
  if h : free.idxOf p < free.length then v ⟨free.idxOf p, h⟩ else 0

/-- `K` of `solve_modal` after the supports, with the fixed degrees of freedom. -/
def modalK (EIs Ls : List K) (restraints : List K) (nseg : ℕ) : (ℕ → ℕ → K) × List ℕ :=
  let N := EIs.length
  meshSupports nseg (fun P => restraints.getD P 0) (List.range (2 * N + 2))
    (meshAssemble N nseg (fun i => kEbeam (EIs.getD i 0) (Ls.getD i 0 / nseg)), [])

/-- `M` of `solve_modal`. -/
def modalM (ms Ls : List K) (nseg : ℕ) : ℕ → ℕ → K :=
  meshAssemble ms.length nseg fun i => mConsistent (ms.getD i 0) (Ls.getD i 0 / nseg)

/-- `free`, `modal.py` 262. -/
def modalFree (N nseg : ℕ) (fixed : List ℕ) : List ℕ :=
  (List.range (2 * (N * nseg + 1))).filter fun p => p ∉ fixed

/-- `solve_modal`, `modal.py` 197-273, over the reals.  `nseg` and `n_modes` are
natural numbers here.  With `nseg = 0` the division `Li / nseg` raises. -/
noncomputable def solveModal (b : BeamDef ℝ) (mass : MassArg ℝ) (nModes nseg : ℕ) (eigh : Eigh ℝ) :
    Except PyErr (ModalResult ℝ) :=
  match mapE modalEI b.members with
  | .error e => .error e
  | .ok EIs =>
    match broadcastMass mass b.members.length with
    | .error e => .error e
    | .ok ms =>
      if nseg = 0 ∧ b.members ≠ [] then .error .arithmetic
      else if b.restraints.length < 2 * b.members.length + 2 then .error .indexError
      else
        let Ls := b.members.map Member.L
        let KF := modalK EIs Ls b.restraints nseg
        let M := modalM ms Ls nseg
        let free := modalFree b.members.length nseg KF.2
        match eigh _ (subMatrix free KF.1) (subMatrix free M) with
        | .error e => .error e
        | .ok wv => .ok
          { modes := (wv.map fun p => ⟨Real.sqrt (max p.1 0), spread free p.2⟩).take nModes
            x := meshNodes b.members.length nseg fun i => Ls.getD i 0 }

end PyCBA
