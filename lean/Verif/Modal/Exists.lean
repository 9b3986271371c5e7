import Verif.Modal.Order
import Mathlib.Analysis.Matrix.Spectrum
import Mathlib.Data.List.Sort

/-!
The eigenvalue problem of the modal analysis always has a full solution, so the hypotheses
on `eigh` can be met for every beam (for C69, C106 and C107).
-/

set_option linter.unusedSectionVars false
set_option linter.unusedSimpArgs false

namespace PyCBA

open Matrix Finset

theorem eigvec_mul {m : ℕ} {A : Matrix (Fin m) (Fin m) ℝ} (hA : A.IsHermitian) (i : Fin m) :
    A *ᵥ (hA.eigenvectorBasis i).ofLp = hA.eigenvalues i • (hA.eigenvectorBasis i).ofLp :=
  hA.mulVec_eigenvectorBasis i

theorem eigvec_dot {m : ℕ} {A : Matrix (Fin m) (Fin m) ℝ} (hA : A.IsHermitian) (i j : Fin m) :
    (hA.eigenvectorBasis i).ofLp ⬝ᵥ (hA.eigenvectorBasis j).ofLp = if i = j then 1 else 0 := by
  have h := orthonormal_iff_ite.1 hA.eigenvectorBasis.orthonormal j i
  rw [EuclideanSpace.inner_eq_star_dotProduct] at h
  simp only [star_trivial] at h
  rw [h]
  simp [eq_comm]

/-- Symmetric `K` and symmetric positive definite `M` have a full set of solutions of
`K v = λ M v`. -/
theorem eig_exists {m : ℕ} (A B : Matrix (Fin m) (Fin m) ℝ) (hA : A.transpose = A)
    (hB : B.transpose = B) (hpos : ∀ x, x ≠ 0 → 0 < x ⬝ᵥ (B *ᵥ x)) :
    ∃ l : List (ℝ × (Fin m → ℝ)), l.length = m ∧
      (∀ wv ∈ l, wv.2 ≠ 0 ∧ A *ᵥ wv.2 = wv.1 • (B *ᵥ wv.2)) ∧
      (l.map Prod.fst).Pairwise (· ≤ ·) ∧ l.Pairwise fun x y => x.2 ⬝ᵥ (B *ᵥ y.2) = 0 := by
  have hBh : B.IsHermitian := by
    rw [Matrix.IsHermitian, conjTranspose_eq_transpose_of_trivial, hB]
  have hmu : ∀ i, 0 < hBh.eigenvalues i := by
    intro i
    have h1 := hpos (hBh.eigenvectorBasis i).ofLp (by
      intro h0
      have := eigvec_dot hBh i i
      rw [h0] at this
      simp at this)
    rw [eigvec_mul, dotProduct_smul, eigvec_dot, if_pos rfl] at h1
    simpa using h1
  -- the matrix of the normalised eigenvectors of B
  let T : Matrix (Fin m) (Fin m) ℝ :=
    Matrix.of fun p i => (Real.sqrt (hBh.eigenvalues i))⁻¹ * (hBh.eigenvectorBasis i).ofLp p
  have colT : ∀ i, (fun p => T p i) = (Real.sqrt (hBh.eigenvalues i))⁻¹ • (hBh.eigenvectorBasis i).ofLp := by
    intro i; rfl
  have TBT : Tᵀ * B * T = 1 := by
    ext i j
    have e1 : (Tᵀ * B * T) i j = (fun p => T p i) ⬝ᵥ (B *ᵥ fun p => T p j) := by
      rw [Matrix.mul_assoc, Matrix.mul_apply]
      rfl
    rw [e1, colT, colT, Matrix.mulVec_smul, eigvec_mul, smul_dotProduct, dotProduct_smul,
      dotProduct_smul, eigvec_dot, Matrix.one_apply]
    by_cases hij : i = j
    · subst hij
      have := Real.sqrt_ne_zero'.2 (hmu i)
      have h2 := Real.mul_self_sqrt (hmu i).le
      simp only [if_true, smul_eq_mul, mul_one]
      field_simp
      rw [pow_two, h2]
    · simp [hij]
  have TTB : T * (Tᵀ * B) = 1 := by
    rw [mul_eq_one_comm]
    exact TBT
  have BTT : B * T * Tᵀ = 1 := by
    have := congrArg Matrix.transpose TTB
    rwa [transpose_mul, transpose_mul, hB, transpose_transpose, transpose_one] at this
  have hCh : (Tᵀ * A * T).IsHermitian := by
    rw [Matrix.IsHermitian, conjTranspose_eq_transpose_of_trivial, transpose_mul, transpose_mul, hA,
      transpose_transpose, Matrix.mul_assoc]
  let w : Fin m → Fin m → ℝ := fun i => (hCh.eigenvectorBasis i).ofLp
  let v : Fin m → Fin m → ℝ := fun i => T *ᵥ w i
  have hv : ∀ i j, v i ⬝ᵥ (B *ᵥ v j) = if i = j then 1 else 0 := by
    intro i j
    rw [← eigvec_dot hCh i j]
    change (T *ᵥ w i) ⬝ᵥ (B *ᵥ (T *ᵥ w j)) = w i ⬝ᵥ w j
    rw [← vecMul_transpose, ← dotProduct_mulVec, mulVec_mulVec, mulVec_mulVec,
      TBT, one_mulVec]
  have heq : ∀ i, A *ᵥ v i = hCh.eigenvalues i • (B *ᵥ v i) := by
    intro i
    have h1 : (Tᵀ * A * T) *ᵥ w i = hCh.eigenvalues i • w i := eigvec_mul hCh i
    calc A *ᵥ v i = (B * T * Tᵀ) *ᵥ (A *ᵥ v i) := by rw [BTT, one_mulVec]
      _ = (B * T) *ᵥ ((Tᵀ * A * T) *ᵥ w i) := by
          simp only [v, mulVec_mulVec, Matrix.mul_assoc]
      _ = hCh.eigenvalues i • (B *ᵥ v i) := by
          rw [h1, mulVec_smul, mulVec_mulVec]
  let l0 : List (ℝ × (Fin m → ℝ)) := (List.finRange m).map fun i => (hCh.eigenvalues i, v i)
  have hp : (l0.insertionSort fun a c => a.1 ≤ c.1).Perm l0 := List.perm_insertionSort _ _
  refine ⟨l0.insertionSort fun a c => a.1 ≤ c.1, ?_, ?_, ?_, ?_⟩
  · rw [hp.length_eq]; simp [l0]
  · intro wv hwv
    obtain ⟨i, -, rfl⟩ := List.mem_map.1 (hp.mem_iff.1 hwv)
    refine ⟨?_, heq i⟩
    intro h0
    have := hv i i
    simp only at h0
    rw [h0] at this
    simp at this
  · rw [List.pairwise_map]
    have : Std.Total (fun a c : ℝ × (Fin m → ℝ) => a.1 ≤ c.1) := ⟨fun a c => le_total a.1 c.1⟩
    have : IsTrans (ℝ × (Fin m → ℝ)) (fun a c => a.1 ≤ c.1) := ⟨fun a c d => le_trans⟩
    exact List.pairwise_insertionSort _ _
  · refine (List.Perm.pairwise_iff ?_ hp).2 ?_
    · intro x y hxy
      rw [dotProduct_mulVec, ← Matrix.mulVec_transpose, hB, dotProduct_comm]
      exact hxy
    · rw [List.pairwise_map]
      have := List.nodup_finRange m
      refine List.Pairwise.imp ?_ this
      intro i j hij
      simp only
      rw [hv, if_neg hij]

/-- The modal analysis of every beam with prismatic spans, positive properties and masses
completes with an eigenvalue solver that answers whenever there is an answer. -/
theorem solveModal_completes (b : BeamDef ℝ) (mass : MassArg ℝ) (nModes nseg : ℕ)
    (EIs ms : List ℝ) (hE : mapE modalEI b.members = .ok EIs)
    (hM : broadcastMass mass b.members.length = .ok ms) (hn : 0 < nseg) (hne : b.members ≠ [])
    (hr : 2 * b.members.length + 2 ≤ b.restraints.length)
    (hL : ∀ m ∈ b.members, 0 < m.L) (hm : ∀ m ∈ ms, 0 < m) :
    ∃ res, solveModal b mass nModes nseg anyEigh = .ok res := by
  refine solveModal_ok hE hM hn rfl rfl rfl hr ?_
  intro free hf
  obtain ⟨e1, -⟩ := mapE_ok hE
  have hlm : ms.length = b.members.length := by
    unfold broadcastMass at hM
    split at hM
    · cases hM; simp
    · split at hM
      · cases hM
      · rename_i hl
        cases hM
        simpa using hl
  have hLpos : ∀ l ∈ b.members.map Member.L, 0 < l := by
    intro l hl
    obtain ⟨m, hm, rfl⟩ := List.mem_map.1 hl
    exact hL m hm
  have hlL : (b.members.map Member.L).length = b.members.length := List.length_map _
  have hms0 : ms ≠ [] := by
    intro h0
    rw [h0] at hlm
    exact hne (List.length_eq_zero_iff.1 hlm.symm)
  have hfree' : free = (List.range (2 * (b.members.length * nseg + 1))).filter fun p =>
      p ∉ (modalK EIs (b.members.map Member.L) b.restraints nseg).2 := by
    rw [hf]; rfl
  have hlt : ∀ p ∈ free, p < 2 * (b.members.length * nseg + 1) := by
    intro p hp
    rw [hfree', List.mem_filter] at hp
    exact List.mem_range.1 hp.1
  have hnd : free.Nodup := by
    rw [hfree']
    exact List.Nodup.filter _ List.nodup_range
  apply anyEigh_ok
  apply eig_exists
  · ext a c
    simp only [subMatrix, transpose_apply, of_apply]
    refine modalK_symm EIs _ b.restraints hn hLpos (by omega) _ _ ?_ ?_
    · rw [e1]; exact hlt _ (List.getElem_mem _)
    · rw [e1]; exact hlt _ (List.getElem_mem _)
  · ext a c
    simp only [subMatrix, transpose_apply, of_apply]
    refine modalM_symm ms _ nseg _ _ ?_ ?_
    · rw [hlm]; exact hlt _ (List.getElem_mem _)
    · rw [hlm]; exact hlt _ (List.getElem_mem _)
  · intro x hx
    rw [← spread_dot _ _ _ free hfree' x x]
    obtain ⟨-, hMpos, -⟩ := C69_assembled_mass ms (b.members.map Member.L) nseg hn (by omega) hm
      hLpos hms0
    rw [hlm] at hMpos
    apply hMpos
    obtain ⟨a, ha⟩ := Function.ne_iff.1 hx
    refine ⟨free[a], hlt _ (List.getElem_mem _), ?_⟩
    rw [spread_mem hnd]
    exact ha

end PyCBA
