import Verif.Modal.Condense
import Mathlib.LinearAlgebra.FiniteDimensional.Lemmas
import Mathlib.LinearAlgebra.Matrix.BilinearForm

/-!
Comparison of the eigenvalues of two symmetric pencils (for C106).
-/

set_option linter.unusedSectionVars false
set_option linter.unusedSimpArgs false

namespace PyCBA

open Matrix Finset

/-- All solutions of `K v = λ M v`, in ascending order. -/
structure EigBasis {m : ℕ} (K M : Matrix (Fin m) (Fin m) ℝ) (lam : Fin m → ℝ)
    (v : Fin m → Fin m → ℝ) : Prop where
  eq : ∀ i, K *ᵥ v i = lam i • (M *ᵥ v i)
  mono : ∀ i j, i ≤ j → lam i ≤ lam j
  orth : ∀ i j, i ≠ j → v i ⬝ᵥ (M *ᵥ v j) = 0
  ne : ∀ i, v i ≠ 0

theorem form_sum {m : ℕ} {ι : Type*} [Fintype ι] (M : Matrix (Fin m) (Fin m) ℝ)
    (v : ι → Fin m → ℝ) (c : ι → ℝ) :
    (∑ i, c i • v i) ⬝ᵥ (M *ᵥ ∑ i, c i • v i) = ∑ i, ∑ j, c i * (c j * (v i ⬝ᵥ (M *ᵥ v j))) := by
  rw [sum_dotProduct]
  apply Finset.sum_congr rfl
  intro i _
  rw [Matrix.mulVec_sum, dotProduct_sum]
  apply Finset.sum_congr rfl
  intro j _
  rw [Matrix.mulVec_smul, smul_dotProduct, dotProduct_smul]
  simp only [smul_eq_mul]

/-- The two forms on a combination of some of the solutions. -/
theorem EigBasis.forms {m : ℕ} {K M : Matrix (Fin m) (Fin m) ℝ} {lam : Fin m → ℝ}
    {v : Fin m → Fin m → ℝ} (h : EigBasis K M lam v) {ι : Type*} [Fintype ι] [DecidableEq ι]
    (e : ι → Fin m) (he : Function.Injective e) (c : ι → ℝ) :
    (∑ i, c i • v (e i)) ⬝ᵥ (M *ᵥ ∑ i, c i • v (e i))
      = ∑ i, c i ^ 2 * (v (e i) ⬝ᵥ (M *ᵥ v (e i))) ∧
    (∑ i, c i • v (e i)) ⬝ᵥ (K *ᵥ ∑ i, c i • v (e i))
      = ∑ i, lam (e i) * (c i ^ 2 * (v (e i) ⬝ᵥ (M *ᵥ v (e i)))) := by
  constructor
  · rw [form_sum]
    apply Finset.sum_congr rfl
    intro i _
    rw [Finset.sum_eq_single i]
    · ring
    · intro j _ hj
      rw [h.orth _ _ fun hh => hj (he hh.symm)]
      ring
    · intro hi; exact absurd (Finset.mem_univ i) hi
  · rw [form_sum]
    apply Finset.sum_congr rfl
    intro i _
    rw [Finset.sum_eq_single i]
    · rw [h.eq, dotProduct_smul, smul_eq_mul]; ring
    · intro j _ hj
      rw [h.eq, dotProduct_smul, h.orth _ _ fun hh => hj (he hh.symm)]
      simp
    · intro hi; exact absurd (Finset.mem_univ i) hi

theorem EigBasis.indep {m : ℕ} {K M : Matrix (Fin m) (Fin m) ℝ} {lam : Fin m → ℝ}
    {v : Fin m → Fin m → ℝ} (h : EigBasis K M lam v) (hM : ∀ x, x ≠ 0 → 0 < x ⬝ᵥ (M *ᵥ x)) :
    LinearIndependent ℝ v := by
  rw [Fintype.linearIndependent_iff]
  intro c hc i
  have h1 := (h.forms id Function.injective_id c).1
  simp only [id] at h1
  rw [hc] at h1
  simp only [Matrix.mulVec_zero, dotProduct_zero] at h1
  have h2 := (Finset.sum_eq_zero_iff_of_nonneg (fun j _ =>
    mul_nonneg (sq_nonneg (c j)) (hM _ (h.ne j)).le)).1 h1.symm i (Finset.mem_univ i)
  rcases mul_eq_zero.1 h2 with h3 | h3
  · exact pow_eq_zero_iff (by norm_num) |>.1 h3
  · exact absurd h3 (hM _ (h.ne i)).ne'

/-- Every vector is a combination of the solutions. -/
theorem EigBasis.expand {m : ℕ} {K M : Matrix (Fin m) (Fin m) ℝ} {lam : Fin m → ℝ}
    {v : Fin m → Fin m → ℝ} (h : EigBasis K M lam v) (hM : ∀ x, x ≠ 0 → 0 < x ⬝ᵥ (M *ᵥ x))
    (x : Fin m → ℝ) : ∃ c : Fin m → ℝ, x = ∑ i, c i • v i := by
  set b := basisOfLinearIndependentOfCardEqFinrank' v (h.indep hM) (by simp) with hb
  refine ⟨fun i => b.repr x i, ?_⟩
  have := (b.sum_repr x).symm
  rw [hb] at this
  simpa [hb] using this

/-- A vector orthogonal to the first `k` solutions has a quotient of at least the `k`-th
eigenvalue. -/
theorem EigBasis.lower {m : ℕ} {K M : Matrix (Fin m) (Fin m) ℝ} {lam : Fin m → ℝ}
    {v : Fin m → Fin m → ℝ} (h : EigBasis K M lam v) (hM : ∀ x, x ≠ 0 → 0 < x ⬝ᵥ (M *ᵥ x))
    (k : Fin m) (x : Fin m → ℝ) (hx : ∀ j < k, v j ⬝ᵥ (M *ᵥ x) = 0) :
    lam k * (x ⬝ᵥ (M *ᵥ x)) ≤ x ⬝ᵥ (K *ᵥ x) := by
  obtain ⟨c, hc⟩ := h.expand hM x
  have h0 : ∀ j < k, c j = 0 := by
    intro j hj
    have h1 := hx j hj
    rw [hc, Matrix.mulVec_sum, dotProduct_sum, Finset.sum_eq_single j] at h1
    · rw [Matrix.mulVec_smul, dotProduct_smul, smul_eq_mul] at h1
      exact (mul_eq_zero.1 h1).resolve_right (hM _ (h.ne j)).ne'
    · intro i _ hi
      rw [Matrix.mulVec_smul, dotProduct_smul, h.orth _ _ (Ne.symm hi), smul_zero]
    · intro hi; exact absurd (Finset.mem_univ j) hi
  obtain ⟨f1, f2⟩ := h.forms id Function.injective_id c
  simp only [id] at f1 f2
  rw [hc, f1, f2, Finset.mul_sum]
  apply Finset.sum_le_sum
  intro i _
  by_cases hi : i < k
  · rw [h0 i hi]; simp
  · exact mul_le_mul_of_nonneg_right (h.mono k i (not_lt.1 hi))
      (mul_nonneg (sq_nonneg _) (hM _ (h.ne i)).le)

/-- If the second pencil lives on a subspace of the first, is at least as stiff there and at
most as heavy, its eigenvalues are at least as large. -/
theorem eig_compare {m m' : ℕ} {KA MA : Matrix (Fin m) (Fin m) ℝ}
    {KB MB : Matrix (Fin m') (Fin m') ℝ} {lA : Fin m → ℝ} {vA : Fin m → Fin m → ℝ}
    {lB : Fin m' → ℝ} {vB : Fin m' → Fin m' → ℝ} (hA : EigBasis KA MA lA vA)
    (hB : EigBasis KB MB lB vB) (pA : ∀ x, x ≠ 0 → 0 < x ⬝ᵥ (MA *ᵥ x))
    (pB : ∀ x, x ≠ 0 → 0 < x ⬝ᵥ (MB *ᵥ x)) (nB : ∀ x, 0 ≤ x ⬝ᵥ (KB *ᵥ x))
    (E : (Fin m' → ℝ) →ₗ[ℝ] (Fin m → ℝ)) (hE : ∀ x, E x = 0 → x = 0)
    (hK : ∀ x, E x ⬝ᵥ (KA *ᵥ E x) ≤ x ⬝ᵥ (KB *ᵥ x))
    (hM : ∀ x, x ⬝ᵥ (MB *ᵥ x) ≤ E x ⬝ᵥ (MA *ᵥ E x)) (k : ℕ) (hk : k < m) (hk' : k < m') :
    lA ⟨k, hk⟩ ≤ lB ⟨k, hk'⟩ := by
  -- a combination of the first k + 1 solutions of B orthogonal to the first k of A
  let e : Fin (k + 1) → Fin m' := fun i => ⟨i, by omega⟩
  have he : Function.Injective e := by
    intro i j hij
    simp only [e, Fin.mk.injEq] at hij
    exact Fin.ext hij
  let S : (Fin (k + 1) → ℝ) →ₗ[ℝ] (Fin m' → ℝ) :=
    { toFun := fun c => ∑ i, c i • vB (e i)
      map_add' := by intro c d; simp [add_smul, Finset.sum_add_distrib]
      map_smul' := by intro r c; simp [mul_smul, Finset.smul_sum] }
  let T : (Fin (k + 1) → ℝ) →ₗ[ℝ] (Fin k → ℝ) :=
    { toFun := fun c j => vA ⟨j, by omega⟩ ⬝ᵥ (MA *ᵥ E (S c))
      map_add' := by
        intro c d; ext j
        simp [map_add, Matrix.mulVec_add, dotProduct_add]
      map_smul' := by
        intro r c; ext j
        simp [map_smul, Matrix.mulVec_smul, dotProduct_smul] }
  have hker : LinearMap.ker T ≠ ⊥ := LinearMap.ker_ne_bot_of_finrank_lt (by simp)
  obtain ⟨c, hc, hc0⟩ := Submodule.exists_mem_ne_zero_of_ne_bot hker
  have hT : ∀ j : Fin k, vA ⟨j, by omega⟩ ⬝ᵥ (MA *ᵥ E (S c)) = 0 := by
    intro j
    exact congrFun (LinearMap.mem_ker.1 hc) j
  set x := S c with hx
  have hx' : x = ∑ i, c i • vB (e i) := rfl
  obtain ⟨f1, f2⟩ := hB.forms e he c
  rw [← hx'] at f1 f2
  have hx0 : x ≠ 0 := by
    intro h0
    rw [h0] at f1
    simp only [Matrix.mulVec_zero, dotProduct_zero] at f1
    apply hc0
    ext i
    have h2 := (Finset.sum_eq_zero_iff_of_nonneg (fun j _ =>
      mul_nonneg (sq_nonneg (c j)) (pB _ (hB.ne (e j))).le)).1 f1.symm i (Finset.mem_univ i)
    rcases mul_eq_zero.1 h2 with h3 | h3
    · exact pow_eq_zero_iff (by norm_num) |>.1 h3
    · exact absurd h3 (pB _ (hB.ne (e i))).ne'
  have up : x ⬝ᵥ (KB *ᵥ x) ≤ lB ⟨k, hk'⟩ * (x ⬝ᵥ (MB *ᵥ x)) := by
    rw [f1, f2, Finset.mul_sum]
    apply Finset.sum_le_sum
    intro i _
    exact mul_le_mul_of_nonneg_right (hB.mono _ _ (by
      simp only [e, Fin.mk_le_mk]; omega)) (mul_nonneg (sq_nonneg _) (pB _ (hB.ne _)).le)
  have hy0 : E x ≠ 0 := fun h => hx0 (hE x h)
  have low := hA.lower pA ⟨k, hk⟩ (E x) (fun j hj => hT ⟨j, hj⟩)
  have hlB : 0 ≤ lB ⟨k, hk'⟩ := by
    by_contra hneg
    push Not at hneg
    have := nB x
    have := pB x hx0
    nlinarith
  have : lA ⟨k, hk⟩ * (E x ⬝ᵥ (MA *ᵥ E x)) ≤ lB ⟨k, hk'⟩ * (E x ⬝ᵥ (MA *ᵥ E x)) :=
    low.trans ((hK x).trans (up.trans (mul_le_mul_of_nonneg_left (hM x) hlB)))
  exact le_of_mul_le_mul_right this (pA _ hy0)

end PyCBA
