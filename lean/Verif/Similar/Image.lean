import Verif.Analysis.Linear
import Verif.Analysis.Stability

/-!
Two systems one of which is an image of the other: numbering and sense of the degrees of freedom
and the units differ, the physics does not.  Used for the change of units (C104) and the mirror
image (C105).
-/

set_option linter.unusedSectionVars false
set_option linter.unusedSimpArgs false

namespace PyCBA

open Matrix Finset

variable {K : Type*} [Field K] [LinearOrder K] [IsStrictOrderedRing K]

/-- `s'` is the image of `s` if degree of freedom `p` of `s'` is degree of freedom `σ p` of `s`,
displacements being multiplied by `a` and forces by `b`. -/
structure System.Image (σ : ℕ → ℕ) (a b : ℕ → K) (s s' : System K) : Prop where
  size : s'.N = s.N
  lt : ∀ p < s.N, σ p < s.N
  inv : ∀ p < s.N, σ (σ p) = p
  ne : ∀ p, a p ≠ 0
  ne' : ∀ p, b p ≠ 0
  res : ∀ d d' : ℕ → K, (∀ p < s.N, d' p = a p * d (σ p)) →
    ∀ p < s.N, s'.residual d' p = b p * s.residual d (σ p)
  constr : ∀ p < s.N, s'.constr p = (s.constr (σ p)).map (a p * ·)

variable {σ : ℕ → ℕ} {a b : ℕ → K} {s s' : System K}

theorem System.Image.solution (h : System.Image σ a b s s') {d d' : ℕ → K}
    (hd : s.IsSolution d) (hdd : ∀ p < s.N, d' p = a p * d (σ p)) : s'.IsSolution d' := by
  refine ⟨fun p hp v hv => ?_, fun p hp hc => ?_⟩
  · rw [h.size] at hp
    rw [h.constr p hp] at hv
    obtain ⟨w, hw, rfl⟩ := Option.map_eq_some_iff.1 hv
    rw [hdd p hp, hd.1 _ (h.lt p hp) w hw]
  · rw [h.size] at hp
    rw [h.constr p hp, Option.map_eq_none_iff] at hc
    rw [h.res d d' hdd p hp, hd.2 _ (h.lt p hp) hc, mul_zero]

theorem System.Image.nonsingular (h : System.Image σ a b s s') (hns : s.Nonsingular) :
    s'.Nonsingular := by
  intro x' h1 h2 p hp
  rw [h.size] at hp
  set x : ℕ → K := fun q => (a (σ q))⁻¹ * x' (σ q) with hx
  have hxx : ∀ p < s.N, x' p = a p * x (σ p) := by
    intro p hp
    simp only [hx]
    rw [h.inv p hp, mul_inv_cancel_left₀ (h.ne p)]
  have hm : ∀ p < s.N, mulN s'.N s'.assemble x' p = b p * mulN s.N s.assemble x (σ p) := by
    intro p hp
    have e1 := h.res x x' hxx p hp
    have e2 := h.res (fun _ => 0) (fun _ => 0) (fun p _ => by simp) p hp
    have z : ∀ (N : ℕ) (k : ℕ → ℕ → K) q, mulN N k (fun _ => 0) q = 0 := by
      intro N k q; simp [mulN]
    simp only [System.residual, z] at e1 e2
    linear_combination e1 - e2
  have := hns x (fun q hq hc => ?_) (fun q hq hc => ?_) (σ p) (h.lt p hp)
  · rw [hxx p hp, this, mul_zero]
  · simp only [hx]
    rw [h1 (σ q) (by rw [h.size]; exact h.lt q hq), mul_zero]
    rw [h.constr _ (h.lt q hq), h.inv q hq]
    simpa using hc
  · have e := hm (σ q) (h.lt q hq)
    rw [h2 (σ q) (by rw [h.size]; exact h.lt q hq), h.inv q hq] at e
    · exact (mul_eq_zero.1 e.symm).resolve_left (h.ne' _)
    · rw [h.constr _ (h.lt q hq), h.inv q hq, hc]
      rfl

/-- Displacements and residuals of two completed analyses. -/
theorem System.Image.results (h : System.Image σ a b s s') (hns : s.Nonsingular) {d d' : ℕ → K}
    (hd : s.IsSolution d) (hd' : s'.IsSolution d') :
    (∀ p < s.N, d' p = a p * d (σ p)) ∧
      ∀ p < s.N, s'.residual d' p = b p * s.residual d (σ p) := by
  have e : ∀ p < s.N, d' p = a p * d (σ p) := by
    intro p hp
    exact System.IsSolution.unique (h.nonsingular hns) hd'
      (h.solution hd (d' := fun p => a p * d (σ p)) fun _ _ => rfl) p (by rw [h.size]; exact hp)
  exact ⟨e, h.res d d' e⟩

end PyCBA
