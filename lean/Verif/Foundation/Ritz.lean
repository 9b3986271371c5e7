import Verif.Modal.Shapes
import Verif.Foundation.Betti

/-!
A deflected shape and the cubics of a mesh on one piece of a foundation member (for C149).
-/

set_option linter.unusedSectionVars false
set_option linter.unusedSimpArgs false

namespace PyCBA

open Matrix Finset MeasureTheory

theorem cubic_eq_cubV (h : ℝ) (d : Vec4 ℝ) (x : ℝ) : cubic h d x = cubV h d x := by
  simp only [cubic, cubV, cubC, cubE]

theorem cubV_sub (h : ℝ) (p q : Vec4 ℝ) (x : ℝ) : cubV h (p - q) x = cubV h p x - cubV h q x := by
  simp only [cubV, cubC, cubE, Pi.sub_apply]; ring

theorem cubT_sub (h : ℝ) (p q : Vec4 ℝ) (x : ℝ) : cubT h (p - q) x = cubT h p x - cubT h q x := by
  simp only [cubT, cubC, cubE, Pi.sub_apply]; ring

theorem cubK_sub (h : ℝ) (p q : Vec4 ℝ) (x : ℝ) : cubK h (p - q) x = cubK h p x - cubK h q x := by
  simp only [cubK, cubC, cubE, Pi.sub_apply]; ring

theorem cubV_cont (h : ℝ) (d : Vec4 ℝ) (a : ℝ) : Continuous fun x => cubV h d (x - a) := by
  unfold cubV; fun_prop

/-- Energies of two vectors. -/
theorem energy_diff {A : Mat4 ℝ} (hA : Aᵀ = A) (p q : Vec4 ℝ) :
    energy A q - energy A p = -2 * ((p - q) ⬝ᵥ (A *ᵥ q)) - energy A (p - q) := by
  have h1 := symm_dot hA p q
  simp only [energy, mulVec_sub, dotProduct_sub, sub_dotProduct]
  rw [h1]
  ring

theorem kE1_symm {h : ℝ} (hh : h ≠ 0) : (kEbeam 1 h)ᵀ = kEbeam (1 : ℝ) h := by
  have := (⟨h, 1, 0, 1⟩ : Found ℝ).ke_symm (by simpa [Found.h] using hh)
  have hz : mConsistent (0 : ℝ) h = 0 := by
    ext i j
    fin_cases i <;> fin_cases j <;> simp [mConsistent]
  simpa [Found.h, hz] using this

section piece

variable {w t c : ℝ → ℝ} {a h : ℝ}

/-- The curvature of a shape against that of a cubic: the end values of the shape decide. -/
theorem curv_work (hh : 0 < h) (hw : SlopeOn w t a (a + h)) (ht : SlopeOn t c a (a + h))
    (hc : IntervalIntegrable c volume a (a + h)) (q : Vec4 ℝ) :
    ∫ x in a..(a + h), c x * cubK h q (x - a) = q ⬝ᵥ (kEbeam 1 h *ᵥ endVals w t a h) := by
  have hah : a ≤ a + h := by linarith
  have hK := cubK_cont h q a
  have hcs : IntervalIntegrable (fun x => c x * cubK h q (x - a)) volume a (a + h) :=
    hc.mul_continuousOn hK.continuousOn
  have hG : SlopeOn (fun x => t x * cubK h q (x - a) - 6 * cubE h q * w x)
      (fun x => c x * cubK h q (x - a)) a (a + h) := by
    constructor
    · exact (ht.cont.mul hK.continuousOn).sub (hw.cont.const_smul (6 * cubE h q))
    · intro x hx
      have hk : HasDerivAt (fun x => cubK h q (x - a)) (6 * cubE h q) x := by
        have hx : HasDerivAt (fun x : ℝ => x - a) 1 x := (hasDerivAt_id x).sub_const a
        refine ((hx.const_mul (6 * cubE h q)).const_add (2 * cubC h q)).congr_deriv (by ring)
      refine (((ht.deriv x hx).mul hk.hasDerivWithinAt).sub
        ((hw.deriv x hx).const_mul (6 * cubE h q))).congr_deriv ?_
      ring
  rw [hG.integral hah hcs]
  have hh0 := hh.ne'
  simp only [add_sub_cancel_left, sub_self, cubK, cubC, cubE]
  simp [kEbeam, dotProduct, mulVec, Fin.sum_univ_four, endVals]
  field_simp
  ring

theorem sq_expand {f : ℝ → ℝ} {b : ℝ} (hf : IntervalIntegrable f volume a b)
    (hf2 : IntervalIntegrable (fun x => f x ^ 2) volume a b) {g : ℝ → ℝ} (hg : Continuous g) :
    IntervalIntegrable (fun x => (f x - g x) ^ 2) volume a b ∧
    ∫ x in a..b, (f x - g x) ^ 2
      = (∫ x in a..b, f x ^ 2) - 2 * (∫ x in a..b, f x * g x) + ∫ x in a..b, g x ^ 2 := by
  have h1 : IntervalIntegrable (fun x => f x * g x) volume a b := hf.mul_continuousOn hg.continuousOn
  have h2 : IntervalIntegrable (fun x => g x ^ 2) volume a b := (hg.pow 2).intervalIntegrable _ _
  have e : (fun x => (f x - g x) ^ 2) = fun x => (f x ^ 2 - 2 * (f x * g x)) + g x ^ 2 := by
    funext x; ring
  rw [e]
  refine ⟨(hf2.sub (h1.const_mul 2)).add h2, ?_⟩
  rw [intervalIntegral.integral_add (hf2.sub (h1.const_mul 2)) h2,
    intervalIntegral.integral_sub hf2 (h1.const_mul 2), intervalIntegral.integral_const_mul]

/-- How the square of the distance from a cubic changes with the cubic. -/
theorem curv_change (hh : 0 < h) (hc : IntervalIntegrable c volume a (a + h))
    (hc2 : IntervalIntegrable (fun x => c x ^ 2) volume a (a + h)) (p q : Vec4 ℝ) :
    ∫ x in a..(a + h), (c x - cubK h q (x - a)) ^ 2
      = (∫ x in a..(a + h), (c x - cubK h p (x - a)) ^ 2)
        + 2 * ((∫ x in a..(a + h), c x * cubK h (p - q) (x - a))
          - (p - q) ⬝ᵥ (kEbeam 1 h *ᵥ q)) - energy (kEbeam 1 h) (p - q) := by
  have hi : ∀ r, IntervalIntegrable (fun x => c x * cubK h r (x - a)) volume a (a + h) := fun r =>
    hc.mul_continuousOn (cubK_cont h r a).continuousOn
  have e : ∫ x in a..(a + h), c x * cubK h (p - q) (x - a)
      = (∫ x in a..(a + h), c x * cubK h p (x - a)) - ∫ x in a..(a + h), c x * cubK h q (x - a) := by
    rw [← intervalIntegral.integral_sub (hi p) (hi q)]
    congr 1
    funext x
    rw [cubK_sub]; ring
  rw [(sq_expand hc hc2 (cubK_cont h q a)).2, (sq_expand hc hc2 (cubK_cont h p a)).2, e,
    cub_strain_integral hh.ne', cub_strain_integral hh.ne']
  have := energy_diff (kE1_symm hh.ne') p q
  linarith

theorem defl_change (hh : 0 < h) (hw : ContinuousOn w (Set.Icc a (a + h))) (p q : Vec4 ℝ) :
    ∫ x in a..(a + h), (w x - cubV h q (x - a)) ^ 2
      = (∫ x in a..(a + h), (w x - cubV h p (x - a)) ^ 2)
        + 2 * ((∫ x in a..(a + h), w x * cubV h (p - q) (x - a))
          - (p - q) ⬝ᵥ (mConsistent 1 h *ᵥ q)) - energy (mConsistent 1 h) (p - q) := by
  have hah : a ≤ a + h := by linarith
  have hw1 : IntervalIntegrable w volume a (a + h) :=
    ContinuousOn.intervalIntegrable (by rwa [Set.uIcc_of_le hah])
  have hw2 : IntervalIntegrable (fun x => w x ^ 2) volume a (a + h) :=
    ContinuousOn.intervalIntegrable (by rw [Set.uIcc_of_le hah]; exact hw.pow 2)
  have hi : ∀ r, IntervalIntegrable (fun x => w x * cubV h r (x - a)) volume a (a + h) := fun r =>
    hw1.mul_continuousOn (cubV_cont h r a).continuousOn
  have e : ∫ x in a..(a + h), w x * cubV h (p - q) (x - a)
      = (∫ x in a..(a + h), w x * cubV h p (x - a)) - ∫ x in a..(a + h), w x * cubV h q (x - a) := by
    rw [← intervalIntegral.integral_sub (hi p) (hi q)]
    congr 1
    funext x
    rw [cubV_sub]; ring
  rw [(sq_expand hw1 hw2 (cubV_cont h q a)).2, (sq_expand hw1 hw2 (cubV_cont h p a)).2, e,
    cub_kinetic_integral hh.ne', cub_kinetic_integral hh.ne']
  have := energy_diff (mConsistent_symm 1 h) p q
  linarith

/-- No cubic has a curvature nearer that of the shape than the one with its end values. -/
theorem curv_best (hh : 0 < h) (hw : SlopeOn w t a (a + h)) (ht : SlopeOn t c a (a + h))
    (hc : IntervalIntegrable c volume a (a + h))
    (hc2 : IntervalIntegrable (fun x => c x ^ 2) volume a (a + h)) (q : Vec4 ℝ) :
    ∫ x in a..(a + h), (c x - cubK h (endVals w t a h) (x - a)) ^ 2
      ≤ ∫ x in a..(a + h), (c x - cubK h q (x - a)) ^ 2 := by
  have h1 := curv_change hh hc hc2 (endVals w t a h) q
  rw [curv_work hh hw ht hc] at h1
  have h2 : (endVals w t a h - q) ⬝ᵥ (kEbeam 1 h *ᵥ endVals w t a h)
      - (endVals w t a h - q) ⬝ᵥ (kEbeam 1 h *ᵥ q) = energy (kEbeam 1 h) (endVals w t a h - q) := by
    simp only [energy, mulVec_sub, dotProduct_sub]
  rw [h2] at h1
  have h3 := kEbeam_one_nonneg hh (endVals w t a h - q)
  linarith

/-- A straight line is the curvature of a cubic. -/
theorem line_is_curv (h α β : ℝ) (hh : h ≠ 0) (a : ℝ) :
    ∃ q : Vec4 ℝ, ∀ x, cubK h q (x - a) = α + β * x := by
  refine ⟨![0, 0, (α + β * a) / 2 * h ^ 2 + β / 6 * h ^ 3, (α + β * a) * h + β / 2 * h ^ 2], fun x => ?_⟩
  simp only [cubK, cubC, cubE]
  simp
  field_simp
  ring

/-- Distance of a shape from the cubic with its end values. -/
theorem piece_interp (hh : 0 < h) (hw : SlopeOn w t a (a + h)) (ht : SlopeOn t c a (a + h))
    (hc : IntervalIntegrable c volume a (a + h))
    (hc2 : IntervalIntegrable (fun x => c x ^ 2) volume a (a + h)) {α β ε : ℝ}
    (hε : ∀ x ∈ Set.Icc a (a + h), |c x - (α + β * x)| ≤ ε) :
    ∫ x in a..(a + h), (c x - cubK h (endVals w t a h) (x - a)) ^ 2 ≤ h * ε ^ 2 ∧
    ∫ x in a..(a + h), (w x - cubV h (endVals w t a h) (x - a)) ^ 2 ≤ h ^ 4 * (h * ε ^ 2) := by
  have hah : a ≤ a + h := by linarith
  set d := endVals w t a h with hd
  obtain ⟨i2, -⟩ := curv_orth hh hw ht hc hc2
  rw [← hd] at i2
  have h1 : ∫ x in a..(a + h), (c x - cubK h d (x - a)) ^ 2 ≤ h * ε ^ 2 := by
    obtain ⟨q, hq⟩ := line_is_curv h α β hh.ne' a
    refine (curv_best hh hw ht hc hc2 q).trans ?_
    calc ∫ x in a..(a + h), (c x - cubK h q (x - a)) ^ 2 ≤ ∫ _ in a..(a + h), ε ^ 2 := by
          apply intervalIntegral.integral_mono_on hah (sq_expand hc hc2 (cubK_cont h q a)).1
            intervalIntegrable_const
          intro x hx
          rw [hq x]
          have := hε x hx
          have h0 := abs_nonneg (c x - (α + β * x))
          nlinarith [sq_abs (c x - (α + β * x))]
      _ = h * ε ^ 2 := by rw [intervalIntegral.integral_const, smul_eq_mul]; ring
  refine ⟨h1, ?_⟩
  have sT : SlopeOn (fun x => t x - cubT h d (x - a)) (fun x => c x - cubK h d (x - a)) a (a + h) :=
    ht.sub (.of_hasDerivAt _ _ (cubT_deriv h d a))
  have sV : SlopeOn (fun x => w x - cubV h d (x - a)) (fun x => t x - cubT h d (x - a)) a (a + h) :=
    hw.sub (.of_hasDerivAt _ _ (cubV_deriv h d a))
  have i1 : IntervalIntegrable (fun x => c x - cubK h d (x - a)) volume a (a + h) :=
    hc.sub ((cubK_cont h d a).intervalIntegrable _ _)
  have hz : endVals (fun x => w x - cubV h d (x - a)) (fun x => t x - cubT h d (x - a)) a h = 0 := by
    obtain ⟨b1, b2⟩ := cub_start h d
    obtain ⟨b3, b4⟩ := cub_end hh.ne' d
    have d0 : d 0 = w a := rfl
    have d1 : d 1 = t a := rfl
    have d2 : d 2 = w (a + h) := rfl
    have d3 : d 3 = t (a + h) := rfl
    clear_value d
    ext i
    fin_cases i <;> simp [endVals, b1, b2, b3, b4, d0, d1, d2, d3]
  have hb : ∀ x ∈ Set.Icc a (a + h), (w x - cubV h d (x - a)) ^ 2
      ≤ h ^ 3 * ∫ x in a..(a + h), (c x - cubK h d (x - a)) ^ 2 := by
    intro x hx
    have := interp_error hh sV sT i1 i2 hx
    rw [hz] at this
    simpa [cubV, cubC, cubE] using this
  have hcv : ContinuousOn (fun x => w x - cubV h d (x - a)) (Set.Icc a (a + h)) := sV.cont
  have i3 : IntervalIntegrable (fun x => (w x - cubV h d (x - a)) ^ 2) volume a (a + h) :=
    ContinuousOn.intervalIntegrable (by rw [Set.uIcc_of_le hah]; exact hcv.pow 2)
  calc ∫ x in a..(a + h), (w x - cubV h d (x - a)) ^ 2
      ≤ ∫ _ in a..(a + h), h ^ 3 * ∫ x in a..(a + h), (c x - cubK h d (x - a)) ^ 2 :=
        intervalIntegral.integral_mono_on hah i3 intervalIntegrable_const hb
    _ = h ^ 4 * ∫ x in a..(a + h), (c x - cubK h d (x - a)) ^ 2 := by
        rw [intervalIntegral.integral_const, smul_eq_mul]; ring
    _ ≤ h ^ 4 * (h * ε ^ 2) := mul_le_mul_of_nonneg_left h1 (by positivity)

end piece

end PyCBA
