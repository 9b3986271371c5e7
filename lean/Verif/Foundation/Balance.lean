import Verif.Foundation.Loads

/-!
C64: balance of a whole foundation member; what is reported along it.
C70: the modal analysis leaves the foundation out.
-/

set_option linter.unusedSectionVars false
set_option linter.unusedSimpArgs false

namespace PyCBA

open Matrix Finset

theorem OnSpan_starts {L : ℝ} {l : Load ℝ} (h : l.OnSpan L) : l.Starts L := by
  cases l with
  | pudl w a c => exact ⟨h.1, by linarith [h.2.1, h.2.2], h.2.1⟩
  | trapez w1 w2 a c => exact h.1
  | _ => exact h

theorem pieceRef_sums {h : ℝ} (hh : 0 < h) (ls : List (Load ℝ)) (hon : ∀ l ∈ ls, l.OnSpan h)
    (v : Vec4 ℝ) (hv : pieceRef h ls = .ok v) :
    v 0 + v 2 = (ls.map fun l => l.total h).sum ∧
      v 1 + v 3 + v 2 * h = (ls.map fun l => l.momentAboutLeft h).sum := by
  induction ls generalizing v with
  | nil => cases hv; simp
  | cons l ls ih =>
    simp only [pieceRef] at hv
    split at hv
    · cases hv
    rename_i c hc
    split at hv
    · cases hv
    rename_i t ht
    cases hv
    obtain ⟨k, e1, e2, e3⟩ := C01_fixed_end_equilibrium l h hh (OnSpan_starts (hon l (by simp)))
    have hck : c.vec = k.vec := by
      rw [Load.getRef, e1] at hc
      simp only [Except.ok.injEq] at hc
      rw [← hc]
      simp [releaseCnl, CNL.vec]
    obtain ⟨a1, a2⟩ := ih (fun l hl => hon l (by simp [hl])) t ht
    have k0 : k.vec 0 = k.Va := rfl
    have k1 : k.vec 1 = k.Ma := rfl
    have k2 : k.vec 2 = k.Vb := rfl
    have k3 : k.vec 3 = k.Mb := rfl
    simp only [List.map_cons, List.sum_cons, Pi.add_apply, hck, k0, k1, k2, k3, ← a1, ← a2, ← e2, ← e3]
    constructor <;> ring

theorem tele_ends (l r : ℕ → ℝ) (m : ℕ) (h : ∀ j, 0 < j → j < m + 1 → r (j - 1) + l j = 0) :
    ∑ e ∈ range (m + 1), (l e + r e) = l 0 + r m := by
  induction m with
  | zero => simp
  | succ m ih =>
    rw [Finset.sum_range_succ, ih fun j h0 hj => h j h0 (by omega)]
    have := h (m + 1) (by omega) (by omega)
    simp only [Nat.add_sub_cancel] at this
    linarith

/-- The cubic with end deflections `d 0`, `d 2` and slopes `d 1`, `d 3`. -/
noncomputable def cubic (h : ℝ) (d : Vec4 ℝ) (x : ℝ) : ℝ :=
  d 0 + d 1 * x + (3 * (d 2 - d 0) / h ^ 2 - (2 * d 1 + d 3) / h) * x ^ 2
    + (2 * (d 0 - d 2) / h ^ 3 + (d 1 + d 3) / h ^ 2) * x ^ 3

/-- It is that cubic. -/
theorem cubic_ends {h : ℝ} (hh : h ≠ 0) (d : Vec4 ℝ) :
    cubic h d 0 = d 0 ∧ deriv (cubic h d) 0 = d 1 ∧ cubic h d h = d 2 ∧ deriv (cubic h d) h = d 3 := by
  have hd : ∀ x, HasDerivAt (cubic h d) (d 1 + 2 * (3 * (d 2 - d 0) / h ^ 2 - (2 * d 1 + d 3) / h) * x
      + 3 * (2 * (d 0 - d 2) / h ^ 3 + (d 1 + d 3) / h ^ 2) * x ^ 2) x := by
    intro x
    unfold cubic
    refine HasDerivAt.congr_deriv ((((hasDerivAt_const x (d 0)).add
      ((hasDerivAt_id' x).const_mul (d 1))).add
      ((hasDerivAt_pow 2 x).const_mul _)).add ((hasDerivAt_pow 3 x).const_mul _)) ?_
    simp only [Nat.cast_ofNat, Nat.reduceSub]
    ring
  refine ⟨by simp [cubic], ?_, ?_, ?_⟩
  · rw [(hd 0).deriv]; ring
  · simp only [cubic]; field_simp; ring
  · rw [(hd h).deriv]; field_simp; ring

theorem found_resultant (kf : ℝ) {h : ℝ} (hh : h ≠ 0) (d : Vec4 ℝ) :
    (mConsistent kf h *ᵥ d) 0 + (mConsistent kf h *ᵥ d) 2 = ∫ x in (0 : ℝ)..h, kf * cubic h d x ∧
    (mConsistent kf h *ᵥ d) 1 + (mConsistent kf h *ᵥ d) 3 + (mConsistent kf h *ᵥ d) 2 * h
      = ∫ x in (0 : ℝ)..h, x * (kf * cubic h d x) := by
  have i1 : ∫ x in (0 : ℝ)..h, kf * cubic h d x = kf * (d 0 * h + d 1 * h ^ 2 / 2
      + (3 * (d 2 - d 0) / h ^ 2 - (2 * d 1 + d 3) / h) * h ^ 3 / 3
      + (2 * (d 0 - d 2) / h ^ 3 + (d 1 + d 3) / h ^ 2) * h ^ 4 / 4) := by
    rw [intervalIntegral.integral_eq_sub_of_hasDerivAt
      (f := fun x => kf * (d 0 * x + d 1 * x ^ 2 / 2
      + (3 * (d 2 - d 0) / h ^ 2 - (2 * d 1 + d 3) / h) * x ^ 3 / 3
      + (2 * (d 0 - d 2) / h ^ 3 + (d 1 + d 3) / h ^ 2) * x ^ 4 / 4))]
    · simp
    · intro x _
      have q : ∀ n : ℕ, HasDerivAt (fun x : ℝ => x ^ n) (n * x ^ (n - 1)) x := fun n => hasDerivAt_pow n x
      refine HasDerivAt.congr_deriv ((((((hasDerivAt_id' x).const_mul (d 0)).add
        (((q 2).const_mul (d 1)).div_const 2)).add (((q 3).const_mul _).div_const 3)).add
        (((q 4).const_mul _).div_const 4)).const_mul kf) ?_
      simp only [Nat.cast_ofNat, Nat.reduceSub, cubic]
      ring
    · unfold cubic
      exact (by fun_prop : Continuous _).intervalIntegrable _ _
  have i2 : ∫ x in (0 : ℝ)..h, x * (kf * cubic h d x) = kf * (d 0 * h ^ 2 / 2 + d 1 * h ^ 3 / 3
      + (3 * (d 2 - d 0) / h ^ 2 - (2 * d 1 + d 3) / h) * h ^ 4 / 4
      + (2 * (d 0 - d 2) / h ^ 3 + (d 1 + d 3) / h ^ 2) * h ^ 5 / 5) := by
    rw [intervalIntegral.integral_eq_sub_of_hasDerivAt
      (f := fun x => kf * (d 0 * x ^ 2 / 2 + d 1 * x ^ 3 / 3
      + (3 * (d 2 - d 0) / h ^ 2 - (2 * d 1 + d 3) / h) * x ^ 4 / 4
      + (2 * (d 0 - d 2) / h ^ 3 + (d 1 + d 3) / h ^ 2) * x ^ 5 / 5))]
    · simp
    · intro x _
      have q : ∀ n : ℕ, HasDerivAt (fun x : ℝ => x ^ n) (n * x ^ (n - 1)) x := fun n => hasDerivAt_pow n x
      refine HasDerivAt.congr_deriv (((((((q 2).const_mul (d 0)).div_const 2).add
        (((q 3).const_mul (d 1)).div_const 3)).add (((q 4).const_mul _).div_const 4)).add
        (((q 5).const_mul _).div_const 5)).const_mul kf) ?_
      simp only [Nat.cast_ofNat, Nat.reduceSub, cubic]
      ring
    · unfold cubic
      exact (by fun_prop : Continuous _).intervalIntegrable _ _
  rw [i1, i2]
  simp only [mConsistent, smul_mulVec, mulVec4, Pi.smul_apply, smul_eq_mul]
  simp
  constructor <;> field_simp <;> ring

theorem bend_resultant (EI : ℝ) {h : ℝ} (hh : h ≠ 0) (d : Vec4 ℝ) :
    (kEbeam EI h *ᵥ d) 0 + (kEbeam EI h *ᵥ d) 2 = 0 ∧
    (kEbeam EI h *ᵥ d) 1 + (kEbeam EI h *ᵥ d) 3 + (kEbeam EI h *ᵥ d) 2 * h = 0 := by
  rw [kEbeam_eq _ hh, kFF_mulVec]
  simp
  field_simp
  ring

/-- **C64**, balance: for any loads on the member (clear of the tolerances) and any end
displacements, the end forces of the condensed member carry exactly the load plus the
reaction of the foundation to the recovered deflection, in force and in moment about
the left end. -/
theorem C64_balance (F : Found ℝ) (hn : 0 < F.n) (hL : 0 < F.L) (inv : Inverter ℝ) (hS : inv.Sound)
    (E : FoundEl ℝ) (hE : F.build inv = .ok E) (loads : List (Load ℝ))
    (hon : ∀ l ∈ loads, l.OnSpan F.L) (hcl : ∀ l ∈ loads, F.Clear l) (refs : List (Vec4 ℝ))
    (hr : F.refs loads = .ok refs) (dr : Vec4 ℝ) :
    E.ref loads = .ok (E.refOf refs) ∧
    (E.k *ᵥ dr + E.refOf refs) 0 + (E.k *ᵥ dr + E.refOf refs) 2
      = (loads.map fun l => l.total F.L).sum
        + ∑ e ∈ range F.n, ∫ x in (0 : ℝ)..F.h, F.kf * cubic F.h (elemVec (E.mesh refs dr) e) x ∧
    (E.k *ᵥ dr + E.refOf refs) 1 + (E.k *ᵥ dr + E.refOf refs) 3
        + (E.k *ᵥ dr + E.refOf refs) 2 * F.L
      = (loads.map fun l => l.momentAboutLeft F.L).sum
        + ∑ e ∈ range F.n, ((∫ x in (0 : ℝ)..F.h, x * (F.kf * cubic F.h (elemVec (E.mesh refs dr) e) x))
          + (e : ℝ) * F.h * ∫ x in (0 : ℝ)..F.h, F.kf * cubic F.h (elemVec (E.mesh refs dr) e) x) := by
  have hh := F.h_pos hn hL
  unfold Found.refs at hr
  split at hr
  · cases hr
  rename_i per hper
  obtain ⟨m1, m2⟩ := mapE_ok hr
  rw [List.length_range] at m1
  obtain ⟨p1, p2, p3⟩ := C64_loads_partial F hn hL loads hon hcl per hper
  obtain ⟨-, q2, q3, q4⟩ := C64_mesh_equilibrium F hn inv hS E hE refs m1 dr
  obtain ⟨hEF, -⟩ := Found.build_ok hS hE
  have hget : ∀ e < F.n, pieceRef F.h (per e) = .ok (refs.getD e 0) := by
    intro e he
    have := m2 e (by simpa using he) (by omega)
    rw [List.getElem_range] at this
    rw [this, List.getD_eq_getElem?_getD, List.getElem?_eq_getElem (by omega : e < refs.length)]
    rfl
  set D := E.mesh refs dr with hD
  set G := E.k *ᵥ dr + E.refOf refs with hG
  set f : ℕ → Vec4 ℝ := fun e => (F.sys refs).endForces D e with hf
  have fe : ∀ e, f e = kEbeam F.EI F.h *ᵥ elemVec D e + mConsistent F.kf F.h *ᵥ elemVec D e
      + refs.getD e 0 := by
    intro e
    simp only [hf, System.endForces, Found.sys, add_mulVec]
  have sumV : ∀ e < F.n, f e 0 + f e 2 = ((per e).map fun l => l.total F.h).sum
      + ∫ x in (0 : ℝ)..F.h, F.kf * cubic F.h (elemVec D e) x := by
    intro e he
    obtain ⟨a1, a2⟩ := pieceRef_sums hh _ (p1 e he) _ (hget e he)
    rw [← (found_resultant F.kf hh.ne' (elemVec D e)).1, ← a1, fe]
    have := (bend_resultant F.EI hh.ne' (elemVec D e)).1
    simp only [Pi.add_apply]
    linarith
  have sumM : ∀ e < F.n, f e 1 + f e 3 + f e 2 * F.h
      = ((per e).map fun l => l.momentAboutLeft F.h).sum
        + ∫ x in (0 : ℝ)..F.h, x * (F.kf * cubic F.h (elemVec D e) x) := by
    intro e he
    obtain ⟨a1, a2⟩ := pieceRef_sums hh _ (p1 e he) _ (hget e he)
    rw [← (found_resultant F.kf hh.ne' (elemVec D e)).2, ← a2, fe]
    have := (bend_resultant F.EI hh.ne' (elemVec D e)).2
    simp only [Pi.add_apply]
    linarith
  obtain ⟨m, hm⟩ : ∃ m, F.n = m + 1 := ⟨F.n - 1, by omega⟩
  have c00 : f 0 0 = G 0 := q3 0
  have c01 : f 0 1 = G 1 := q3 1
  have c12 : f m 2 = G 2 := by
    have := q4 0
    rw [show F.n - 1 = m by omega] at this
    exact this
  have c13 : f m 3 = G 3 := by
    have := q4 1
    rw [show F.n - 1 = m by omega] at this
    exact this
  have j0 : ∀ j, 0 < j → j < m + 1 → f (j - 1) 2 + f j 0 = 0 := fun j h0 hj => q2 j h0 (by omega) 0
  have j1 : ∀ j, 0 < j → j < m + 1 → f (j - 1) 3 + f j 1 = 0 := fun j h0 hj => q2 j h0 (by omega) 1
  refine ⟨?_, ?_, ?_⟩
  · rw [FoundEl.ref, hEF, Found.refs, hper]
    simp only
    rw [hr]
  · have t := tele_ends (fun e => f e 0) (fun e => f e 2) m j0
    rw [c00, c12, ← hm] at t
    rw [← t, Finset.sum_congr rfl fun e he => sumV e (Finset.mem_range.1 he), Finset.sum_add_distrib, p2]
  · have t := tele_ends (fun e => f e 1 + (e : ℝ) * F.h * f e 0)
      (fun e => f e 3 + ((e : ℝ) + 1) * F.h * f e 2) m (by
        intro j h0 hj
        have a0 := j0 j h0 hj
        have a1 := j1 j h0 hj
        have : ((j - 1 : ℕ) : ℝ) + 1 = j := by
          have : (j - 1) + 1 = j := by omega
          exact_mod_cast this
        rw [this]
        linear_combination a1 + (j : ℝ) * F.h * a0)
    have hnh := F.n_h hn
    rw [hm] at hnh
    push_cast at hnh
    simp only [Nat.cast_zero, zero_mul, add_zero] at t
    rw [c01, c13, c12, hnh, ← hm] at t
    have s : ∀ e ∈ range F.n, f e 1 + (e : ℝ) * F.h * f e 0 + (f e 3 + ((e : ℝ) + 1) * F.h * f e 2)
        = ((per e).map fun k => k.momentAboutLeft F.h + (e : ℝ) * F.h * k.total F.h).sum
          + ((∫ x in (0 : ℝ)..F.h, x * (F.kf * cubic F.h (elemVec D e) x))
          + (e : ℝ) * F.h * ∫ x in (0 : ℝ)..F.h, F.kf * cubic F.h (elemVec D e) x) := by
      intro e he
      have a0 := sumV e (Finset.mem_range.1 he)
      have a1 := sumM e (Finset.mem_range.1 he)
      rw [List.sum_map_add, List.sum_map_mul_left]
      linear_combination a1 + (e : ℝ) * F.h * a0
    rw [Finset.sum_congr rfl s, Finset.sum_add_distrib, p3] at t
    linarith

end PyCBA
