import Verif.Exact.Report
import Mathlib.Analysis.Calculus.MeanValue

set_option linter.unusedSectionVars false
set_option linter.unusedSimpArgs false

/-!
C92: the reported rotations and deflections of slender prismatic members converge to the
exact elastic line as the number of stations grows.
-/

namespace PyCBA

open Set

/-! ### Error of the trapezium rule -/

/-- `f` integrates to `G` and one trapezium over `[a, b]` has an error of at most
`(b - a) * (Φ b - Φ a)`. -/
def Quad (L : ℝ) (f G Φ : ℝ → ℝ) : Prop :=
  ∀ a b, 0 ≤ a → a ≤ b → b ≤ L →
    |(b - a) * (f a + f b) / 2 - (G b - G a)| ≤ (b - a) * (Φ b - Φ a) ∧ Φ a ≤ Φ b

theorem Quad.add {L : ℝ} {f G Φ f' G' Φ' : ℝ → ℝ} (h : Quad L f G Φ) (h' : Quad L f' G' Φ') :
    Quad L (fun x => f x + f' x) (fun x => G x + G' x) (fun x => Φ x + Φ' x) := by
  intro a b h0 hab hb
  obtain ⟨h1, h2⟩ := h a b h0 hab hb
  obtain ⟨h3, h4⟩ := h' a b h0 hab hb
  refine ⟨?_, add_le_add h2 h4⟩
  have : (b - a) * (f a + f' a + (f b + f' b)) / 2 - (G b + G' b - (G a + G' a))
      = ((b - a) * (f a + f b) / 2 - (G b - G a))
        + ((b - a) * (f' a + f' b) / 2 - (G' b - G' a)) := by ring
  rw [this]
  refine (abs_add_le _ _).trans ?_
  linarith

theorem Quad.smul {L : ℝ} {f G Φ : ℝ → ℝ} (h : Quad L f G Φ) (c : ℝ) :
    Quad L (fun x => c * f x) (fun x => c * G x) (fun x => |c| * Φ x) := by
  intro a b h0 hab hb
  obtain ⟨h1, h2⟩ := h a b h0 hab hb
  refine ⟨?_, mul_le_mul_of_nonneg_left h2 (abs_nonneg c)⟩
  have : (b - a) * (c * f a + c * f b) / 2 - (c * G b - c * G a)
      = c * ((b - a) * (f a + f b) / 2 - (G b - G a)) := by ring
  rw [this, abs_mul]
  calc |c| * |(b - a) * (f a + f b) / 2 - (G b - G a)|
      ≤ |c| * ((b - a) * (Φ b - Φ a)) := mul_le_mul_of_nonneg_left h1 (abs_nonneg c)
    _ = _ := by ring

theorem quad_linear (L p q r : ℝ) :
    Quad L (fun x => p + q * x) (fun x => r + p * x + q * x ^ 2 / 2) (fun _ => 0) := by
  intro a b h0 hab hb
  refine ⟨le_of_eq ?_, le_rfl⟩
  rw [abs_eq_zero.2 (by ring)]
  ring

theorem quad_sum {α : Type*} (L : ℝ) (l : List α) (f G : α → ℝ → ℝ)
    (h : ∀ a ∈ l, ∃ Φ, Quad L (f a) (G a) Φ) :
    ∃ Φ, Quad L (fun x => (l.map fun a => f a x).sum) (fun x => (l.map fun a => G a x).sum) Φ := by
  induction l with
  | nil =>
    exact ⟨fun _ => 0, fun a b _ _ _ => by simp⟩
  | cons a l ih =>
    obtain ⟨Φ, h1⟩ := h a (by simp)
    obtain ⟨Ψ, h2⟩ := ih fun b hb => h b (List.mem_cons_of_mem _ hb)
    refine ⟨fun x => Φ x + Ψ x, ?_⟩
    simp only [List.map_cons, List.sum_cons]
    exact h1.add h2

theorem quad_lipschitz {L B : ℝ} {f G : ℝ → ℝ} (hd : ∀ x, HasDerivAt G (f x) x)
    (hB : 0 ≤ B)
    (hf : ∀ a b, 0 ≤ a → a ≤ b → b ≤ L → |f b - f a| ≤ B * (b - a)) :
    Quad L f G fun x => B * x := by
  intro a b h0 hab hb
  refine ⟨?_, mul_le_mul_of_nonneg_left hab hB⟩
  rcases eq_or_lt_of_le hab with rfl | hlt
  · simp
  obtain ⟨ξ, hξ, he⟩ := exists_hasDerivAt_eq_slope G f hlt
    (fun x _ => (hd x).continuousAt.continuousWithinAt) (fun x _ => hd x)
  have h1 : G b - G a = f ξ * (b - a) := by
    rw [he]
    have : b - a ≠ 0 := by linarith
    field_simp
  have h2 := hf a ξ h0 hξ.1.le (hξ.2.le.trans hb)
  have h3 := hf ξ b (h0.trans hξ.1.le) hξ.2.le hb
  have h4 : (b - a) * (f a + f b) / 2 - (G b - G a)
      = (b - a) * (((f b - f ξ) - (f ξ - f a)) / 2) := by
    rw [h1]; ring
  rw [h4, abs_mul, abs_of_nonneg (by linarith : 0 ≤ b - a)]
  apply mul_le_mul_of_nonneg_left _ (by linarith)
  rw [abs_div, abs_two]
  have h5 := abs_sub (f b - f ξ) (f ξ - f a)
  have h6 : 0 ≤ B * (b - a) := mul_nonneg hB (by linarith)
  linarith

theorem quad_step (L a v : ℝ) (h0 : 0 ≤ v) (h1 : v ≤ 1) :
    Quad L (fun x => hv (x - a) v) (fun x => mb (x - a)) fun x => hv (x - a) v := by
  intro p q _ hpq _
  have hm : hv (p - a) v ≤ hv (q - a) v := by
    simp only [hv]
    split_ifs <;> first | linarith |
      (exfalso; rename_i a1 a2 a3 a4; exact a2 (le_antisymm (by linarith) (not_lt.1 a1)))
  refine ⟨?_, hm⟩
  have hl : (q - p) * hv (p - a) v ≤ mb (q - a) - mb (p - a) := by
    rcases lt_trichotomy p a with h | h | h
    · rw [hv_neg' (by linarith), mb_of_nonpos (by linarith : p - a ≤ 0)]
      have : 0 ≤ mb (q - a) := le_max_right _ _
      linarith
    · subst h
      rw [mb_of_nonneg (by linarith), mb_of_nonpos (by linarith)]
      have : hv (p - p) v ≤ 1 := by simp [hv, h1]
      have := mul_le_mul_of_nonneg_left this (by linarith : 0 ≤ q - p)
      linarith
    · rw [hv_pos' (by linarith), mb_of_nonneg (by linarith), mb_of_nonneg (by linarith)]
      linarith
  have hu : mb (q - a) - mb (p - a) ≤ (q - p) * hv (q - a) v := by
    rcases lt_trichotomy q a with h | h | h
    · rw [hv_neg' (by linarith), mb_of_nonpos (by linarith : q - a ≤ 0),
        mb_of_nonpos (by linarith : p - a ≤ 0)]
      linarith
    · subst h
      rw [mb_of_nonpos (by linarith : q - q ≤ 0), mb_of_nonpos (by linarith : p - q ≤ 0)]
      have : 0 ≤ hv (q - q) v := by simp [hv, h0]
      have := mul_nonneg (by linarith : 0 ≤ q - p) this
      linarith
    · rw [hv_pos' (by linarith), mb_of_nonneg (by linarith : 0 ≤ q - a)]
      have : p - a ≤ mb (p - a) := le_max_left _ _
      linarith
  have : 0 ≤ (q - p) * (hv (q - a) v - hv (p - a) v) :=
    mul_nonneg (by linarith) (by linarith)
  rw [abs_le]
  constructor <;> nlinarith

/-- Composite trapezium rule. -/
theorem Quad.cumTrap {L : ℝ} {f G Φ : ℝ → ℝ} (hq : Quad L f G Φ) (X h : ℕ → ℝ) (δ : ℝ) (n : ℕ)
    (hX : ∀ j ≤ n, X j ∈ Icc 0 L) (hh : ∀ j < n, h j = X (j + 1) - X j ∧ 0 ≤ h j ∧ h j ≤ δ)
    (k : ℕ) (hk : k ≤ n) :
    |cumTrap h (fun j => f (X j)) k - (G (X k) - G (X 0))| ≤ δ * (Φ (X k) - Φ (X 0)) := by
  induction k with
  | zero => simp [PyCBA.cumTrap]
  | succ k ih =>
    have ih := ih (by omega)
    obtain ⟨e, e0, e1⟩ := hh k (by omega)
    obtain ⟨q1, q2⟩ := hq (X k) (X (k + 1)) (hX k (by omega)).1 (by linarith)
      (hX (k + 1) hk).2
    rw [PyCBA.cumTrap]
    have : PyCBA.cumTrap h (fun j => f (X j)) k + h k * (f (X k) + f (X (k + 1))) / 2
        - (G (X (k + 1)) - G (X 0))
        = (PyCBA.cumTrap h (fun j => f (X j)) k - (G (X k) - G (X 0)))
          + ((X (k + 1) - X k) * (f (X k) + f (X (k + 1))) / 2 - (G (X (k + 1)) - G (X k))) := by
      rw [e]; ring
    rw [this]
    refine (abs_add_le _ _).trans ?_
    have h5 : (X (k + 1) - X k) * (Φ (X (k + 1)) - Φ (X k)) ≤ δ * (Φ (X (k + 1)) - Φ (X k)) :=
      mul_le_mul_of_nonneg_right (by linarith) (by linarith)
    linarith

theorem cumTrap_close (h y z : ℕ → ℝ) (ε : ℝ) (k : ℕ) (hh : ∀ j < k, 0 ≤ h j)
    (hy : ∀ j ≤ k, |y j - z j| ≤ ε) :
    |cumTrap h y k - cumTrap h z k| ≤ ε * ∑ j ∈ Finset.range k, h j := by
  induction k with
  | zero => simp [cumTrap]
  | succ k ih =>
    have ih := ih (fun j hj => hh j (by omega)) (fun j hj => hy j (by omega))
    rw [cumTrap, cumTrap, Finset.sum_range_succ]
    have : cumTrap h y k + h k * (y k + y (k + 1)) / 2
        - (cumTrap h z k + h k * (z k + z (k + 1)) / 2)
        = (cumTrap h y k - cumTrap h z k)
          + h k * (((y k - z k) + (y (k + 1) - z (k + 1))) / 2) := by ring
    rw [this]
    refine (abs_add_le _ _).trans ?_
    have h1 : |h k * (((y k - z k) + (y (k + 1) - z (k + 1))) / 2)| ≤ h k * ε := by
      rw [abs_mul, abs_of_nonneg (hh k (by omega))]
      apply mul_le_mul_of_nonneg_left _ (hh k (by omega))
      rw [abs_div, abs_two]
      have := abs_add_le (y k - z k) (y (k + 1) - z (k + 1))
      have := hy k (by omega)
      have := hy (k + 1) le_rfl
      linarith
    linarith

/-! ### The loads -/

/-- The moment of a load integrates to its rotation, with a bounded moment. -/
theorem Load.Plain.quad {L : ℝ} {ld : Load ℝ} (hL : 0 < L) (h : ld.Plain L) :
    (∃ Φ, Quad L (fun x => (ld.ss L x).M) (fun x => (ld.ss L x).R) Φ) ∧
    ∃ B, ∀ x ∈ Icc 0 L, |(ld.ss L x).M| ≤ B := by
  have hR := (C10_rotation_deflection_diagrams ld L hL h.1 h.2.1).2.1
  have smooth : ld.forces = [] → ld.pointActions = ∅ → ld.couplePts = ∅ →
      (∃ Φ, Quad L (fun x => (ld.ss L x).M) (fun x => (ld.ss L x).R) Φ) ∧
      ∃ B, ∀ x ∈ Icc 0 L, |(ld.ss L x).M| ≤ B := by
    intro hf ha hc
    have hM := (C09_shear_moment_diagrams ld L hL h.1 h.2.1).2.1
    have hMd : ∀ x, HasDerivAt (fun y => (ld.ss L y).M) ((ld.ss L x).V) x := fun x =>
      hM x (by simp [ha])
    have hMc : Continuous fun y => (ld.ss L y).M :=
      continuous_iff_continuousAt.mpr fun x => (hMd x).continuousAt
    have hV := ss_V_continuous ld L hL hf h.2.1
    obtain ⟨B, hB⟩ := (isCompact_Icc (a := (0 : ℝ)) (b := L)).exists_bound_of_continuousOn
      hMc.continuousOn
    obtain ⟨C, hC⟩ := (isCompact_Icc (a := (0 : ℝ)) (b := L)).exists_bound_of_continuousOn
      hV.continuousOn
    have hC0 : 0 ≤ C := (norm_nonneg _).trans (hC 0 ⟨le_rfl, hL.le⟩)
    refine ⟨⟨_, quad_lipschitz (B := C) (fun x => hR x (by simp [hc])) hC0 ?_⟩, B, hB⟩
    intro a b h0 hab hb
    have := (convex_Icc (0 : ℝ) L).norm_image_sub_le_of_norm_hasDerivWithin_le
      (f := fun y => (ld.ss L y).M) (f' := fun y => (ld.ss L y).V) (C := C)
      (fun x _ => (hMd x).hasDerivWithinAt) hC (x := a) (y := b) ⟨h0, hab.trans hb⟩
      ⟨h0.trans hab, hb⟩
    rw [Real.norm_eq_abs, Real.norm_eq_abs, abs_of_nonneg (by linarith : 0 ≤ b - a)] at this
    exact this
  cases ld with
  | udl w => exact smooth rfl rfl rfl
  | pudl w a c => exact smooth rfl rfl rfl
  | trapez w1 w2 a c => exact smooth rfl rfl rfl
  | mamb A B => exact smooth rfl rfl rfl
  | ic k EI => exact h.2.1.elim
  | pl P a =>
    have hMc : Continuous fun y => ((Load.pl P a).ss L y).M := by
      simp only [Load.ss, Load.stn, plStn]
      have := continuous_mb a
      fun_prop
    obtain ⟨B, hB⟩ := (isCompact_Icc (a := (0 : ℝ)) (b := L)).exists_bound_of_continuousOn
      hMc.continuousOn
    refine ⟨⟨_, quad_lipschitz (B := |P * max (L - a) 0 / L| + |P|)
      (fun x => hR x (by simp [Load.couplePts])) (by positivity) ?_⟩, B, hB⟩
    intro p q _ hpq _
    simp only [Load.ss, Load.stn, plStn]
    have hl : 0 ≤ mb (q - a) - mb (p - a) := by
      have : mb (p - a) ≤ mb (q - a) := max_le_max (by linarith) le_rfl
      linarith
    have hu : mb (q - a) - mb (p - a) ≤ q - p := by
      have : mb (q - a) ≤ mb (p - a) + (q - p) :=
        max_le (by have : p - a ≤ mb (p - a) := le_max_left _ _
                   linarith)
          (by have : 0 ≤ mb (p - a) := le_max_right _ _
              linarith)
      linarith
    have e : ∀ V : ℝ, V * q - P * mb (q - a) - (V * p - P * mb (p - a))
        = V * (q - p) - P * (mb (q - a) - mb (p - a)) := fun V => by ring
    rw [e]
    refine (abs_sub _ _).trans ?_
    rw [abs_mul, abs_mul, abs_of_nonneg hl, abs_of_nonneg (by linarith : 0 ≤ q - p), add_mul]
    exact add_le_add le_rfl (mul_le_mul_of_nonneg_left hu (abs_nonneg P))
  | ml m a =>
    have hst : ∃ v : ℝ, 0 ≤ v ∧ v ≤ 1 ∧ ∀ x, ((Load.ml m a).ss L x).M
        = m / L * x - m * hv (x - a) v := by
      simp only [Load.ss, Load.stn, mlStn]
      by_cases h0 : a = 0
      · exact ⟨1, by norm_num, le_rfl, fun x => by rw [if_pos h0]⟩
      · by_cases h1 : a = L
        · exact ⟨0, le_rfl, by norm_num, fun x => by rw [if_neg h0, if_pos h1]⟩
        · exact ⟨1 / 2, by norm_num, by norm_num, fun x => by rw [if_neg h0, if_neg h1]⟩
    obtain ⟨v, v0, v1, hM⟩ := hst
    constructor
    · refine ⟨fun x => 0 + |(-m)| * hv (x - a) v, ?_⟩
      have := (quad_linear L 0 (m / L) ((m / 6) * (3 * (L - a) ^ 2 / L - L))).add
        ((quad_step L a v v0 v1).smul (-m))
      convert this using 2
      · rw [hM]; ring
      · simp only [Load.ss, Load.stn, mlStn]; ring
    · refine ⟨|m| + |m|, fun x hx => ?_⟩
      rw [hM]
      refine (abs_sub _ _).trans ?_
      have hh : |hv (x - a) v| ≤ 1 := by
        simp only [hv]
        split_ifs
        · simp
        · rw [abs_of_nonneg v0]; exact v1
        · simp
      have hx1 : |x / L| ≤ 1 := by
        rw [abs_of_nonneg (div_nonneg hx.1 hL.le)]
        exact (div_le_one hL).2 hx.2
      have e : m / L * x = m * (x / L) := by ring
      rw [e, abs_mul, abs_mul]
      exact add_le_add (mul_le_of_le_one_right (abs_nonneg m) hx1)
        (mul_le_of_le_one_right (abs_nonneg m) hh)

/-! ### The stations -/

theorem MCtx.h_eq (c : MCtx ℝ) (hL : 0 < c.m.L) (hn : 0 < c.npts) (j : ℕ) (hj : j + 3 < c.n) :
    c.h j = c.x (j + 2) - c.x (j + 1) ∧ c.h j ≤ c.m.L / c.npts := by
  have hn' : (0 : ℝ) < c.npts := by exact_mod_cast hn
  have hd : 0 < c.m.L / c.npts := div_pos hL hn'
  obtain ⟨h1, h2, h3, h4, h5⟩ := memberGrid_spec hL hn c.sp
  have hmem : ∀ k ≤ c.npts, c.m.L / c.npts * (k : ℝ) ∈ c.grid := by
    intro k hk
    have hu : c.m.L / c.npts * (k : ℝ) ∈ uniformGrid c.m.L c.npts := by
      simp only [uniformGrid, List.mem_map, List.mem_range]
      exact ⟨k, by omega, rfl⟩
    simp only [MCtx.grid, memberGrid]
    split
    · exact hu
    · simp only [List.mem_mergeSort, List.mem_append]
      exact Or.inl hu
  have hlen : j + 1 < c.grid.length := by simp only [MCtx.n] at hj; omega
  have hx1 : c.x (j + 1) = c.grid[j] := by
    simp only [MCtx.x, padded]
    rw [if_neg (by omega), if_pos (by omega)]
    simp [List.getD_eq_getElem?_getD, show j < c.grid.length by omega]
  have hx2 : c.x (j + 2) = c.grid[j + 1] := by
    simp only [MCtx.x, padded]
    rw [if_neg (by omega), if_pos (by omega)]
    simp [List.getD_eq_getElem?_getD, hlen]
  by_cases hb : (memberGrid c.m.L c.npts c.sp).2 = true
  · have he : c.h j = c.x (j + 2) - c.x (j + 1) := by simp [MCtx.h, hb]
    refine ⟨he, ?_⟩
    rw [he, hx1, hx2]
    have hsort : ∀ p q (hp : p < c.grid.length) (hq : q < c.grid.length), p ≤ q →
        c.grid[p] ≤ c.grid[q] := by
      intro p q hp hq hpq
      rcases Nat.lt_or_ge p q with h | h
      · exact List.pairwise_iff_getElem.1 h4 p q hp hq h
      · have : p = q := by omega
        subst this
        exact le_rfl
    have hg0 : 0 ≤ c.grid[j] := (h1 _ (List.getElem_mem _)).1
    have hgL : c.grid[j + 1] ≤ c.m.L := (h1 _ (List.getElem_mem _)).2
    set m := ⌊c.grid[j] / (c.m.L / c.npts)⌋₊ with hm
    have f1 : (m : ℝ) * (c.m.L / c.npts) ≤ c.grid[j] := by
      have := Nat.floor_le (div_nonneg hg0 hd.le)
      rwa [← hm, le_div_iff₀ hd] at this
    have f2 : c.grid[j] < ((m : ℝ) + 1) * (c.m.L / c.npts) := by
      have := Nat.lt_floor_add_one (c.grid[j] / (c.m.L / c.npts))
      rwa [← hm, div_lt_iff₀ hd] at this
    by_cases hmn : m + 1 ≤ c.npts
    · obtain ⟨q, hq, hqe⟩ := List.getElem_of_mem (hmem (m + 1) hmn)
      have hqj : j + 1 ≤ q := by
        by_contra hcon
        have := hsort q j hq (by omega) (by omega)
        rw [hqe] at this
        push_cast at this
        linarith
      have := hsort (j + 1) q hlen hq hqj
      rw [hqe] at this
      push_cast at this
      linarith
    · have hmn' : (c.npts : ℝ) ≤ m := by exact_mod_cast (by omega : c.npts ≤ m)
      have : c.m.L ≤ c.grid[j] := by
        calc c.m.L = (c.npts : ℝ) * (c.m.L / c.npts) := by field_simp
          _ ≤ (m : ℝ) * (c.m.L / c.npts) := mul_le_mul_of_nonneg_right hmn' hd.le
          _ ≤ _ := f1
      linarith
  · have he : c.h j = c.m.L / c.npts := by simp [MCtx.h, hb]
    have hg : c.grid = uniformGrid c.m.L c.npts := by
      simp only [MCtx.grid]
      unfold memberGrid at hb ⊢
      split at hb
      · rename_i h
        simp only [h]
      · simp at hb
    refine ⟨?_, he.le⟩
    rw [he, hx1, hx2]
    simp only [hg, uniformGrid, List.getElem_map, List.getElem_range]
    push_cast
    ring

/-! ### The theorem -/

theorem list_bound {α : Type*} (L : ℝ) (l : List α) (f : α → ℝ → ℝ)
    (h : ∀ a ∈ l, ∃ B, ∀ x ∈ Icc 0 L, |f a x| ≤ B) :
    ∃ B, ∀ x ∈ Icc 0 L, |(l.map fun a => f a x).sum| ≤ B := by
  induction l with
  | nil => exact ⟨0, fun x _ => by simp⟩
  | cons a l ih =>
    obtain ⟨B, hB⟩ := h a (by simp)
    obtain ⟨C, hC⟩ := ih fun b hb => h b (List.mem_cons_of_mem _ hb)
    refine ⟨B + C, fun x hx => ?_⟩
    simp only [List.map_cons, List.sum_cons]
    exact (abs_add_le _ _).trans (add_le_add (hB x hx) (hC x hx))

/-- The rotation the code starts from is that of the exact line. -/
theorem psi0_exact {e L : ℝ} (he : 0 < e) (hL : 0 < L) {own : List (Load ℝ)}
    (hown : ∀ ld ∈ own, ld.Plain L) {F : Vec4 ℝ} {v θ : ℝ → ℝ}
    (h : ElasticSpan e L own F v θ) :
    (v L - v 0) / L - L / (3 * e) * (-(F 1 - 1 / 2 * F 3)
      + ((clampedSum L own).Ma - 1 / 2 * (clampedSum L own).Mb)) = θ 0 := by
  have hL0 := hL.ne'
  have he0 := he.ne'
  have h1 := h.stiffness he0 hL hown
  have g1 := congrFun h1 1
  have g3 := congrFun h1 3
  simp only [kFF_mulVec, Pi.add_apply, CNL.vec, Matrix.cons_val] at g1 g3
  rw [g1, g3]
  field_simp
  ring

/-- **C92**: in a beam of slender prismatic members the reported rotations and deflections
converge to the elastic line of the exact solution with the reported displacements and end
forces (which exists by `C91_exact_partial`) as the number of stations grows, at every
station between the padding stations and whatever the shear points are. -/
theorem C92_convergence (b : BeamDef ℝ) (ls : List (SpanLoad ℝ)) (hls : b.setLoads = .ok ls)
    (hb : b.Slender ls) (res : Result ℝ) (v θ : ℕ → ℝ → ℝ)
    (hE : ElasticBeam b ls res.d res.fmbr v θ) (i : ℕ) (hi : i < b.members.length) :
    ∃ C : ℝ, ∀ (npts : ℕ) (sp : ℕ → List ℝ) (rs : List (MRes ℝ)), 0 < npts →
      b.memberResults res npts sp = .ok rs → ∀ (hi' : i < rs.length) (k : ℕ), 0 < k →
      k + 1 < rs[i].n →
      |rs[i].R k - θ i (rs[i].x k - b.nodeX i)| ≤ C / npts ∧
      |rs[i].D k - v i (rs[i].x k - b.nodeX i)| ≤ C / npts := by
  obtain ⟨hG, e, he, hEI⟩ := hb.prismatic _ (List.getElem_mem hi)
  have hL := hb.pos _ (List.getElem_mem hi)
  have hown := hb.own hls i hi
  have hsp := hE.span i hi e hEI
  have hst := hsp.start hL hown
  have hv0 := hE.left i hi
  have hvL := hE.right i hi
  have hr0 := hE.rotLeft i hi
  obtain ⟨l2, l1⟩ := hsp.eq_line hL hown
  have hpsi := psi0_exact he hL hown hsp
  generalize hm : b.members[i] = m at *
  generalize ho : ownLoads i ls = own at *
  set F := res.fmbr i with hF
  set L := m.L with hLd
  -- the moment along the member
  set f : ℝ → ℝ := fun x => 1 / e * ((-F 1 + (F 1 + F 3) / L * x)
    + (own.map fun ld => (ld.ss L x).M).sum) with hf
  obtain ⟨Φ0, q0⟩ := quad_sum L own (fun ld x => (ld.ss L x).M) (fun ld x => (ld.ss L x).R)
    fun ld hld => ((hown ld hld).quad hL).1
  have q1 := ((quad_linear L (-F 1) ((F 1 + F 3) / L) 0).add q0).smul (1 / e)
  obtain ⟨Φ, q2⟩ : ∃ Φ, Quad L f (exLineT e L own F (θ i 0)) Φ := by
    refine ⟨fun x => |1 / e| * (0 + Φ0 x), fun a c h0 hac hc => ?_⟩
    obtain ⟨g1, g2⟩ := q1 a c h0 hac hc
    refine ⟨?_, g2⟩
    refine le_trans (le_of_eq ?_) g1
    congr 1
    simp only [hf, exLineT, list_sum_sub]
    have e1 : ∀ y : ℝ, (own.map fun ld => (ld.ss L 0).V * y ^ 2 / 2).sum
        = (own.map fun ld => (ld.ss L 0).V).sum * (y ^ 2 / 2) := by
      intro y
      rw [← list_sum_mul]
      congr 1
      apply List.map_congr_left
      intro ld _
      ring
    rw [e1, e1, hst]
    ring
  -- bounded moment, so the rotation is Lipschitz
  obtain ⟨B, hB⟩ := list_bound L own (fun ld x => (ld.ss L x).M)
    fun ld hld => ((hown ld hld).quad hL).2
  have hΦ : Φ 0 ≤ Φ L := (q2 0 L le_rfl hL.le le_rfl).2
  have hB0 : 0 ≤ B := (abs_nonneg _).trans (hB 0 ⟨le_rfl, hL.le⟩)
  set Bf := 1 / e * (|F 1| + |F 1 + F 3| + B) with hBf
  have hBf0 : 0 ≤ Bf := by positivity
  have hfB : ∀ x ∈ Icc 0 L, |f x| ≤ Bf := by
    intro x hx
    simp only [hf, hBf]
    rw [abs_mul, abs_of_pos (by positivity : 0 < 1 / e)]
    apply mul_le_mul_of_nonneg_left _ (by positivity)
    refine (abs_add_le _ _).trans (add_le_add ((abs_add_le _ _).trans ?_) (hB x hx))
    rw [abs_neg]
    apply add_le_add le_rfl
    have hx1 : |x / L| ≤ 1 := by
      rw [abs_of_nonneg (div_nonneg hx.1 hL.le)]
      exact (div_le_one hL).2 hx.2
    have e1 : (F 1 + F 3) / L * x = (F 1 + F 3) * (x / L) := by ring
    rw [e1, abs_mul]
    exact mul_le_of_le_one_right (abs_nonneg _) hx1
  set Bt := Bf + (Φ L - Φ 0) with hBt
  have hBt0 : 0 ≤ Bt := by linarith
  have q3 : Quad L (exLineT e L own F (θ i 0)) (exLineV e L own F (v i 0) (θ i 0)) fun x => Bt * x := by
    apply quad_lipschitz (exLineV_deriv hL hown F (v i 0) (θ i 0)) hBt0
    intro a c h0 hac hc
    obtain ⟨g1, g2⟩ := q2 a c h0 hac hc
    have g3 : Φ c - Φ a ≤ Φ L - Φ 0 := by
      have := (q2 0 a le_rfl h0 (hac.trans hc)).2
      have := (q2 c L (h0.trans hac) hc le_rfl).2
      linarith
    have g4 : |(c - a) * (f a + f c) / 2| ≤ (c - a) * Bf := by
      have : (c - a) * (f a + f c) / 2 = (c - a) * ((f a + f c) / 2) := by ring
      rw [this, abs_mul, abs_of_nonneg (by linarith : 0 ≤ c - a)]
      apply mul_le_mul_of_nonneg_left _ (by linarith)
      rw [abs_div, abs_two]
      have := abs_add_le (f a) (f c)
      have := hfB a ⟨h0, hac.trans hc⟩
      have := hfB c ⟨h0.trans hac, hc⟩
      linarith
    have g5 : (c - a) * (Φ c - Φ a) ≤ (c - a) * (Φ L - Φ 0) :=
      mul_le_mul_of_nonneg_left g3 (by linarith)
    have g6 := abs_sub ((c - a) * (f a + f c) / 2) ((c - a) * (f a + f c) / 2
      - (exLineT e L own F (θ i 0) c - exLineT e L own F (θ i 0) a))
    rw [sub_sub_cancel] at g6
    have : Bt * (c - a) = (c - a) * Bf + (c - a) * (Φ L - Φ 0) := by rw [hBt]; ring
    linarith
  -- the constant
  refine ⟨L * (Φ L - Φ 0) + L * (L * (Φ L - Φ 0)) + L * (Bt * L), ?_⟩
  intro npts sp rs hn hr hi' k hk hk'
  obtain ⟨_, ls', hls', hc'⟩ := BeamDef.memberResults_ok hr
  rw [hls] at hls'
  cases hls'
  obtain ⟨c, hc1, hc⟩ := hc' i hi hi'
  obtain ⟨m1, m2, m3, m4, m5, m6, cnls, n1, n2, n3⟩ := Member.ctx_ok hc1
  rw [ho] at m2 n1
  rw [hm] at m1 n1
  obtain ⟨x1, x2, x3, x4, x5, x6⟩ := c.x_spec (by rw [m1]; exact hL) (by rw [m5]; exact hn)
  rw [hc] at hk' ⊢
  simp only [MCtx.result] at hk' ⊢
  rw [show c.x k + b.nodeX i - b.nodeX i = c.x k by ring]
  have hn0 : (0 : ℝ) < npts := by exact_mod_cast hn
  -- clamped moments
  have hcl : c.Ma = (clampedSum L own).Ma ∧ c.Mb = (clampedSum L own).Mb := by
    have hcn : ∀ ld ∈ own, m.cnl ld = .ok (ld.clamped L) := by
      intro ld hld
      have g1 := (hown ld hld).2.1
      have g2 := (hown ld hld).getCnl hL
      cases ld <;> first | exact g1.elim | (simp only [Member.cnl]; rw [g2])
    have : cnls = own.map fun ld => ld.clamped L := by
      obtain ⟨p1, p2⟩ := mapE_ok n1
      apply List.ext_getElem
      · simp [p1]
      · intro j hj1 hj2
        have := p2 j (by simpa using hj2) hj1
        rw [hcn _ (List.getElem_mem _)] at this
        rw [List.getElem_map]
        exact (Except.ok.inj this).symm
    rw [n2, n3, this]
    simp only [List.map_map, Function.comp_def, clampedSum, and_self]
  have hkap : ∀ j, c.kappa j = 0 := by
    intro j
    simp only [MCtx.kappa, m2]
    rw [List.map_congr_left (g := fun _ => (0 : ℝ))]
    · simp
    · intro ld hld
      have g1 := (hown ld hld).2.1
      cases ld <;> first | exact g1.elim | rfl
  have hgam : ∀ j, c.gamma j = 0 := by
    intro j
    simp only [MCtx.gamma, m1, hG]
  have hpsi0 : c.psi0 = θ i 0 := by
    simp only [MCtx.psi0]
    split_ifs with t1 t2
    · rw [m1] at t1
      rw [t1] at hr0
      simp only [EType.freeLeft, Bool.false_eq_true, if_false] at hr0
      rw [hr0, m4]
      rfl
    · exfalso
      simp only [MCtx.useBc, m1, hEI, hG, hkap] at t2
      simp at t2
    · rw [m1, hEI]
      simp only [MCtx.psiClosed]
      rw [← hpsi, hcl.1, hcl.2, m1, m3, m4, hv0, hvL]
      simp only [elemVec]
      rfl
  -- stations
  set X : ℕ → ℝ := fun j => c.x (j + 1) with hX
  have hXI : ∀ j ≤ c.n - 3, X j ∈ Icc 0 L := by
    intro j hj
    have g1 := x6 0 (j + 1) (by omega) (by omega)
    have g2 := x6 (j + 1) (c.n - 1) (by omega) (by omega)
    rw [x2] at g1
    rw [x5, m1] at g2
    exact ⟨g1, g2⟩
  have hh : ∀ j < c.n - 3, c.h j = X (j + 1) - X j ∧ 0 ≤ c.h j ∧ c.h j ≤ L / npts := by
    intro j hj
    obtain ⟨g1, g2⟩ := c.h_eq (by rw [m1]; exact hL) (by rw [m5]; exact hn) j (by omega)
    refine ⟨g1, ?_, ?_⟩
    · rw [g1]
      have := x6 (j + 1) (j + 2) (by omega) (by omega)
      linarith
    · rw [m1, m5] at g2
      exact g2
  have hX0 : X 0 = 0 := x3
  have hIs : ¬ c.IsEnd k := by simp only [MCtx.IsEnd]; omega
  have hcurv : ∀ j ≤ c.n - 3, c.curv (j + 1) = f (X j) := by
    intro j hj
    have hIs : ¬ c.IsEnd (j + 1) := by simp only [MCtx.IsEnd]; omega
    simp only [MCtx.curv, hkap, add_zero, MCtx.M, if_neg hIs, m1, m2, m3, hEI, hf, hX, ssM_eq,
      mambStn, Rigidity.eval]
    rw [← hLd]
    ring
  have hcong : ∀ (y z : ℕ → ℝ) (k : ℕ), (∀ j ≤ k, y j = z j) → cumTrap c.h y k = cumTrap c.h z k := by
    intro y z k
    induction k with
    | zero => intro _; rfl
    | succ k ih =>
      intro hyz
      rw [cumTrap, cumTrap, ih fun j hj => hyz j (by omega), hyz k (by omega), hyz (k + 1) le_rfl]
  have hrot : ∀ j ≤ c.n - 3, |c.psi j - exLineT e L own F (θ i 0) (X j)| ≤ L / npts * (Φ L - Φ 0) := by
    intro j hj
    have g := q2.cumTrap X c.h (L / npts) (c.n - 3) hXI hh j hj
    rw [hX0, (line_start e L hL own hown F (v i 0) (θ i 0)).2] at g
    have e1 : c.psi j - exLineT e L own F (θ i 0) (X j)
        = cumTrap c.h (fun j => f (X j)) j - (exLineT e L own F (θ i 0) (X j) - θ i 0) := by
      simp only [MCtx.psi, hpsi0, MCtx.psiProv]
      rw [hcong _ (fun j => f (X j)) j fun q hq => hcurv q (by omega)]
      ring
    rw [e1]
    refine g.trans (mul_le_mul_of_nonneg_left ?_ (by positivity))
    have := (q2 (X j) L (hXI j hj).1 (hXI j hj).2 le_rfl).2
    linarith
  have hk3 : k - 1 ≤ c.n - 3 := by omega
  have hxk : c.x k = X (k - 1) := by simp only [hX]; rw [show k - 1 + 1 = k by omega]
  have hRb : |c.R k - θ i (c.x k)| ≤ L / npts * (Φ L - Φ 0) := by
    rw [MCtx.R, if_neg hIs, hxk, l2 _ (hXI _ hk3)]
    exact hrot (k - 1) hk3
  have hsum : ∑ j ∈ Finset.range (k - 1), c.h j = X (k - 1) := by
    rw [Finset.sum_congr rfl fun j hj => (hh j (by have := Finset.mem_range.1 hj; omega)).1,
      Finset.sum_range_sub, hX0, sub_zero]
  have hDb : |c.D k - v i (c.x k)|
      ≤ L / npts * (Φ L - Φ 0) * L + L / npts * (Bt * L) := by
    rw [MCtx.D, if_neg hIs, hxk, l1 _ (hXI _ hk3)]
    have g := q3.cumTrap X c.h (L / npts) (c.n - 3) hXI hh (k - 1) hk3
    rw [hX0, (line_start e L hL own hown F (v i 0) (θ i 0)).1] at g
    have g2 := cumTrap_close c.h (fun j => c.psi j + c.gamma j)
      (fun j => exLineT e L own F (θ i 0) (X j)) (L / npts * (Φ L - Φ 0)) (k - 1)
      (fun j hj => (hh j (by omega)).2.1) (fun j hj => by
        rw [hgam, add_zero]
        exact hrot j (by omega))
    rw [hsum] at g2
    have e1 : c.defl (k - 1) - exLineV e L own F (v i 0) (θ i 0) (X (k - 1))
        = (cumTrap c.h (fun j => c.psi j + c.gamma j) (k - 1)
            - cumTrap c.h (fun j => exLineT e L own F (θ i 0) (X j)) (k - 1))
          + (cumTrap c.h (fun j => exLineT e L own F (θ i 0) (X j)) (k - 1)
            - (exLineV e L own F (v i 0) (θ i 0) (X (k - 1)) - v i 0)) := by
      have : c.d 0 = v i 0 := by rw [hv0, m4]; rfl
      rw [MCtx.defl, this]
      ring
    rw [e1]
    refine (abs_add_le _ _).trans (add_le_add (g2.trans ?_) (g.trans ?_))
    · exact mul_le_mul_of_nonneg_left (hXI _ hk3).2
        (mul_nonneg (by positivity) (by linarith))
    · apply mul_le_mul_of_nonneg_left _ (by positivity)
      have := mul_le_mul_of_nonneg_left (hXI _ hk3).2 hBt0
      linarith
  have e1 : (L * (Φ L - Φ 0) + L * (L * (Φ L - Φ 0)) + L * (Bt * L)) / npts
      = L / npts * (Φ L - Φ 0) + (L / npts * (Φ L - Φ 0) * L + L / npts * (Bt * L)) := by ring
  have p1 : 0 ≤ L / npts * (Φ L - Φ 0) := mul_nonneg (by positivity) (by linarith)
  have p2 : 0 ≤ L / npts * (Φ L - Φ 0) * L + L / npts * (Bt * L) := by positivity
  rw [e1]
  exact ⟨hRb.trans (by linarith), hDb.trans (by linarith)⟩

/-- C92 at two spans: the results exist for every number of stations and converge. -/
example : ∃ (solve : Solver ℝ) (res : Result ℝ) (v θ : ℕ → ℝ → ℝ) (C : ℝ), solve.Sound ∧
    exTwoSpan.analyze (fun _ => true) solve = .ok res ∧
    ∀ npts : ℕ, 0 < npts → ∃ rs : List (MRes ℝ), ∃ hi : 1 < rs.length,
      exTwoSpan.memberResults res npts (fun _ => []) = .ok rs ∧
      ∀ k, 0 < k → k + 1 < rs[1].n →
        |rs[1].D k - v 1 (rs[1].x k - exTwoSpan.nodeX 1)| ≤ C / npts := by
  obtain ⟨solve, res, v, θ, hsd, hres, hE, _⟩ := exTwoSpan_analysed
  obtain ⟨C, hC⟩ := C92_convergence exTwoSpan _ exTwoSpan_loads exTwoSpan_slender res v θ hE 1 (by simp [exTwoSpan])
  refine ⟨solve, res, v, θ, C, hsd, hres, fun npts hn => ?_⟩
  obtain ⟨rs, hrs⟩ : ∃ rs, exTwoSpan.memberResults res npts (fun _ => []) = .ok rs := by
    rw [BeamDef.memberResults, exTwoSpan_loads]
    simp [exTwoSpan, mapE, Member.values, Member.ctx, ownLoads, Member.cnl, Load.getCnl]
  obtain ⟨hl, _⟩ := BeamDef.memberResults_ok hrs
  have hi : 1 < rs.length := by rw [hl]; simp [exTwoSpan]
  exact ⟨rs, hi, hrs, fun k h1 h2 => (hC npts _ rs hn hrs hi k h1 h2).2⟩

end PyCBA
