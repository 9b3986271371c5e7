import Verif.Modal.Interp

/-!
Deflected shapes of the continuous beam: which are admissible, their strain and kinetic energy,
and their relation to the displacements of the modal mesh (for C148).
-/

set_option linter.unusedSectionVars false
set_option linter.unusedSimpArgs false

namespace PyCBA

open Matrix Finset MeasureTheory

/-! ## The continuous beam -/

/-- A deflected shape of a beam: deflection, slope and curvature of each span over the distance
from its left end. -/
structure BeamShape where
  w : ℕ → ℝ → ℝ
  t : ℕ → ℝ → ℝ
  c : ℕ → ℝ → ℝ

/-- The value of a function of the spans at the `j`-th support of `N` spans. -/
noncomputable def jointAt (N : ℕ) (L : ℕ → ℝ) (f : ℕ → ℝ → ℝ) (j : ℕ) : ℝ :=
  if j < N then f j 0 else f (N - 1) (L (N - 1))

/-- Deflection (even) or rotation (odd) at a degree of freedom of the beam. -/
noncomputable def BeamShape.dof (S : BeamShape) (N : ℕ) (L : ℕ → ℝ) (P : ℕ) : ℝ :=
  if P % 2 = 0 then jointAt N L S.w (P / 2) else jointAt N L S.t (P / 2)

/-- The shapes a beam of `N` spans can take: the deflection has the slope and the slope the
curvature as derivative, the curvature is square integrable, deflection and slope continue over
the supports and vanish where a support is rigid. -/
structure BeamShape.Admissible (S : BeamShape) (N : ℕ) (L r : ℕ → ℝ) : Prop where
  slope : ∀ i < N, SlopeOn (S.w i) (S.t i) 0 (L i)
  curv : ∀ i < N, SlopeOn (S.t i) (S.c i) 0 (L i)
  int : ∀ i < N, IntervalIntegrable (S.c i) volume 0 (L i)
  int2 : ∀ i < N, IntervalIntegrable (fun x => S.c i x ^ 2) volume 0 (L i)
  joint : ∀ i, i + 1 < N → S.w i (L i) = S.w (i + 1) 0 ∧ S.t i (L i) = S.t (i + 1) 0
  held : ∀ P < 2 * N + 2, r P = -1 → S.dof N L P = 0

/-- Twice the strain energy: bending of the spans and springs at the supports. -/
noncomputable def BeamShape.strain (S : BeamShape) (N : ℕ) (L r EI : ℕ → ℝ) : ℝ :=
  (∑ i ∈ range N, EI i * ∫ x in (0 : ℝ)..L i, S.c i x ^ 2)
    + ∑ P ∈ range (2 * N + 2), max (r P) 0 * S.dof N L P ^ 2

/-- Twice the kinetic energy of vibration in the shape, over the square of the circular
frequency. -/
noncomputable def BeamShape.kinetic (S : BeamShape) (N : ℕ) (L m : ℕ → ℝ) : ℝ :=
  ∑ i ∈ range N, m i * ∫ x in (0 : ℝ)..L i, S.w i x ^ 2

/-- Combination of shapes. -/
noncomputable def combShape {k : ℕ} (S : Fin k → BeamShape) (a : Fin k → ℝ) : BeamShape where
  w i x := ∑ j, a j * (S j).w i x
  t i x := ∑ j, a j * (S j).t i x
  c i x := ∑ j, a j * (S j).c i x

/-- The values that bound the ratio of strain to kinetic energy over some `k + 1`-dimensional
space of shapes.  The least of them is the square of the `k`-th natural frequency (counted from
zero) of the continuous beam (Courant-Fischer). -/
def ratioBounds (N : ℕ) (L r EI m : ℕ → ℝ) (k : ℕ) : Set ℝ :=
  {lam | ∃ S : Fin (k + 1) → BeamShape, (∀ a, (combShape S a).Admissible N L r) ∧
    ∀ a, a ≠ 0 → 0 < (combShape S a).kinetic N L m ∧
      (combShape S a).strain N L r EI ≤ lam * (combShape S a).kinetic N L m}

/-- Square of the `k`-th natural frequency of the continuous beam. -/
noncomputable def exactOmegaSq (N : ℕ) (L r EI m : ℕ → ℝ) (k : ℕ) : ℝ :=
  sInf (ratioBounds N L r EI m k)

/-! ## Integrals over the elements of a span -/

theorem elem_sum {n : ℕ} (hn : 0 < n) {L : ℝ} (hL : 0 < L) {f : ℝ → ℝ}
    (hf : IntervalIntegrable f volume 0 L) :
    ∫ x in (0 : ℝ)..L, f x = ∑ s ∈ range n, ∫ x in (s * (L / n) : ℝ)..(s * (L / n) + L / n), f x := by
  have hn' : (0 : ℝ) < n := by exact_mod_cast hn
  have hend : (n : ℝ) * (L / n) = L := by field_simp
  have h := intervalIntegral.sum_integral_adjacent_intervals (f := f) (μ := volume)
    (a := fun k : ℕ => (k : ℝ) * (L / n)) (n := n) ?_
  · simp only [Nat.cast_zero, zero_mul, hend] at h
    rw [← h]
    apply Finset.sum_congr rfl
    intro s _
    have : ((s + 1 : ℕ) : ℝ) * (L / n) = s * (L / n) + L / n := by push_cast; ring
    rw [this]
  · intro s hs
    apply hf.mono_set
    have h0 : (0 : ℝ) ≤ L / n := by positivity
    have h1 : (s : ℝ) * (L / n) ≤ ((s + 1 : ℕ) : ℝ) * (L / n) := by
      push_cast; nlinarith
    have h2 : ((s + 1 : ℕ) : ℝ) * (L / n) ≤ L := by
      calc ((s + 1 : ℕ) : ℝ) * (L / n) ≤ (n : ℝ) * (L / n) := by
            apply mul_le_mul_of_nonneg_right _ h0
            exact_mod_cast hs
        _ = L := hend
    rw [Set.uIcc_of_le h1, Set.uIcc_of_le hL.le]
    exact Set.Icc_subset_Icc (by positivity) h2

theorem elem_in {n s : ℕ} (hs : s < n) {L : ℝ} (hL : 0 < L) :
    0 ≤ (s : ℝ) * (L / n) ∧ (s : ℝ) * (L / n) + L / n ≤ L := by
  have hn' : (0 : ℝ) < n := by exact_mod_cast (by omega : 0 < n)
  have hend : (n : ℝ) * (L / n) = L := by field_simp
  have h0 : (0 : ℝ) ≤ L / n := by positivity
  refine ⟨by positivity, ?_⟩
  calc (s : ℝ) * (L / n) + L / n = ((s + 1 : ℕ) : ℝ) * (L / n) := by push_cast; ring
    _ ≤ (n : ℝ) * (L / n) := by
      apply mul_le_mul_of_nonneg_right _ h0
      exact_mod_cast hs
    _ = L := hend

/-! ## A shape sampled at the nodes of the mesh -/

/-- The deflections and slopes of a shape at the nodes of the mesh. -/
noncomputable def sampleVec (N n : ℕ) (L : ℕ → ℝ) (S : BeamShape) (p : ℕ) : ℝ :=
  let f := if p % 2 = 0 then S.w else S.t
  if p / 2 / n < N then f (p / 2 / n) ((p / 2 % n : ℕ) * (L (p / 2 / n) / n)) else f (N - 1) (L (N - 1))

theorem sample_node {N n : ℕ} {L : ℕ → ℝ} (S : BeamShape) {i s : ℕ} (hi : i < N) (hs : s < n) :
    sampleVec N n L S (2 * (i * n + s)) = S.w i (s * (L i / n)) ∧
    sampleVec N n L S (2 * (i * n + s) + 1) = S.t i (s * (L i / n)) := by
  obtain ⟨m1, m2⟩ := node_div (i := i) hs
  have e1 : 2 * (i * n + s) / 2 = i * n + s := by omega
  have e2 : (2 * (i * n + s) + 1) / 2 = i * n + s := by omega
  have e3 : 2 * (i * n + s) % 2 = 0 := by omega
  have e4 : (2 * (i * n + s) + 1) % 2 ≠ 0 := by omega
  constructor
  · simp only [sampleVec, e1, e3, m1, m2, if_true, if_pos hi]
  · simp only [sampleVec, e2, if_neg e4, m1, m2, if_pos hi]

theorem sample_elem {N n : ℕ} {L : ℕ → ℝ} {S : BeamShape}
    (hj : ∀ i, i + 1 < N → S.w i (L i) = S.w (i + 1) 0 ∧ S.t i (L i) = S.t (i + 1) 0)
    {i s : ℕ} (hi : i < N) (hs : s < n) :
    elemVec (sampleVec N n L S) (i * n + s) = endVals (S.w i) (S.t i) (s * (L i / n)) (L i / n) := by
  have hn : 0 < n := by omega
  have hn' : (n : ℝ) ≠ 0 := by exact_mod_cast hn.ne'
  obtain ⟨a1, a2⟩ := sample_node (L := L) S hi hs
  have step : (s : ℝ) * (L i / n) + L i / n = (s + 1 : ℕ) * (L i / n) := by push_cast; ring
  have next : sampleVec N n L S (2 * (i * n + s + 1)) = S.w i ((s + 1 : ℕ) * (L i / n)) ∧
      sampleVec N n L S (2 * (i * n + s + 1) + 1) = S.t i ((s + 1 : ℕ) * (L i / n)) := by
    by_cases hl : s + 1 < n
    · exact sample_node S hi hl
    · have hsf : s + 1 = n := by omega
      have e1 : i * n + s + 1 = (i + 1) * n := by rw [Nat.succ_mul]; omega
      have e2 : ((s + 1 : ℕ) : ℝ) * (L i / n) = L i := by rw [hsf]; field_simp
      rw [e1, e2]
      by_cases hl' : i + 1 < N
      · have := sample_node (L := L) S hl' hn
        simp only [Nat.add_zero, Nat.cast_zero, zero_mul] at this
        rw [this.1, this.2]
        exact ⟨(hj i hl').1.symm, (hj i hl').2.symm⟩
      · have hN : N - 1 = i := by omega
        have q1 : 2 * ((i + 1) * n) / 2 / n = i + 1 := by
          rw [Nat.mul_div_cancel_left _ (by norm_num), Nat.mul_div_cancel _ hn]
        have q2 : (2 * ((i + 1) * n) + 1) / 2 / n = i + 1 := by
          rw [show (2 * ((i + 1) * n) + 1) / 2 = (i + 1) * n by omega, Nat.mul_div_cancel _ hn]
        have e3 : 2 * ((i + 1) * n) % 2 = 0 := by omega
        have e4 : (2 * ((i + 1) * n) + 1) % 2 ≠ 0 := by omega
        constructor
        · simp only [sampleVec, q1, e3, if_true, if_neg hl', hN]
        · simp only [sampleVec, q2, if_neg e4, if_neg hl', hN]
  rw [elemVec_eq, a1, a2, next.1, next.2, endVals, step]

theorem sample_dof {N n : ℕ} (hn : 0 < n) {L : ℕ → ℝ} (S : BeamShape) (P : ℕ) :
    sampleVec N n L S (meshDof n P) = S.dof N L P := by
  obtain ⟨h1, h2⟩ := meshDof_parts n P
  simp only [sampleVec, h1, h2, Nat.mul_div_cancel _ hn, Nat.mul_mod_left, Nat.cast_zero, zero_mul,
    BeamShape.dof, jointAt]
  by_cases h3 : P % 2 = 0 <;> simp only [h3, if_true, if_false, ↓reduceIte]

theorem sample_lin {k : ℕ} (N n : ℕ) (L : ℕ → ℝ) (S : Fin k → BeamShape) (a : Fin k → ℝ) (p : ℕ) :
    sampleVec N n L (combShape S a) p = ∑ j, a j * sampleVec N n L (S j) p := by
  simp only [sampleVec, combShape]
  by_cases h1 : p % 2 = 0 <;> by_cases h2 : p / 2 / n < N <;> simp [h1, h2]

section energies

variable {EIs ms Ls rs : List ℝ} {n : ℕ} {S : BeamShape}

/-- The mesh stores at most the strain energy of the shape. -/
theorem sample_strain (hn : 0 < n) (hL : ∀ i < EIs.length, 0 < Ls.getD i 0)
    (hE : ∀ i < EIs.length, 0 < EIs.getD i 0)
    (hS : S.Admissible EIs.length (fun i => Ls.getD i 0) fun P => rs.getD P 0) :
    meshStrain EIs Ls rs n (sampleVec EIs.length n (fun i => Ls.getD i 0) S)
      ≤ S.strain EIs.length (fun i => Ls.getD i 0) (fun P => rs.getD P 0) fun i => EIs.getD i 0 := by
  have hn' : (0 : ℝ) < n := by exact_mod_cast hn
  unfold meshStrain BeamShape.strain
  apply add_le_add
  · rw [sum_range_mul]
    apply Finset.sum_le_sum
    intro i hi
    have hi := Finset.mem_range.1 hi
    rw [elem_sum hn (hL i hi) (hS.int2 i hi), Finset.mul_sum]
    apply Finset.sum_le_sum
    intro s hs
    have hs := Finset.mem_range.1 hs
    rw [(node_div hs).1, kEbeam_scale, sample_elem hS.joint hi hs]
    apply mul_le_mul_of_nonneg_left _ (hE i hi).le
    obtain ⟨b1, b2⟩ := elem_in hs (hL i hi)
    have hsub : Set.uIcc ((s : ℝ) * (Ls.getD i 0 / n)) (s * (Ls.getD i 0 / n) + Ls.getD i 0 / n)
        ⊆ Set.uIcc 0 (Ls.getD i 0) := by
      have h0 : (0 : ℝ) ≤ Ls.getD i 0 / n := (div_pos (hL i hi) hn').le
      rw [Set.uIcc_of_le (by linarith), Set.uIcc_of_le (hL i hi).le]
      exact Set.Icc_subset_Icc b1 b2
    exact interp_strain (div_pos (hL i hi) hn') ((hS.slope i hi).mono b1 b2)
      ((hS.curv i hi).mono b1 b2) ((hS.int i hi).mono_set hsub) ((hS.int2 i hi).mono_set hsub)
  · apply le_of_eq
    apply Finset.sum_congr rfl
    intro P _
    rw [sample_dof hn]

/-- The kinetic energy of the shape is at most a little more than that of the mesh. -/
theorem sample_kinetic (hn : 0 < n) (hlen : ms.length = EIs.length)
    (hL : ∀ i < EIs.length, 0 < Ls.getD i 0)
    (hm : ∀ i < EIs.length, 0 < ms.getD i 0)
    (hS : S.Admissible EIs.length (fun i => Ls.getD i 0) fun P => rs.getD P 0) {δ C : ℝ}
    (hδ : 0 < δ) (hC0 : 0 ≤ C) (hC : ∀ i < EIs.length, ms.getD i 0 * Ls.getD i 0 ^ 4 ≤ C * EIs.getD i 0) :
    S.kinetic EIs.length (fun i => Ls.getD i 0) (fun i => ms.getD i 0)
      ≤ (1 + δ) * meshKinetic ms Ls n (sampleVec EIs.length n (fun i => Ls.getD i 0) S)
        + (1 + 1 / δ) * (C / n ^ 4 * S.strain EIs.length (fun i => Ls.getD i 0)
            (fun P => rs.getD P 0) fun i => EIs.getD i 0) := by
  have hn' : (0 : ℝ) < n := by exact_mod_cast hn
  have hδ' : 0 ≤ 1 + 1 / δ := by positivity
  have hJ0 : ∀ i < EIs.length, 0 ≤ ∫ x in (0 : ℝ)..Ls.getD i 0, S.c i x ^ 2 := fun i hi =>
    intervalIntegral.integral_nonneg (hL i hi).le fun x _ => sq_nonneg _
  have key : S.kinetic EIs.length (fun i => Ls.getD i 0) (fun i => ms.getD i 0)
      ≤ (1 + δ) * meshKinetic ms Ls n (sampleVec EIs.length n (fun i => Ls.getD i 0) S)
        + (1 + 1 / δ) * ∑ i ∈ range EIs.length, ms.getD i 0 * ((Ls.getD i 0 / n) ^ 4
            * ∫ x in (0 : ℝ)..Ls.getD i 0, S.c i x ^ 2) := by
    unfold meshKinetic BeamShape.kinetic
    rw [hlen, sum_range_mul, Finset.mul_sum, Finset.mul_sum, ← Finset.sum_add_distrib]
    apply Finset.sum_le_sum
    intro i hi
    have hi := Finset.mem_range.1 hi
    have hw2 : IntervalIntegrable (fun x => S.w i x ^ 2) volume 0 (Ls.getD i 0) := by
      apply ContinuousOn.intervalIntegrable
      rw [Set.uIcc_of_le (hL i hi).le]
      exact (hS.slope i hi).cont.pow 2
    rw [elem_sum hn (hL i hi) hw2, elem_sum hn (hL i hi) (hS.int2 i hi)]
    simp only [Finset.mul_sum]
    rw [← Finset.sum_add_distrib]
    apply Finset.sum_le_sum
    intro s hs
    have hs := Finset.mem_range.1 hs
    rw [(node_div hs).1, mConsistent_scale, sample_elem hS.joint hi hs]
    obtain ⟨b1, b2⟩ := elem_in hs (hL i hi)
    have hsub : Set.uIcc ((s : ℝ) * (Ls.getD i 0 / n)) (s * (Ls.getD i 0 / n) + Ls.getD i 0 / n)
        ⊆ Set.uIcc 0 (Ls.getD i 0) := by
      have h0 : (0 : ℝ) ≤ Ls.getD i 0 / n := (div_pos (hL i hi) hn').le
      rw [Set.uIcc_of_le (by linarith), Set.uIcc_of_le (hL i hi).le]
      exact Set.Icc_subset_Icc b1 b2
    have := interp_kinetic (div_pos (hL i hi) hn') ((hS.slope i hi).mono b1 b2)
      ((hS.curv i hi).mono b1 b2) ((hS.int i hi).mono_set hsub) ((hS.int2 i hi).mono_set hsub) hδ
    calc _ ≤ _ := mul_le_mul_of_nonneg_left this (hm i hi).le
      _ = _ := by ring
  refine key.trans (add_le_add le_rfl (mul_le_mul_of_nonneg_left ?_ hδ'))
  unfold BeamShape.strain
  have hC' : 0 ≤ C / n ^ 4 := by positivity
  have hsp : 0 ≤ ∑ P ∈ range (2 * EIs.length + 2),
      max (rs.getD P 0) 0 * S.dof EIs.length (fun i => Ls.getD i 0) P ^ 2 :=
    Finset.sum_nonneg fun P _ => mul_nonneg (le_max_right _ _) (sq_nonneg _)
  rw [mul_add]
  refine le_add_of_le_of_nonneg ?_ (mul_nonneg hC' hsp)
  rw [Finset.mul_sum]
  apply Finset.sum_le_sum
  intro i hi
  have hi := Finset.mem_range.1 hi
  have h1 := mul_le_mul_of_nonneg_right (hC i hi) (hJ0 i hi)
  have h2 : ms.getD i 0 * ((Ls.getD i 0 / n) ^ 4 * ∫ x in (0 : ℝ)..Ls.getD i 0, S.c i x ^ 2)
      = ms.getD i 0 * Ls.getD i 0 ^ 4 * (∫ x in (0 : ℝ)..Ls.getD i 0, S.c i x ^ 2) / n ^ 4 := by
    rw [div_pow]; ring
  have h3 : C / n ^ 4 * (EIs.getD i 0 * ∫ x in (0 : ℝ)..Ls.getD i 0, S.c i x ^ 2)
      = C * EIs.getD i 0 * (∫ x in (0 : ℝ)..Ls.getD i 0, S.c i x ^ 2) / n ^ 4 := by ring
  rw [h2, h3]
  exact div_le_div_of_nonneg_right h1 (by positivity)

end energies

/-! ## The displacements of a mesh as a shape -/

/-- The shape between the nodes of the mesh: in every element the cubic with the displacements
of its nodes. -/
noncomputable def meshShape (n : ℕ) (L : ℕ → ℝ) (d : ℕ → ℝ) : BeamShape where
  w i x := cubV (L i / n) (elemVec d (i * n + ⌊x / (L i / n)⌋₊)) (x - ⌊x / (L i / n)⌋₊ * (L i / n))
  t i x := cubT (L i / n) (elemVec d (i * n + ⌊x / (L i / n)⌋₊)) (x - ⌊x / (L i / n)⌋₊ * (L i / n))
  c i x := cubK (L i / n) (elemVec d (i * n + ⌊x / (L i / n)⌋₊)) (x - ⌊x / (L i / n)⌋₊ * (L i / n))

theorem floor_elem {h : ℝ} (hh : 0 < h) {s : ℕ} {x : ℝ} (h1 : s * h ≤ x) (h2 : x < s * h + h) :
    ⌊x / h⌋₊ = s := by
  rw [Nat.floor_eq_iff]
  · constructor
    · rwa [le_div_iff₀ hh]
    · rw [div_lt_iff₀ hh]; linarith
  · exact div_nonneg (le_trans (by positivity) h1) hh.le

theorem elem_join (d : ℕ → ℝ) (e : ℕ) (h : ℝ) :
    cubV h (elemVec d (e + 1)) 0 = elemVec d e 2 ∧ cubT h (elemVec d (e + 1)) 0 = elemVec d e 3 := by
  obtain ⟨a1, a2⟩ := cub_start h (elemVec d (e + 1))
  rw [a1, a2]
  exact ⟨rfl, rfl⟩

section mesh

variable {n : ℕ} {L : ℕ → ℝ} {d : ℕ → ℝ} {i s : ℕ}

theorem mesh_inside (hh : 0 < L i / n) {x : ℝ} (h1 : s * (L i / n) ≤ x)
    (h2 : x < s * (L i / n) + L i / n) :
    (meshShape n L d).w i x = cubV (L i / n) (elemVec d (i * n + s)) (x - s * (L i / n)) ∧
    (meshShape n L d).t i x = cubT (L i / n) (elemVec d (i * n + s)) (x - s * (L i / n)) ∧
    (meshShape n L d).c i x = cubK (L i / n) (elemVec d (i * n + s)) (x - s * (L i / n)) := by
  simp only [meshShape, floor_elem hh h1 h2, and_self]

theorem mesh_at (hh : 0 < L i / n) (s : ℕ) :
    (meshShape n L d).w i (s * (L i / n)) = d (2 * (i * n + s)) ∧
    (meshShape n L d).t i (s * (L i / n)) = d (2 * (i * n + s) + 1) := by
  obtain ⟨a1, a2, -⟩ := mesh_inside (d := d) hh (le_refl ((s : ℝ) * (L i / n))) (by linarith)
  obtain ⟨b1, b2⟩ := cub_start (L i / n) (elemVec d (i * n + s))
  rw [a1, a2, sub_self, b1, b2]
  exact ⟨rfl, rfl⟩

theorem mesh_closed (hh : 0 < L i / n) {x : ℝ} (h1 : s * (L i / n) ≤ x)
    (h2 : x ≤ s * (L i / n) + L i / n) :
    (meshShape n L d).w i x = cubV (L i / n) (elemVec d (i * n + s)) (x - s * (L i / n)) ∧
    (meshShape n L d).t i x = cubT (L i / n) (elemVec d (i * n + s)) (x - s * (L i / n)) := by
  rcases lt_or_eq_of_le h2 with h3 | h3
  · obtain ⟨a1, a2, -⟩ := mesh_inside (d := d) hh h1 h3
    exact ⟨a1, a2⟩
  · have e : x = ((s + 1 : ℕ) : ℝ) * (L i / n) := by rw [h3]; push_cast; ring
    obtain ⟨a1, a2⟩ := mesh_at (d := d) hh (s + 1)
    obtain ⟨c1, c2⟩ := cub_end hh.ne' (elemVec d (i * n + s))
    rw [h3, add_sub_cancel_left, c1, c2, ← h3, e, a1, a2]
    exact ⟨rfl, rfl⟩

/-- A property of the closed elements holds along the whole span. -/
theorem mesh_cont {f : ℝ → ℝ} {h : ℝ} (hh : 0 < h)
    (hf : ∀ s : ℕ, ContinuousOn f (Set.Icc (s * h) (s * h + h))) (k : ℕ) :
    ContinuousOn f (Set.Icc 0 (k * h)) := by
  induction k with
  | zero => simp
  | succ k ih =>
    have e : Set.Icc (0 : ℝ) ((k + 1 : ℕ) * h) = Set.Icc 0 (k * h) ∪ Set.Icc (k * h) (k * h + h) := by
      rw [Set.Icc_union_Icc_eq_Icc (by positivity) (by linarith)]
      congr 1
      push_cast; ring
    rw [e]
    exact ih.union_of_isClosed (hf k) isClosed_Icc isClosed_Icc

theorem mesh_slopes (hn : 0 < n) (hL : 0 < L i) :
    SlopeOn ((meshShape n L d).w i) ((meshShape n L d).t i) 0 (L i) ∧
    SlopeOn ((meshShape n L d).t i) ((meshShape n L d).c i) 0 (L i) := by
  have hn' : (0 : ℝ) < n := by exact_mod_cast hn
  have hh : 0 < L i / n := div_pos hL hn'
  have hend : (n : ℝ) * (L i / n) = L i := by field_simp
  have near : ∀ x ∈ Set.Ioo 0 (L i), ∃ s : ℕ, s * (L i / n) ≤ x ∧ x < s * (L i / n) + L i / n := by
    intro x hx
    refine ⟨⌊x / (L i / n)⌋₊, ?_, ?_⟩
    · rw [← le_div_iff₀ hh]
      exact Nat.floor_le (div_nonneg hx.1.le hh.le)
    · have := Nat.lt_floor_add_one (x / (L i / n))
      rw [div_lt_iff₀ hh] at this
      linarith
  have ev : ∀ (x : ℝ) (s : ℕ), x < s * (L i / n) + L i / n → s * (L i / n) ≤ x →
      ∀ᶠ y in nhdsWithin x (Set.Ioi x), s * (L i / n) ≤ y ∧ y < s * (L i / n) + L i / n := by
    intro x s h2 h1
    filter_upwards [Ioo_mem_nhdsGT h2] with y hy
    exact ⟨h1.trans hy.1.le, hy.2⟩
  constructor
  · constructor
    · rw [← hend]
      apply mesh_cont hh
      intro s
      refine ContinuousOn.congr (f := fun x => cubV (L i / n) (elemVec d (i * n + s)) (x - s * (L i / n)))
        ?_ fun x hx => (mesh_closed hh hx.1 hx.2).1
      apply Continuous.continuousOn
      unfold cubV; fun_prop
    · intro x hx
      obtain ⟨s, h1, h2⟩ := near x hx
      obtain ⟨a1, a2, -⟩ := mesh_inside (d := d) hh h1 h2
      rw [a2]
      refine (cubV_deriv (L i / n) (elemVec d (i * n + s)) (s * (L i / n)) x).hasDerivWithinAt.congr_of_eventuallyEq
        ?_ a1
      filter_upwards [ev x s h2 h1] with y hy
      exact (mesh_inside hh hy.1 hy.2).1
  · constructor
    · rw [← hend]
      apply mesh_cont hh
      intro s
      refine ContinuousOn.congr (f := fun x => cubT (L i / n) (elemVec d (i * n + s)) (x - s * (L i / n)))
        ?_ fun x hx => (mesh_closed hh hx.1 hx.2).2
      apply Continuous.continuousOn
      unfold cubT; fun_prop
    · intro x hx
      obtain ⟨s, h1, h2⟩ := near x hx
      obtain ⟨a1, a2, a3⟩ := mesh_inside (d := d) hh h1 h2
      rw [a3]
      refine (cubT_deriv (L i / n) (elemVec d (i * n + s)) (s * (L i / n)) x).hasDerivWithinAt.congr_of_eventuallyEq
        ?_ a2
      filter_upwards [ev x s h2 h1] with y hy
      exact (mesh_inside hh hy.1 hy.2).2.1

/-- Integrable over every element, integrable over the span. -/
theorem span_integrable (hn : 0 < n) {l : ℝ} {f : ℝ → ℝ}
    (hf : ∀ s : ℕ, IntervalIntegrable f volume (s * (l / n)) (s * (l / n) + l / n)) :
    IntervalIntegrable f volume 0 l := by
  have hn' : (0 : ℝ) < n := by exact_mod_cast hn
  have hend : (n : ℝ) * (l / n) = l := by field_simp
  have := IntervalIntegrable.trans_iterate (f := f) (μ := volume)
    (a := fun k : ℕ => (k : ℝ) * (l / n)) (n := n) (fun s _ => by
      have e : ((s + 1 : ℕ) : ℝ) * (l / n) = s * (l / n) + l / n := by push_cast; ring
      rw [e]; exact hf s)
  simpa [hend] using this

theorem mesh_curv (hh : 0 < L i / n) (s : ℕ) (g : ℝ → ℝ) (hg : Continuous g) :
    IntervalIntegrable (fun x => g ((meshShape n L d).c i x)) volume (s * (L i / n))
      (s * (L i / n) + L i / n) ∧
    ∫ x in (s * (L i / n) : ℝ)..(s * (L i / n) + L i / n), g ((meshShape n L d).c i x)
      = ∫ x in (s * (L i / n) : ℝ)..(s * (L i / n) + L i / n),
        g (cubK (L i / n) (elemVec d (i * n + s)) (x - s * (L i / n))) := by
  have hle : (s : ℝ) * (L i / n) ≤ s * (L i / n) + L i / n := by linarith
  have heq : Set.EqOn (fun x => g ((meshShape n L d).c i x))
      (fun x => g (cubK (L i / n) (elemVec d (i * n + s)) (x - s * (L i / n))))
      (Set.Ioo (s * (L i / n) : ℝ) (s * (L i / n) + L i / n)) := by
    intro x hx
    simp only [(mesh_inside (d := d) hh hx.1.le hx.2).2.2]
  refine ⟨?_, intervalIntegral.integral_congr_Ioo_of_le hle heq⟩
  have hc : IntervalIntegrable (fun x => g (cubK (L i / n) (elemVec d (i * n + s)) (x - s * (L i / n))))
      volume (s * (L i / n) : ℝ) (s * (L i / n) + L i / n) :=
    (hg.comp (cubK_cont _ _ _)).intervalIntegrable _ _
  rw [intervalIntegrable_iff_integrableOn_Ioo_of_le hle] at hc ⊢
  exact hc.congr_fun heq.symm measurableSet_Ioo

theorem mesh_dof {N : ℕ} (hn : 0 < n) (hL : ∀ i < N, 0 < L i) (hN : 0 < N) {P : ℕ}
    (hP : P < 2 * N + 2) : (meshShape n L d).dof N L P = d (meshDof n P) := by
  have hn' : (0 : ℝ) < n := by exact_mod_cast hn
  have atj : ∀ j ≤ N, jointAt N L (meshShape n L d).w j = d (2 * (j * n)) ∧
      jointAt N L (meshShape n L d).t j = d (2 * (j * n) + 1) := by
    intro j hj
    by_cases hlt : j < N
    · have := mesh_at (n := n) (d := d) (div_pos (hL j hlt) hn') 0
      simp only [Nat.cast_zero, zero_mul, Nat.add_zero] at this
      simp only [jointAt, if_pos hlt]
      exact this
    · have hjN : j = N := by omega
      subst hjN
      have h1 : 0 < L (j - 1) / n := div_pos (hL _ (by omega)) hn'
      have := mesh_at (n := n) (d := d) h1 n
      have hend : (n : ℝ) * (L (j - 1) / n) = L (j - 1) := by field_simp
      have e : (j - 1) * n + n = j * n := by
        conv_rhs => rw [show j = j - 1 + 1 by omega]
        rw [Nat.succ_mul]
      rw [hend, e] at this
      simp only [jointAt, if_neg hlt]
      exact this
  obtain ⟨a1, a2⟩ := atj (P / 2) (by omega)
  rw [BeamShape.dof, a1, a2, meshDof]
  by_cases h : P % 2 = 0
  · rw [if_pos h, h, Nat.add_zero]
  · rw [if_neg h, show P % 2 = 1 by omega]

theorem mesh_admissible {N : ℕ} (hn : 0 < n) (hL : ∀ i < N, 0 < L i) (hN : 0 < N) {r : ℕ → ℝ}
    (hd : ∀ P < 2 * N + 2, r P = -1 → d (meshDof n P) = 0) :
    (meshShape n L d).Admissible N L r := by
  have hn' : (0 : ℝ) < n := by exact_mod_cast hn
  refine ⟨fun i hi => (mesh_slopes hn (hL i hi)).1, fun i hi => (mesh_slopes hn (hL i hi)).2,
    fun i hi => ?_, fun i hi => ?_, fun i hi => ?_, fun P hP hr => ?_⟩
  · exact span_integrable hn fun s => (mesh_curv (div_pos (hL i hi) hn') s id continuous_id).1
  · exact span_integrable hn fun s =>
      (mesh_curv (div_pos (hL i hi) hn') s (fun y => y ^ 2) (by fun_prop)).1
  · have a := mesh_at (n := n) (d := d) (div_pos (hL i (by omega)) hn') n
    have c := mesh_at (n := n) (d := d) (div_pos (hL (i + 1) hi) hn') 0
    have hend : (n : ℝ) * (L i / n) = L i := by field_simp
    simp only [Nat.cast_zero, zero_mul, Nat.add_zero] at c
    rw [show (i + 1) * n = i * n + n from Nat.succ_mul i n] at c
    rw [hend] at a
    rw [a.1, a.2, c.1, c.2]
    exact ⟨rfl, rfl⟩
  · rw [mesh_dof hn hL hN hP]
    exact hd P hP hr

/-- The energies of the shape are those of the mesh. -/
theorem mesh_energies {EIs ms Ls rs : List ℝ} (hn : 0 < n) (hlen : ms.length = EIs.length)
    (hN : 0 < EIs.length) (hL : ∀ i < EIs.length, 0 < Ls.getD i 0) (d : ℕ → ℝ) :
    (meshShape n (fun i => Ls.getD i 0) d).strain EIs.length (fun i => Ls.getD i 0)
        (fun P => rs.getD P 0) (fun i => EIs.getD i 0) = meshStrain EIs Ls rs n d ∧
    (meshShape n (fun i => Ls.getD i 0) d).kinetic EIs.length (fun i => Ls.getD i 0)
        (fun i => ms.getD i 0) = meshKinetic ms Ls n d := by
  have hn' : (0 : ℝ) < n := by exact_mod_cast hn
  have hh : ∀ i < EIs.length, 0 < Ls.getD i 0 / n := fun i hi => div_pos (hL i hi) hn'
  constructor
  · unfold BeamShape.strain meshStrain
    congr 1
    · rw [sum_range_mul]
      apply Finset.sum_congr rfl
      intro i hi
      have hi := Finset.mem_range.1 hi
      have hc := fun s => mesh_curv (L := fun i => Ls.getD i 0) (d := d) (hh i hi) s (fun y => y ^ 2)
        (by fun_prop)
      rw [elem_sum hn (hL i hi) (span_integrable hn fun s => (hc s).1), Finset.mul_sum]
      apply Finset.sum_congr rfl
      intro s hs
      have hs := Finset.mem_range.1 hs
      rw [(hc s).2, (node_div hs).1, kEbeam_scale, cub_strain_integral (hh i hi).ne']
    · apply Finset.sum_congr rfl
      intro P hP
      rw [mesh_dof hn hL hN (Finset.mem_range.1 hP)]
  · unfold BeamShape.kinetic meshKinetic
    rw [hlen, sum_range_mul]
    apply Finset.sum_congr rfl
    intro i hi
    have hi := Finset.mem_range.1 hi
    have hw2 : IntervalIntegrable (fun x => (meshShape n (fun i => Ls.getD i 0) d).w i x ^ 2) volume 0
        (Ls.getD i 0) := by
      apply ContinuousOn.intervalIntegrable
      rw [Set.uIcc_of_le (hL i hi).le]
      exact (mesh_slopes (L := fun i => Ls.getD i 0) (d := d) hn (hL i hi)).1.cont.pow 2
    rw [elem_sum hn (hL i hi) hw2, Finset.mul_sum]
    apply Finset.sum_congr rfl
    intro s hs
    have hs := Finset.mem_range.1 hs
    rw [(node_div hs).1, mConsistent_scale, ← cub_kinetic_integral (hh i hi).ne' _ (s * (Ls.getD i 0 / n))]
    congr 1
    apply intervalIntegral.integral_congr
    intro x hx
    rw [Set.uIcc_of_le (by linarith [hh i hi])] at hx
    simp only [(mesh_closed (L := fun i => Ls.getD i 0) (d := d) (hh i hi) hx.1 hx.2).1]

theorem cub_sum {k : ℕ} (h : ℝ) (v : Fin k → Vec4 ℝ) (a : Fin k → ℝ) (x : ℝ) :
    cubV h (fun q => ∑ j, a j * v j q) x = ∑ j, a j * cubV h (v j) x ∧
    cubT h (fun q => ∑ j, a j * v j q) x = ∑ j, a j * cubT h (v j) x ∧
    cubK h (fun q => ∑ j, a j * v j q) x = ∑ j, a j * cubK h (v j) x := by
  have e : ∀ (f : Vec4 ℝ → ℝ), (∀ u u', f (u + u') = f u + f u') → (∀ (r : ℝ) u, f (r • u) = r * f u) →
      f (fun q => ∑ j, a j * v j q) = ∑ j, a j * f (v j) := by
    intro f h1 h2
    let F : Vec4 ℝ →ₗ[ℝ] ℝ := ⟨⟨f, h1⟩, h2⟩
    have : (fun q => ∑ j, a j * v j q) = ∑ j, a j • v j := by
      funext q
      simp
    rw [this]
    change F _ = ∑ j, a j * F (v j)
    rw [map_sum]
    simp
  refine ⟨e (fun u => cubV h u x) ?_ ?_, e (fun u => cubT h u x) ?_ ?_, e (fun u => cubK h u x) ?_ ?_⟩
  all_goals
    intros
    simp only [cubV, cubT, cubK, cubC, cubE, Pi.add_apply, Pi.smul_apply, smul_eq_mul]
    ring

/-- Combination of mesh shapes. -/
theorem mesh_comb {k : ℕ} (n : ℕ) (L : ℕ → ℝ) (d : Fin k → ℕ → ℝ) (a : Fin k → ℝ) :
    combShape (fun j => meshShape n L (d j)) a = meshShape n L fun p => ∑ j, a j * d j p := by
  have e : ∀ q, elemVec (fun p => ∑ j, a j * d j p) q = fun z => ∑ j, a j * elemVec (d j) q z := by
    intro q; rfl
  simp only [combShape, meshShape, e, (cub_sum _ _ _ _).1, (cub_sum _ _ _ _).2.1,
    (cub_sum _ _ _ _).2.2]

end mesh

end PyCBA
