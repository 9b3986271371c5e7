import Verif.Modal.Shapes
import Verif.Modal.Exists
import Mathlib.Analysis.SpecificLimits.Basic

/-!
C148: the natural frequencies of the modal analysis are never below those of the continuous
beam, exceed them by at most a term of the order of the square of the element length, and
converge to them as the mesh is refined.
-/

set_option linter.unusedSectionVars false
set_option linter.unusedSimpArgs false

namespace PyCBA

open Matrix Finset MeasureTheory

/-! ## Courant-Fischer for the matrices -/

/-- If the quotient is at most `μ` over a space of `k + 1` dimensions, so is the `k`-th
eigenvalue. -/
theorem EigBasis.upper {m : ℕ} {K M : Matrix (Fin m) (Fin m) ℝ} {lam : Fin m → ℝ}
    {v : Fin m → Fin m → ℝ} (h : EigBasis K M lam v) (hM : ∀ x, x ≠ 0 → 0 < x ⬝ᵥ (M *ᵥ x))
    {k : ℕ} (hk : k < m) (S : (Fin (k + 1) → ℝ) →ₗ[ℝ] (Fin m → ℝ)) {μ : ℝ}
    (hS : ∀ c, c ≠ 0 → 0 < S c ⬝ᵥ (M *ᵥ S c) ∧ S c ⬝ᵥ (K *ᵥ S c) ≤ μ * (S c ⬝ᵥ (M *ᵥ S c))) :
    lam ⟨k, hk⟩ ≤ μ := by
  let T : (Fin (k + 1) → ℝ) →ₗ[ℝ] (Fin k → ℝ) :=
    { toFun := fun c j => v ⟨j, by omega⟩ ⬝ᵥ (M *ᵥ S c)
      map_add' := by
        intro c d; ext j
        simp [map_add, Matrix.mulVec_add, dotProduct_add]
      map_smul' := by
        intro r c; ext j
        simp [map_smul, Matrix.mulVec_smul, dotProduct_smul] }
  have hker : LinearMap.ker T ≠ ⊥ := LinearMap.ker_ne_bot_of_finrank_lt (by simp)
  obtain ⟨c, hc, hc0⟩ := Submodule.exists_mem_ne_zero_of_ne_bot hker
  have hT : ∀ j : Fin k, v ⟨j, by omega⟩ ⬝ᵥ (M *ᵥ S c) = 0 := fun j =>
    congrFun (LinearMap.mem_ker.1 hc) j
  obtain ⟨h1, h2⟩ := hS c hc0
  have low := h.lower hM ⟨k, hk⟩ (S c) fun j hj => hT ⟨j, hj⟩
  exact le_of_mul_le_mul_right (low.trans h2) h1

/-! ## The beam behind a modal analysis -/

/-- Square of the `k`-th natural frequency of the continuous beam with the spans, supports,
rigidities and masses of the analysis. -/
noncomputable def beamOmegaSq (b : BeamDef ℝ) (EIs ms : List ℝ) (k : ℕ) : ℝ :=
  exactOmegaSq b.members.length (fun i => (b.members.map Member.L).getD i 0)
    (fun P => b.restraints.getD P 0) (fun i => EIs.getD i 0) (fun i => ms.getD i 0) k

/-- `Σ m L⁴ / EI` over the spans, a time squared. -/
noncomputable def beamTimeSq (b : BeamDef ℝ) (EIs ms : List ℝ) : ℝ :=
  ∑ i ∈ range b.members.length,
    ms.getD i 0 * (b.members.map Member.L).getD i 0 ^ 4 / EIs.getD i 0

section

variable {b : BeamDef ℝ} {nModes nseg : ℕ} {res : ModalResult ℝ} {EIs ms : List ℝ}
  {free : List ℕ} {lam : Fin free.length → ℝ} {v : Fin free.length → Fin free.length → ℝ}

theorem ModalSolved.lenPos (S : ModalSolved b nModes nseg res EIs ms free lam v)
    (hL : ∀ m ∈ b.members, 0 < m.L) :
    (∀ i < b.members.length, 0 < (b.members.map Member.L).getD i 0) ∧
    (∀ i < b.members.length, 0 < EIs.getD i 0) ∧ ∀ i < b.members.length, 0 < ms.getD i 0 := by
  refine ⟨fun i hi => getD_pos ?_ (by rw [List.length_map]; exact hi),
    fun i hi => getD_pos S.posE (by rw [S.lenE]; exact hi),
    fun i hi => getD_pos S.posM (by rw [S.lenM]; exact hi)⟩
  intro l hl
  obtain ⟨m, hm, rfl⟩ := List.mem_map.1 hl
  exact hL m hm

/-- Every eigenvalue of the mesh bounds the quotient over a space of shapes. -/
theorem ModalSolved.ratio (S : ModalSolved b nModes nseg res EIs ms free lam v)
    (hne : b.members ≠ []) (hL : ∀ m ∈ b.members, 0 < m.L) {k : ℕ} (hk : k < free.length) :
    lam ⟨k, hk⟩ ∈ ratioBounds b.members.length (fun i => (b.members.map Member.L).getD i 0)
      (fun P => b.restraints.getD P 0) (fun i => EIs.getD i 0) (fun i => ms.getD i 0) k := by
  obtain ⟨pL, pE, pM⟩ := S.lenPos hL
  have hN : 0 < b.members.length := List.length_pos_iff.2 hne
  have hnd : free.Nodup := by rw [S.free_eq]; exact List.Nodup.filter _ List.nodup_range
  let e : Fin (k + 1) → Fin free.length := fun j => ⟨j, by omega⟩
  have he : Function.Injective e := by
    intro i j hij
    simp only [e, Fin.mk.injEq] at hij
    exact Fin.ext hij
  have hsum : ∀ a : Fin (k + 1) → ℝ, ∀ p, ∑ j, a j * spread free (v (e j)) p
      = spread free (∑ j, a j • v (e j)) p := by
    intro a p
    by_cases hp : p ∈ free
    · obtain ⟨q, hq, rfl⟩ := List.mem_iff_getElem.1 hp
      have h1 := fun x : Fin free.length → ℝ => spread_mem hnd x ⟨q, hq⟩
      simp only [Fin.getElem_fin] at h1
      simp only [h1, Finset.sum_apply, Pi.smul_apply, smul_eq_mul]
    · simp only [spread_not_mem _ hp, mul_zero, Finset.sum_const_zero]
  have hvan : ∀ (x : Fin free.length → ℝ), ∀ P < 2 * b.members.length + 2,
      b.restraints.getD P 0 = -1 → spread free x (meshDof nseg P) = 0 := by
    intro x P hP hr
    apply spread_not_mem
    rw [S.free_mem]
    rintro ⟨-, hcon⟩
    exact hcon ⟨P, hP, rfl, hr⟩
  have hback : ∀ x : Fin free.length → ℝ,
      (fun a : Fin free.length => spread free x free[a]) = x :=
    fun x => funext fun a => spread_mem hnd _ a
  refine ⟨fun j => meshShape nseg (fun i => (b.members.map Member.L).getD i 0)
    (spread free (v (e j))), ?_, ?_⟩
  · intro a
    rw [mesh_comb]
    apply mesh_admissible S.nseg_pos pL hN
    intro P hP hr
    simp only [hsum]
    exact hvan _ P hP hr
  · intro a ha
    rw [mesh_comb]
    simp only [hsum]
    have hen := mesh_energies (EIs := EIs) (ms := ms) (Ls := b.members.map Member.L)
      (rs := b.restraints) S.nseg_pos (by rw [S.lenE, S.lenM]) (by rw [S.lenE]; exact hN)
      (by rw [S.lenE]; exact pL) (spread free (∑ j, a j • v (e j)))
    rw [S.lenE] at hen
    obtain ⟨m1, m2⟩ := S.strain _ (hvan (∑ j, a j • v (e j)))
    rw [hback] at m1 m2
    have h1 : (fun p => spread free (∑ j, a j • v (e j)) p) = spread free (∑ j, a j • v (e j)) := rfl
    rw [h1, hen.1, hen.2, ← m1, ← m2]
    obtain ⟨f1, f2⟩ := S.basis.forms e he a
    constructor
    · rw [f1]
      apply Finset.sum_pos'
      · intro j _
        exact mul_nonneg (sq_nonneg _) (S.mass_pos _ (S.basis.ne _)).le
      · obtain ⟨j, hj⟩ := Function.ne_iff.1 ha
        exact ⟨j, Finset.mem_univ j, mul_pos (by have : a j ≠ 0 := hj; positivity)
          (S.mass_pos _ (S.basis.ne _))⟩
    · rw [f1, f2, Finset.mul_sum]
      apply Finset.sum_le_sum
      intro i _
      exact mul_le_mul_of_nonneg_right (S.basis.mono _ _ (by
        simp only [e, Fin.mk_le_mk]; omega)) (mul_nonneg (sq_nonneg _) (S.mass_pos _ (S.basis.ne _)).le)

theorem strain_nonneg {N : ℕ} {L r EI : ℕ → ℝ} (hL : ∀ i < N, 0 < L i) (hE : ∀ i < N, 0 < EI i)
    (S : BeamShape) : 0 ≤ S.strain N L r EI := by
  apply add_nonneg
  · apply Finset.sum_nonneg
    intro i hi
    have hi := Finset.mem_range.1 hi
    exact mul_nonneg (hE i hi).le
      (intervalIntegral.integral_nonneg (hL i hi).le fun x _ => sq_nonneg _)
  · exact Finset.sum_nonneg fun P _ => mul_nonneg (le_max_right _ _) (sq_nonneg _)

theorem ratio_nonneg {N : ℕ} {L r EI m : ℕ → ℝ} (hL : ∀ i < N, 0 < L i) (hE : ∀ i < N, 0 < EI i)
    {k : ℕ} {lam : ℝ} (h : lam ∈ ratioBounds N L r EI m k) : 0 ≤ lam := by
  obtain ⟨S, -, hS⟩ := h
  obtain ⟨h1, h2⟩ := hS (fun _ => 1) (by
    intro h0
    have := congrFun h0 0
    simp at this)
  have h3 := strain_nonneg (r := r) hL hE (combShape S fun _ => 1)
  exact nonneg_of_mul_nonneg_left (h3.trans h2) h1

/-- Every bound of the quotient over a space of shapes nearly bounds the eigenvalue. -/
theorem ModalSolved.rate (S : ModalSolved b nModes nseg res EIs ms free lam v)
    (hL : ∀ m ∈ b.members, 0 < m.L) {k : ℕ} (hk : k < free.length)
    {μ : ℝ} (hμ : μ ∈ ratioBounds b.members.length (fun i => (b.members.map Member.L).getD i 0)
      (fun P => b.restraints.getD P 0) (fun i => EIs.getD i 0) (fun i => ms.getD i 0) k) :
    lam ⟨k, hk⟩ * (1 - 2 * beamTimeSq b EIs ms * μ / nseg ^ 2) ≤ μ * (1 + 1 / nseg ^ 2) := by
  obtain ⟨pL, pE, pM⟩ := S.lenPos hL
  have hn := S.nseg_pos
  have hn' : (0 : ℝ) < nseg := by exact_mod_cast hn
  have hn1 : (1 : ℝ) ≤ nseg := by exact_mod_cast hn
  have hμ0 : 0 ≤ μ := ratio_nonneg pL pE hμ
  have hC0 : 0 ≤ beamTimeSq b EIs ms := by
    apply Finset.sum_nonneg
    intro i hi
    have hi := Finset.mem_range.1 hi
    have := pL i hi; have := pE i hi; have := pM i hi
    positivity
  have hC : ∀ i < b.members.length, ms.getD i 0 * (b.members.map Member.L).getD i 0 ^ 4
      ≤ beamTimeSq b EIs ms * EIs.getD i 0 := by
    intro i hi
    rw [← div_le_iff₀ (pE i hi)]
    refine Finset.single_le_sum (f := fun i => ms.getD i 0 *
      (b.members.map Member.L).getD i 0 ^ 4 / EIs.getD i 0) ?_ (Finset.mem_range.2 hi)
    intro j hj
    have hj := Finset.mem_range.1 hj
    have := pL j hj; have := pE j hj; have := pM j hj
    positivity
  set C := beamTimeSq b EIs ms with hCd
  rcases le_or_gt (1 - 2 * C * μ / nseg ^ 2) 0 with hq | hq
  · have h1 : lam ⟨k, hk⟩ * (1 - 2 * C * μ / nseg ^ 2) ≤ 0 :=
      mul_nonpos_of_nonneg_of_nonpos (S.nonneg _) hq
    have h2 : 0 ≤ μ * (1 + 1 / (nseg : ℝ) ^ 2) := by positivity
    linarith
  rw [← le_div_iff₀ hq]
  obtain ⟨F, hadm, hF⟩ := hμ
  -- the shapes sampled at the mesh
  let E : (Fin (k + 1) → ℝ) →ₗ[ℝ] (Fin free.length → ℝ) :=
    { toFun := fun a q => sampleVec b.members.length nseg
        (fun i => (b.members.map Member.L).getD i 0) (combShape F a) free[q]
      map_add' := by
        intro x y
        funext q
        simp only [sample_lin, Pi.add_apply, add_mul, Finset.sum_add_distrib]
      map_smul' := by
        intro r x
        funext q
        simp only [sample_lin, Pi.smul_apply, smul_eq_mul, RingHom.id_apply, Finset.mul_sum, mul_assoc] }
  apply S.basis.upper S.mass_pos hk E
  intro a ha
  obtain ⟨f1, f2⟩ := hF a ha
  have hA := hadm a
  have hd : ∀ P < 2 * b.members.length + 2, b.restraints.getD P 0 = -1 →
      sampleVec b.members.length nseg (fun i => (b.members.map Member.L).getD i 0)
        (combShape F a) (meshDof nseg P) = 0 := by
    intro P hP hr
    rw [sample_dof hn]
    exact hA.held P hP hr
  obtain ⟨s1, s2⟩ := S.strain _ hd
  have hEa : E a = fun q : Fin free.length => sampleVec b.members.length nseg
        (fun i => (b.members.map Member.L).getD i 0) (combShape F a) free[q] := rfl
  rw [hEa, s1, s2]
  have lE := S.lenE
  have k1 := sample_strain (EIs := EIs) (Ls := b.members.map Member.L) (rs := b.restraints)
    (S := combShape F a) hn (by rw [lE]; exact pL) (by rw [lE]; exact pE) (by rw [lE]; exact hA)
  have k2 := sample_kinetic (EIs := EIs) (ms := ms) (Ls := b.members.map Member.L)
    (rs := b.restraints) (S := combShape F a) (δ := 1 / nseg ^ 2) (C := C) hn
    (by rw [lE, S.lenM]) (by rw [lE]; exact pL) (by rw [lE]; exact pM) (by rw [lE]; exact hA)
    (by positivity) hC0 (by rw [lE]; exact hC)
  rw [lE] at k1 k2
  generalize meshStrain EIs (b.members.map Member.L) b.restraints nseg (sampleVec b.members.length nseg
        (fun i => (b.members.map Member.L).getD i 0) (combShape F a)) = A at k1 ⊢
  generalize meshKinetic ms (b.members.map Member.L) nseg (sampleVec b.members.length nseg
        (fun i => (b.members.map Member.L).getD i 0) (combShape F a)) = B at k2 ⊢
  generalize (combShape F a).strain _ _ _ _ = U at k1 k2 f2 ⊢
  generalize (combShape F a).kinetic _ _ _ = T at k2 f1 f2 ⊢
  -- T ≤ (1 + δ) B + 2 C μ / n² T
  have hq4 : (1 + 1 / (1 / (nseg : ℝ) ^ 2)) * (C / nseg ^ 4 * U) ≤ 2 * C * μ / nseg ^ 2 * T := by
    have e1 : (1 + 1 / (1 / (nseg : ℝ) ^ 2)) ≤ 2 * nseg ^ 2 := by
      rw [one_div_one_div]
      nlinarith
    have e2 : C / nseg ^ 4 * U ≤ C / nseg ^ 4 * (μ * T) :=
      mul_le_mul_of_nonneg_left f2 (by positivity)
    have e3 : 0 ≤ C / nseg ^ 4 * (μ * T) := by positivity
    calc (1 + 1 / (1 / (nseg : ℝ) ^ 2)) * (C / nseg ^ 4 * U)
        ≤ (1 + 1 / (1 / (nseg : ℝ) ^ 2)) * (C / nseg ^ 4 * (μ * T)) :=
          mul_le_mul_of_nonneg_left e2 (by positivity)
      _ ≤ 2 * nseg ^ 2 * (C / nseg ^ 4 * (μ * T)) := mul_le_mul_of_nonneg_right e1 e3
      _ = 2 * C * μ / nseg ^ 2 * T := by field_simp
  have hB : (1 - 2 * C * μ / nseg ^ 2) * T ≤ (1 + 1 / nseg ^ 2) * B := by linarith
  have hδ : (0 : ℝ) < 1 + 1 / nseg ^ 2 := by positivity
  have hBpos : 0 < B := by
    have h1 : 0 < (1 - 2 * C * μ / nseg ^ 2) * T := mul_pos hq f1
    by_contra hneg
    push Not at hneg
    have := mul_nonpos_of_nonneg_of_nonpos hδ.le hneg
    linarith
  refine ⟨hBpos, ?_⟩
  have h1 : T ≤ (1 + 1 / nseg ^ 2) * B / (1 - 2 * C * μ / nseg ^ 2) := by
    rw [le_div_iff₀ hq]; linarith
  calc A ≤ μ * T := k1.trans f2
    _ ≤ μ * ((1 + 1 / nseg ^ 2) * B / (1 - 2 * C * μ / nseg ^ 2)) := mul_le_mul_of_nonneg_left h1 hμ0
    _ = _ := by ring

end

/-- **C148**: every natural frequency of the modal analysis is at least that of the continuous
beam, and exceeds it by at most a term of the order of the square of the element length. -/
theorem C148_bounds (b : BeamDef ℝ) (mass : MassArg ℝ) (nModes n : ℕ) (eigh : Eigh ℝ)
    (hS : eigh.Sound) (res : ModalResult ℝ) (h : solveModal b mass nModes n eigh = .ok res)
    (hne : b.members ≠ []) (hL : ∀ m ∈ b.members, 0 < m.L)
    (hE : ∀ m ∈ b.members, ∀ e, m.EI = .const e → 0 < e)
    (hm : ∀ ms, broadcastMass mass b.members.length = .ok ms → ∀ m ∈ ms, 0 < m)
    (EIs ms : List ℝ) (hEIs : mapE modalEI b.members = .ok EIs)
    (hms : broadcastMass mass b.members.length = .ok ms) (k : ℕ) (hk : k < res.modes.length) :
    0 ≤ beamOmegaSq b EIs ms k ∧ beamOmegaSq b EIs ms k ≤ res.modes[k].omega ^ 2 ∧
      res.modes[k].omega ^ 2 * (1 - 2 * beamTimeSq b EIs ms * beamOmegaSq b EIs ms k / n ^ 2)
        ≤ beamOmegaSq b EIs ms k * (1 + 1 / n ^ 2) := by
  obtain ⟨EIs', ms', free, lam, v, q1, q2, S⟩ := solveModal_solved hS h hne hL hE hm
  obtain rfl : EIs' = EIs := by rw [hEIs] at q1; exact (Except.ok.inj q1).symm
  obtain rfl : ms' = ms := by rw [hms] at q2; exact (Except.ok.inj q2).symm
  obtain ⟨pL, pE, pM⟩ := S.lenPos hL
  have hkf : k < free.length := by have := S.len; omega
  have hsq : res.modes[k].omega ^ 2 = lam ⟨k, hkf⟩ := by
    rw [S.mode k hk hkf]
    simp only
    rw [Real.sq_sqrt (le_max_right _ _), max_eq_left (S.nonneg _)]
  rw [hsq]
  have hmem := S.ratio hne hL hkf
  have hbdd : BddBelow (ratioBounds b.members.length (fun i => (b.members.map Member.L).getD i 0)
      (fun P => b.restraints.getD P 0) (fun i => EIs'.getD i 0) (fun i => ms'.getD i 0) k) :=
    ⟨0, fun μ hμ => ratio_nonneg pL pE hμ⟩
  refine ⟨le_csInf ⟨_, hmem⟩ fun μ hμ => ratio_nonneg pL pE hμ, csInf_le hbdd hmem, ?_⟩
  have hn' : (0 : ℝ) < n := by exact_mod_cast S.nseg_pos
  have hC0 : 0 ≤ beamTimeSq b EIs' ms' := by
    apply Finset.sum_nonneg
    intro i hi
    have hi := Finset.mem_range.1 hi
    have := pL i hi; have := pE i hi; have := pM i hi
    positivity
  have hl := S.nonneg ⟨k, hkf⟩
  have hrate := fun μ hμ => S.rate hL hkf (μ := μ) hμ
  set C := beamTimeSq b EIs' ms' with hCd
  set x := lam ⟨k, hkf⟩ with hx
  have hD : 0 < 1 + 1 / (n : ℝ) ^ 2 + 2 * C * x / n ^ 2 := by positivity
  have hle : x / (1 + 1 / (n : ℝ) ^ 2 + 2 * C * x / n ^ 2) ≤ beamOmegaSq b EIs' ms' k := by
    apply le_csInf ⟨_, hmem⟩
    intro μ hμ
    rw [div_le_iff₀ hD]
    have := hrate μ hμ
    have e : x * (1 - 2 * C * μ / n ^ 2) = x - μ * (2 * C * x / n ^ 2) := by ring
    rw [e] at this
    linarith
  rw [div_le_iff₀ hD] at hle
  have e : x * (1 - 2 * C * beamOmegaSq b EIs' ms' k / n ^ 2)
      = x - beamOmegaSq b EIs' ms' k * (2 * C * x / n ^ 2) := by ring
  rw [e]
  linarith

/-- A finer mesh has enough degrees of freedom for every mode asked for. -/
theorem modes_enough {b : BeamDef ℝ} {nModes n : ℕ} {res : ModalResult ℝ} {EIs ms : List ℝ}
    {free : List ℕ} {lam : Fin free.length → ℝ} {v : Fin free.length → Fin free.length → ℝ}
    (S : ModalSolved b nModes n res EIs ms free lam v) (hne : b.members ≠ []) :
    min nModes (2 * n - 2) ≤ res.modes.length := by
  have hN : 0 < b.members.length := List.length_pos_iff.2 hne
  have hn := S.nseg_pos
  rw [S.len]
  apply min_le_min le_rfl
  have hsub : List.range' 2 (2 * n - 2) ⊆ free := by
    intro p hp
    rw [List.mem_range'_1] at hp
    rw [S.free_mem]
    have h1 : n ≤ b.members.length * n := Nat.le_mul_of_pos_left n hN
    refine ⟨by omega, ?_⟩
    rintro ⟨P, hP, rfl, -⟩
    obtain ⟨a1, a2⟩ := meshDof_parts n P
    have h2 : meshDof n P / 2 < n := by omega
    have h3 : 0 < meshDof n P / 2 := by omega
    rw [a1] at h2 h3
    rcases Nat.eq_zero_or_pos (P / 2) with h0 | h0
    · rw [h0] at h3; simp at h3
    · have := Nat.le_mul_of_pos_left n h0
      omega
  have := (List.subperm_of_subset List.nodup_range' hsub).length_le
  simpa using this

/-- **C148**, convergence: as the mesh is refined, every natural frequency tends to that of the
continuous beam. -/
theorem C148_converges (b : BeamDef ℝ) (mass : MassArg ℝ) (nModes : ℕ) (eigh : ℕ → Eigh ℝ)
    (hS : ∀ n, (eigh n).Sound) (res : ℕ → ModalResult ℝ)
    (h : ∀ n, 0 < n → solveModal b mass nModes n (eigh n) = .ok (res n))
    (hne : b.members ≠ []) (hL : ∀ m ∈ b.members, 0 < m.L)
    (hE : ∀ m ∈ b.members, ∀ e, m.EI = .const e → 0 < e)
    (hm : ∀ ms, broadcastMass mass b.members.length = .ok ms → ∀ m ∈ ms, 0 < m)
    (EIs ms : List ℝ) (hEIs : mapE modalEI b.members = .ok EIs)
    (hms : broadcastMass mass b.members.length = .ok ms) (k : ℕ) (hk : k < nModes) :
    (∀ᶠ n in Filter.atTop, k < (res n).modes.length) ∧
    Filter.Tendsto (fun n => ((res n).modes.map Mode.omega).getD k 0) Filter.atTop
      (nhds (Real.sqrt (beamOmegaSq b EIs ms k))) := by
  have hlen : ∀ n, k + 2 ≤ n → k < (res n).modes.length := by
    intro n hn
    obtain ⟨EIs', ms', free, lam, v, -, -, S⟩ := solveModal_solved (hS n) (h n (by omega)) hne hL hE hm
    have := modes_enough S hne
    have h2 : k < min nModes (2 * n - 2) := lt_min hk (by omega)
    omega
  refine ⟨Filter.eventually_atTop.2 ⟨k + 2, hlen⟩, ?_⟩
  have hom : ∀ n (hn : k + 2 ≤ n), ((res n).modes.map Mode.omega).getD k 0
      = ((res n).modes[k]'(hlen n hn)).omega := by
    intro n hn
    rw [List.getD_eq_getElem?_getD, List.getElem?_map, List.getElem?_eq_getElem (hlen n hn)]
    rfl
  set Λ := beamOmegaSq b EIs ms k with hΛ
  set C := beamTimeSq b EIs ms with hC
  have hsq : Filter.Tendsto (fun n => (((res n).modes.map Mode.omega).getD k 0) ^ 2) Filter.atTop
      (nhds Λ) := by
    have hinv : Filter.Tendsto (fun n : ℕ => 1 / (n : ℝ) ^ 2) Filter.atTop (nhds 0) := by
      have := (tendsto_one_div_atTop_nhds_zero_nat (𝕜 := ℝ)).pow 2
      simpa using this
    have hup : Filter.Tendsto (fun n : ℕ => Λ * (1 + 1 / (n : ℝ) ^ 2)
        / (1 - 2 * C * Λ * (1 / (n : ℝ) ^ 2))) Filter.atTop (nhds Λ) := by
      have h1 := ((hinv.const_add 1).const_mul Λ).div
        ((hinv.const_mul (2 * C * Λ)).const_sub 1) (by simp)
      simp only [add_zero, mul_one, mul_zero, sub_zero, div_one] at h1
      exact h1
    have hpos : ∀ᶠ n : ℕ in Filter.atTop, 0 < 1 - 2 * C * Λ * (1 / (n : ℝ) ^ 2) := by
      have h1 : Filter.Tendsto (fun n : ℕ => 1 - 2 * C * Λ * (1 / (n : ℝ) ^ 2)) Filter.atTop (nhds 1) := by
        have := (hinv.const_mul (2 * C * Λ)).const_sub 1
        simpa using this
      exact h1.eventually (lt_mem_nhds one_pos)
    refine tendsto_of_tendsto_of_tendsto_of_le_of_le' tendsto_const_nhds hup ?_ ?_
    · filter_upwards [Filter.eventually_ge_atTop (k + 2)] with n hn
      rw [hom n hn]
      exact (C148_bounds b mass nModes n (eigh n) (hS n) (res n) (h n (by omega)) hne hL hE hm EIs ms
        hEIs hms k (hlen n hn)).2.1
    · filter_upwards [Filter.eventually_ge_atTop (k + 2), hpos] with n hn hp
      rw [hom n hn, le_div_iff₀ hp]
      have := (C148_bounds b mass nModes n (eigh n) (hS n) (res n) (h n (by omega)) hne hL hE hm EIs ms
        hEIs hms k (hlen n hn)).2.2
      rw [← hΛ, ← hC] at this
      have e : 2 * C * Λ * (1 / (n : ℝ) ^ 2) = 2 * C * Λ / n ^ 2 := by ring
      rw [e]
      exact this
  have hrt := (Real.continuous_sqrt.tendsto Λ).comp hsq
  refine hrt.congr' ?_
  filter_upwards [Filter.eventually_ge_atTop (k + 2)] with n hn
  simp only [Function.comp]
  rw [hom n hn]
  apply Real.sqrt_sq
  obtain ⟨EIs', ms', free, lam, v, -, -, S⟩ := solveModal_solved (hS n) (h n (by omega)) hne hL hE hm
  have hkf : k < free.length := by have := S.len; have := hlen n hn; omega
  rw [S.mode k (hlen n hn) hkf]
  exact Real.sqrt_nonneg _

end PyCBA
