import Verif.Analysis.Stability
import Verif.Exact.Report

set_option linter.unusedSectionVars false
set_option linter.unusedSimpArgs false

/-!
C145: the analysis is well posed.  For a given stable beam there is one constant, which does not
depend on the loads or on the settlements, by which a change of the fixed-end forces and of the
prescribed displacements can at most be magnified in displacements, end forces and reactions.
-/

namespace PyCBA

open Matrix Finset

/-- The same members, supports and kinds of prescribed displacement under other fixed-end forces
and other prescribed values. -/
def System.under (s : System ℝ) (R : ℕ → Vec4 ℝ) (P : ℕ → Option ℝ) : System ℝ :=
  { s with ref := R, presc := P }

theorem System.under_constr (s : System ℝ) (R : ℕ → Vec4 ℝ) (P : ℕ → Option ℝ)
    (hP : ∀ p < s.N, (P p).isSome = (s.presc p).isSome) (p : ℕ) (hp : p < s.N) :
    ((s.under R P).constr p).isSome = (s.constr p).isSome := by
  have := hP p hp
  unfold System.constr System.under
  dsimp only
  cases h1 : P p <;> cases h2 : s.presc p <;> simp [h1, h2] at this ⊢

theorem System.Nonsingular.under {s : System ℝ} (h : s.Nonsingular) (R : ℕ → Vec4 ℝ)
    (P : ℕ → Option ℝ) (hP : ∀ p < s.N, (P p).isSome = (s.presc p).isSome) :
    (s.under R P).Nonsingular := by
  intro x h1 h2 p hp
  have hc := s.under_constr R P hP
  refine h x (fun p hp hs => h1 p hp (by rw [hc p hp]; exact hs)) (fun p hp hs => ?_) p hp
  refine h2 p hp ?_
  have := hc p hp
  rw [hs] at this
  simpa using this

theorem mulN_sum {ι : Type*} (N : ℕ) (k : ℕ → ℕ → ℝ) (t : Finset ι) (c : ι → ℝ) (g : ι → ℕ → ℝ)
    (p : ℕ) : mulN N k (fun q => ∑ i ∈ t, c i * g i q) p = ∑ i ∈ t, c i * mulN N k (g i) p := by
  simp only [mulN, Finset.mul_sum]
  rw [Finset.sum_comm]
  exact Finset.sum_congr rfl fun i _ => Finset.sum_congr rfl fun q _ => by ring

theorem blockVec_basis (a : ℕ) (v : Vec4 ℝ) (p : ℕ) :
    blockVec a v p = ∑ q : Fin 4, v q * blockVec a (Pi.single q 1) p := by
  unfold blockVec
  split_ifs with h
  · simp [Pi.single_apply]
  · simp

theorem blockVec_sub (a : ℕ) (v w : Vec4 ℝ) (p : ℕ) :
    blockVec a (v - w) p = blockVec a v p - blockVec a w p := by
  unfold blockVec
  split_ifs <;> simp

/-- The displacements depend on the fixed-end forces and settlements through finitely many unit
solutions. -/
theorem System.wellPosed (s : System ℝ) (hns : s.Nonsingular) :
    ∃ C : ℝ, 0 < C ∧ ∀ (R R' : ℕ → Vec4 ℝ) (P P' : ℕ → Option ℝ),
      (∀ p < s.N, (P p).isSome = (s.presc p).isSome) →
      (∀ p < s.N, (P' p).isSome = (s.presc p).isSome) → ∀ d d' : ℕ → ℝ,
      (s.under R P).IsSolution d → (s.under R' P').IsSolution d' → ∀ ε : ℝ, 0 ≤ ε →
      (∀ i < s.n, ∀ q, |R i q - R' i q| ≤ ε) →
      (∀ p < s.N, ∀ v v', P p = some v → P' p = some v' → |v - v'| ≤ ε) →
      (∀ p < s.N, |d p - d' p| ≤ C * ε) ∧
      ∀ i < s.n, ∀ q, |(s.under R P).endForces d i q - (s.under R' P').endForces d' i q| ≤ C * ε := by
  -- unit solutions
  have hg : ∀ (j : ℕ × Fin 4), ∃ g : ℕ → ℝ, (s.under
      (fun i => if i = j.1 then Pi.single j.2 1 else 0)
      (fun p => (s.presc p).map fun _ => 0)).IsSolution g := fun j =>
    System.exists_solution (hns.under _ _ fun p _ => by simp)
  have hh : ∀ (p0 : ℕ), ∃ g : ℕ → ℝ, (s.under (fun _ => 0)
      (fun p => (s.presc p).map fun _ => if p = p0 then 1 else 0)).IsSolution g := fun p0 =>
    System.exists_solution (hns.under _ _ fun p _ => by simp)
  choose g hg using hg
  choose h hh using hh
  let T := Finset.range s.n ×ˢ (Finset.univ : Finset (Fin 4))
  set C0 : ℝ := ∑ p ∈ range s.N, (∑ j ∈ T, |g j p| + ∑ p0 ∈ range s.N, |h p0 p|) with hC0
  have hC0' : 0 ≤ C0 := Finset.sum_nonneg fun p _ => add_nonneg
    (Finset.sum_nonneg fun _ _ => abs_nonneg _) (Finset.sum_nonneg fun _ _ => abs_nonneg _)
  set C1 : ℝ := ∑ i ∈ range s.n, ∑ a : Fin 4, ∑ b : Fin 4, |s.kb i a b| with hC1
  have hC1' : 0 ≤ C1 := Finset.sum_nonneg fun _ _ => Finset.sum_nonneg fun _ _ =>
    Finset.sum_nonneg fun _ _ => abs_nonneg _
  refine ⟨C0 + C1 * C0 + 1, by positivity, ?_⟩
  intro R R' P P' hP hP' d d' hd hd' ε hε hR hPε
  have key : ∀ p < s.N, d p - d' p = ∑ j ∈ T, (R j.1 j.2 - R' j.1 j.2) * g j p
      + ∑ p0 ∈ range s.N, ((P p0).getD 0 - (P' p0).getD 0) * h p0 p := by
    set G : ℕ → ℝ := fun q => ∑ j ∈ T, (R j.1 j.2 - R' j.1 j.2) * g j q with hG
    set H : ℕ → ℝ := fun q => ∑ p0 ∈ range s.N, ((P p0).getD 0 - (P' p0).getD 0) * h p0 q with hH
    have hA : ∀ R P, (s.under R P).assemble = s.assemble := fun _ _ => rfl
    have hNN : ∀ R P, (s.under R P).N = s.N := fun _ _ => rfl
    have hzero := hns (fun q => 1 * (fun q => 1 * d q + (-1) * d' q) q
        + (-1) * (fun q => 1 * G q + 1 * H q) q) (fun p hp hc => ?_) (fun p hp hc => ?_)
    · intro p hp
      have := hzero p hp
      simp only [hG, hH] at this ⊢
      linarith
    · -- restrained degrees of freedom
      rcases hq : s.presc p with _ | w
      · have hr : s.r p < 0 := by
          by_contra hr
          simp [System.constr, hq, hr] at hc
        have hPn : P p = none := by have := hP p hp; rw [hq] at this; simpa using this
        have hPn' : P' p = none := by have := hP' p hp; rw [hq] at this; simpa using this
        have z1 := hd.1 p hp 0 (by simp [System.constr, System.under, hPn, hr])
        have z2 := hd'.1 p hp 0 (by simp [System.constr, System.under, hPn', hr])
        have z3 : G p = 0 := Finset.sum_eq_zero fun j _ => by
          rw [(hg j).1 p hp 0 (by simp [System.constr, System.under, hq, hr]), mul_zero]
        have z4 : H p = 0 := Finset.sum_eq_zero fun j _ => by
          rw [(hh j).1 p hp 0 (by simp [System.constr, System.under, hq, hr]), mul_zero]
        simp only [z1, z2, z3, z4]
        ring
      · obtain ⟨v, hv⟩ := Option.isSome_iff_exists.1 (by have := hP p hp; rw [hq] at this; simpa using this : (P p).isSome = true)
        obtain ⟨v', hv'⟩ := Option.isSome_iff_exists.1 (by have := hP' p hp; rw [hq] at this; simpa using this : (P' p).isSome = true)
        have z1 := hd.1 p hp v (by simp [System.constr, System.under, hv])
        have z2 := hd'.1 p hp v' (by simp [System.constr, System.under, hv'])
        have z3 : G p = 0 := Finset.sum_eq_zero fun j _ => by
          rw [(hg j).1 p hp 0 (by simp [System.constr, System.under, hq]), mul_zero]
        have z4 : H p = v - v' := by
          simp only [hH]
          rw [Finset.sum_eq_single p]
          · rw [(hh p).1 p hp 1 (by simp [System.constr, System.under, hq]), hv, hv']
            simp
          · intro p0 _ hne
            rw [(hh p0).1 p hp 0 (by simp [System.constr, System.under, hq, hne.symm]), mul_zero]
          · intro hn; exact absurd (Finset.mem_range.2 hp) hn
        simp only [z1, z2, z3, z4]
        ring
    · -- free degrees of freedom
      have hfree : ∀ R P, (∀ p < s.N, (P p).isSome = (s.presc p).isSome) →
          (s.under R P).constr p = none := fun R P hP => by
        have := s.under_constr R P hP p hp
        rw [hc] at this
        simpa using this
      rw [mulN_lin, mulN_lin, mulN_lin]
      have r1 := hd.2 p hp (hfree _ _ hP)
      have r2 := hd'.2 p hp (hfree _ _ hP')
      have r3 : ∀ j, mulN s.N s.assemble (g j) p = (s.under
          (fun i => if i = j.1 then Pi.single j.2 1 else 0)
          (fun p => (s.presc p).map fun _ => 0)).forces p := fun j => by
        have := (hg j).2 p hp (hfree _ _ fun p _ => by simp)
        simp only [System.residual, hA, hNN] at this
        linarith
      have r4 : ∀ j, mulN s.N s.assemble (h j) p = 0 := fun j => by
        have := (hh j).2 p hp (hfree _ _ fun p _ => by simp)
        simp only [System.residual, hA, hNN, System.forces_eq] at this
        have z : ∑ i ∈ range s.n, blockVec (2 * i) (0 : Vec4 ℝ) p = 0 :=
          Finset.sum_eq_zero fun i _ => by simp [blockVec]
        have e : ∑ i ∈ range (s.under (fun _ => 0) fun p => (s.presc p).map fun _ =>
            if p = j then (1 : ℝ) else 0).n, blockVec (2 * i) ((s.under (fun _ => 0) fun p =>
              (s.presc p).map fun _ => if p = j then (1 : ℝ) else 0).ref i) p = 0 := z
        rw [e] at this
        linarith
      simp only [System.residual, hA, hNN, System.forces_eq] at r1 r2
      have e1 : mulN s.N s.assemble G p
          = -∑ i ∈ range s.n, (blockVec (2 * i) (R i) p - blockVec (2 * i) (R' i) p) := by
        simp only [hG]
        rw [mulN_sum]
        simp only [r3, System.forces_eq]
        rw [Finset.sum_product, ← Finset.sum_neg_distrib]
        refine Finset.sum_congr rfl fun i hi => ?_
        rw [← blockVec_sub, blockVec_basis, ← Finset.sum_neg_distrib]
        refine Finset.sum_congr rfl fun q _ => ?_
        have e : ∑ i' ∈ range (s.under (fun i' => if i' = i then Pi.single q 1 else 0)
            (fun p => (s.presc p).map fun _ => (0 : ℝ))).n,
            blockVec (2 * i') ((s.under (fun i' => if i' = i then Pi.single q 1 else 0)
              (fun p => (s.presc p).map fun _ => (0 : ℝ))).ref i') p
            = blockVec (2 * i) (Pi.single q 1) p := by
          show ∑ i' ∈ range s.n, blockVec (2 * i')
            (if i' = i then (Pi.single q 1 : Vec4 ℝ) else 0) p = _
          rw [Finset.sum_eq_single i]
          · rw [if_pos rfl]
          · intro i' _ hne
            rw [if_neg hne]
            simp [blockVec]
          · intro hn; exact absurd hi hn
        rw [e]
        simp only [Pi.sub_apply]
        ring
      have e2 : mulN s.N s.assemble H p = 0 := by
        simp only [hH]
        rw [mulN_sum]
        exact Finset.sum_eq_zero fun j _ => by rw [r4, mul_zero]
      rw [e1, e2, Finset.sum_sub_distrib]
      have r1' : mulN s.N s.assemble d p = -∑ i ∈ range s.n, blockVec (2 * i) (R i) p := by
        have : mulN s.N s.assemble d p - -∑ i ∈ range s.n, blockVec (2 * i) (R i) p = 0 := r1
        linarith
      have r2' : mulN s.N s.assemble d' p = -∑ i ∈ range s.n, blockVec (2 * i) (R' i) p := by
        have : mulN s.N s.assemble d' p - -∑ i ∈ range s.n, blockVec (2 * i) (R' i) p = 0 := r2
        linarith
      rw [r1', r2']
      ring
  have hdisp : ∀ p < s.N, |d p - d' p| ≤ C0 * ε := by
    intro p hp
    rw [key p hp]
    have a1 : |∑ j ∈ T, (R j.1 j.2 - R' j.1 j.2) * g j p| ≤ (∑ j ∈ T, |g j p|) * ε := by
      rw [Finset.sum_mul]
      refine (Finset.abs_sum_le_sum_abs _ _).trans (Finset.sum_le_sum fun j hj => ?_)
      rw [abs_mul, mul_comm]
      exact mul_le_mul_of_nonneg_left (hR j.1 (Finset.mem_range.1 (Finset.mem_product.1 hj).1) j.2)
        (abs_nonneg _)
    have a2 : |∑ p0 ∈ range s.N, ((P p0).getD 0 - (P' p0).getD 0) * h p0 p|
        ≤ (∑ p0 ∈ range s.N, |h p0 p|) * ε := by
      rw [Finset.sum_mul]
      refine (Finset.abs_sum_le_sum_abs _ _).trans (Finset.sum_le_sum fun p0 hp0 => ?_)
      rw [abs_mul, mul_comm]
      refine mul_le_mul_of_nonneg_left ?_ (abs_nonneg _)
      have i1 := hP p0 (Finset.mem_range.1 hp0)
      have i2 := hP' p0 (Finset.mem_range.1 hp0)
      rcases e1 : P p0 with _ | v <;> rcases e2 : P' p0 with _ | v'
      · simpa using hε
      · rw [e1] at i1; rw [e2, ← i1] at i2; simp at i2
      · rw [e1] at i1; rw [e2, ← i1] at i2; simp at i2
      · simpa using hPε p0 (Finset.mem_range.1 hp0) v v' e1 e2
    have a3 : ∑ j ∈ T, |g j p| + ∑ p0 ∈ range s.N, |h p0 p| ≤ C0 :=
      Finset.single_le_sum (f := fun p => ∑ j ∈ T, |g j p| + ∑ p0 ∈ range s.N, |h p0 p|)
        (fun p _ => add_nonneg (Finset.sum_nonneg fun _ _ => abs_nonneg _)
          (Finset.sum_nonneg fun _ _ => abs_nonneg _)) (Finset.mem_range.2 hp)
    refine (abs_add_le _ _).trans ((add_le_add a1 a2).trans ?_)
    rw [← add_mul]
    exact mul_le_mul_of_nonneg_right a3 hε
  refine ⟨fun p hp => (hdisp p hp).trans (mul_le_mul_of_nonneg_right (by nlinarith) hε), ?_⟩
  intro i hi q
  have e : (s.under R P).endForces d i q - (s.under R' P').endForces d' i q
      = ∑ b : Fin 4, s.kb i q b * (d (2 * i + b) - d' (2 * i + b)) + (R i q - R' i q) := by
    simp only [System.endForces, System.under, Pi.add_apply, Matrix.mulVec, dotProduct, elemVec,
      mul_sub, Finset.sum_sub_distrib]
    ring
  rw [e]
  have b1 : |∑ b : Fin 4, s.kb i q b * (d (2 * i + b) - d' (2 * i + b))|
      ≤ (∑ b : Fin 4, |s.kb i q b|) * (C0 * ε) := by
    rw [Finset.sum_mul]
    refine (Finset.abs_sum_le_sum_abs _ _).trans (Finset.sum_le_sum fun b _ => ?_)
    rw [abs_mul]
    have hb := b.isLt
    exact mul_le_mul_of_nonneg_left (hdisp _ (by simp only [System.N]; omega)) (abs_nonneg _)
  have b2 : ∑ b : Fin 4, |s.kb i q b| ≤ C1 := by
    have i1 : ∑ b : Fin 4, |s.kb i q b| ≤ ∑ a : Fin 4, ∑ b : Fin 4, |s.kb i a b| :=
      Finset.single_le_sum (f := fun a => ∑ b : Fin 4, |s.kb i a b|)
        (fun a _ => Finset.sum_nonneg fun _ _ => abs_nonneg _) (Finset.mem_univ q)
    exact i1.trans (Finset.single_le_sum (f := fun i => ∑ a : Fin 4, ∑ b : Fin 4, |s.kb i a b|)
      (fun i _ => Finset.sum_nonneg fun _ _ => Finset.sum_nonneg fun _ _ => abs_nonneg _)
      (Finset.mem_range.2 hi))
  have b3 : (∑ b : Fin 4, |s.kb i q b|) * (C0 * ε) ≤ C1 * (C0 * ε) :=
    mul_le_mul_of_nonneg_right b2 (by positivity)
  have b4 := abs_add_le (∑ b : Fin 4, s.kb i q b * (d (2 * i + b) - d' (2 * i + b))) (R i q - R' i q)
  have b5 := hR i hi q
  nlinarith

/-! ### The beam -/

/-- Two beams with the same members and supports have the same system but for the fixed-end
forces and the prescribed values. -/
theorem BeamDef.system_under {b b' : BeamDef ℝ} (hm : b'.members = b.members)
    (hr : b'.restraints = b.restraints) {s s' : System ℝ} (h : b.system = .ok s)
    (h' : b'.system = .ok s') : s' = s.under s'.ref s'.presc := by
  unfold BeamDef.system at h h'
  split at h
  · cases h
  split at h
  · cases h
  split at h
  · cases h
  rename_i ks hks
  split_ifs at h
  cases h
  split at h'
  · cases h'
  split at h'
  · cases h'
  split at h'
  · cases h'
  rename_i ks' hks'
  split_ifs at h'
  cases h'
  rw [hm, hks] at hks'
  cases hks'
  simp only [System.under, hm, hr]

/-- **C145**: for every beam that is not a mechanism there is one constant `C` such that, whatever
the loads and the prescribed values, two completed analyses whose fixed-end forces and prescribed
displacements differ by at most `ε` report displacements, member end forces and reactions that
differ by at most `C ε`. -/
theorem C145_well_posed (b₀ : BeamDef ℝ) (s₀ : System ℝ) (h₀ : b₀.system = .ok s₀)
    (hns : s₀.Nonsingular) :
    ∃ C : ℝ, 0 < C ∧ ∀ (LM LM' : List (Row ℝ)) (P P' : List (Option ℝ)),
      P.map Option.isSome = b₀.presc.map Option.isSome →
      P'.map Option.isSome = b₀.presc.map Option.isSome →
      ∀ (ls ls' : List (SpanLoad ℝ)) (stable : System ℝ → Bool) (solve solve' : Solver ℝ),
      solve.Sound → solve'.Sound → ∀ res res' : Result ℝ,
      BeamDef.setLoads ⟨b₀.members, b₀.restraints, P, LM⟩ = .ok ls →
      BeamDef.setLoads ⟨b₀.members, b₀.restraints, P', LM'⟩ = .ok ls' →
      BeamDef.analyze ⟨b₀.members, b₀.restraints, P, LM⟩ stable solve = .ok res →
      BeamDef.analyze ⟨b₀.members, b₀.restraints, P', LM'⟩ stable solve' = .ok res' →
      ∀ ε : ℝ, 0 ≤ ε →
      (∀ i (hi : i < b₀.members.length) c c', b₀.members[i].refSum i ls = .ok c →
        b₀.members[i].refSum i ls' = .ok c' → |c.Va - c'.Va| ≤ ε ∧ |c.Ma - c'.Ma| ≤ ε ∧
          |c.Vb - c'.Vb| ≤ ε ∧ |c.Mb - c'.Mb| ≤ ε) →
      (∀ p v v', P.getD p none = some v → P'.getD p none = some v' → |v - v'| ≤ ε) →
      (∀ p < 2 * b₀.members.length + 2, |res.d p - res'.d p| ≤ C * ε) ∧
      (∀ i < b₀.members.length, ∀ q, |res.fmbr i q - res'.fmbr i q| ≤ C * ε) ∧
      ∀ p < 2 * b₀.members.length + 2, ∀ r r',
        (p, r) ∈ BeamDef.reported ⟨b₀.members, b₀.restraints, P, LM⟩ res →
        (p, r') ∈ BeamDef.reported ⟨b₀.members, b₀.restraints, P', LM'⟩ res' →
        |r - r'| ≤ C * ε := by
  obtain ⟨C, hC, hw⟩ := s₀.wellPosed hns
  obtain ⟨hn₀, _, _, hr₀, hp₀, _, _⟩ := BeamDef.system_ok h₀
  set D : ℝ := ∑ p ∈ range (2 * b₀.members.length + 2), |b₀.restraints.getD p 0| with hD
  have hD0 : 0 ≤ D := Finset.sum_nonneg fun _ _ => abs_nonneg _
  refine ⟨2 * C + D * C, by positivity, ?_⟩
  intro LM LM' P P' hP hP' ls ls' stable solve solve' hso hso' res res' hls hls' ha ha' ε hε hc hpv
  set b : BeamDef ℝ := ⟨b₀.members, b₀.restraints, P, LM⟩ with hb
  set b' : BeamDef ℝ := ⟨b₀.members, b₀.restraints, P', LM'⟩ with hb'
  obtain ⟨s, h1, h2⟩ := BeamDef.analyze_ok ha
  obtain ⟨s', h1', h2'⟩ := BeamDef.analyze_ok ha'
  obtain ⟨hn, _, ⟨l1, hl1, href⟩, _, hp, _, _⟩ := BeamDef.system_ok h1
  obtain ⟨hn', _, ⟨l1', hl1', href'⟩, _, hp', _, _⟩ := BeamDef.system_ok h1'
  rw [hls] at hl1; cases hl1
  rw [hls'] at hl1'; cases hl1'
  have es : s = s₀.under s.ref s.presc := BeamDef.system_under (b := b₀) (b' := b) rfl rfl h₀ h1
  have es' : s' = s₀.under s'.ref s'.presc :=
    BeamDef.system_under (b := b₀) (b' := b') rfl rfl h₀ h1'
  obtain ⟨a1, _, _, a4, _⟩ := System.analyze_ok hso h2
  obtain ⟨c1, _, _, c4, _⟩ := System.analyze_ok hso' h2'
  have hsome : ∀ (Q : List (Option ℝ)), Q.map Option.isSome = b₀.presc.map Option.isSome →
      ∀ p, (Q.getD p none).isSome = (s₀.presc p).isSome := by
    intro Q hQ p
    rw [hp₀]
    have := congrArg (fun l => l.getD p false) hQ
    have e : ∀ l : List (Option ℝ), (l.map Option.isSome).getD p false = (l.getD p none).isSome := by
      intro l
      rw [List.getD_eq_getElem?_getD, List.getD_eq_getElem?_getD, List.getElem?_map]
      cases l[p]? <;> rfl
    simp only [e] at this
    exact this
  have hd : (s₀.under s.ref s.presc).IsSolution res.d := by rw [← es]; exact a1
  have hd' : (s₀.under s'.ref s'.presc).IsSolution res'.d := by rw [← es']; exact c1
  obtain ⟨w1, w2⟩ := hw s.ref s'.ref s.presc s'.presc (fun p _ => by rw [hp]; exact hsome P hP p)
    (fun p _ => by rw [hp']; exact hsome P' hP' p) res.d res'.d hd hd' ε hε
    (fun i hi q => by
      rw [hn₀] at hi
      obtain ⟨c, g1, g2⟩ := href i hi
      obtain ⟨c', g1', g2'⟩ := href' i hi
      rw [g2, g2']
      obtain ⟨t1, t2, t3, t4⟩ := hc i hi c c' g1 g1'
      fin_cases q
      · exact t1
      · exact t2
      · exact t3
      · exact t4)
    (fun p _ v v' hv hv' => hpv p v v' (by rw [← hv, hp]) (by rw [← hv', hp']))
  rw [← es, ← es', ← a4, ← c4] at w2
  have hN : s₀.N = 2 * b₀.members.length + 2 := by simp only [System.N, hn₀]
  rw [hN] at w1
  rw [hn₀] at w2
  have hle : C * ε ≤ (2 * C + D * C) * ε :=
    mul_le_mul_of_nonneg_right (by nlinarith) hε
  refine ⟨fun p hp => (w1 p hp).trans hle, fun i hi q => (w2 i hi q).trans hle, ?_⟩
  intro p hpN r r' hr hr'
  have hDp : |b₀.restraints.getD p 0| ≤ D :=
    Finset.single_le_sum (f := fun p => |b₀.restraints.getD p 0|) (fun _ _ => abs_nonneg _)
      (Finset.mem_range.2 hpN)
  rcases C91_reactions b stable solve hso res ha p r hr with ⟨hneg, rfl⟩ | ⟨hpos, rfl⟩
  · rcases C91_reactions b' stable solve' hso' res' ha' p r' hr' with ⟨_, rfl⟩ | ⟨hpos', _⟩
    · have e : 2 * (p / 2) + ((⟨p % 2, Nat.mod_lt _ (by norm_num)⟩ : Fin 2) : ℕ) = p := by
        simp only; omega
      have hmax : max (b₀.restraints.getD p 0) 0 = 0 := max_eq_right (le_of_lt hneg)
      simp only [nodeSum, e]
      have hmax1 : max (b.restraints.getD p 0) 0 = 0 := hmax
      have hmax2 : max (b'.restraints.getD p 0) 0 = 0 := hmax
      rw [hmax1]
      try rw [hmax2]
      rw [zero_mul, zero_mul, add_zero, add_zero, add_sub_add_comm]
      have k1 : |(if 0 < p / 2 then res.fmbr (p / 2 - 1) ⟨2 + p % 2, by omega⟩ else 0)
          - (if 0 < p / 2 then res'.fmbr (p / 2 - 1) ⟨2 + p % 2, by omega⟩ else 0)| ≤ C * ε := by
        split_ifs with h
        · exact w2 _ (by omega) _
        · simp; positivity
      have k2 : |(if p / 2 < b.members.length then res.fmbr (p / 2) ⟨p % 2, by omega⟩ else 0)
          - (if p / 2 < b'.members.length then res'.fmbr (p / 2) ⟨p % 2, by omega⟩ else 0)|
          ≤ C * ε := by
        by_cases h : p / 2 < b₀.members.length
        · rw [if_pos (show p / 2 < b.members.length from h),
            if_pos (show p / 2 < b'.members.length from h)]
          exact w2 _ h _
        · rw [if_neg (show ¬ p / 2 < b.members.length from h),
            if_neg (show ¬ p / 2 < b'.members.length from h)]
          simp; positivity
      refine (abs_add_le _ _).trans ((add_le_add k1 k2).trans ?_)
      have : 0 ≤ D * C * ε := by positivity
      linarith
    · exact absurd hpos' (not_lt.2 (le_of_lt hneg))
  · rcases C91_reactions b' stable solve' hso' res' ha' p r' hr' with ⟨hneg', _⟩ | ⟨_, rfl⟩
    · exact absurd hpos (not_lt.2 (le_of_lt hneg'))
    · have e : -(b.restraints.getD p 0 * res.d p) - -(b'.restraints.getD p 0 * res'.d p)
          = -(b₀.restraints.getD p 0 * (res.d p - res'.d p)) := by
        show -(b₀.restraints.getD p 0 * res.d p) - -(b₀.restraints.getD p 0 * res'.d p) = _
        ring
      rw [e, abs_neg, abs_mul]
      have := mul_le_mul hDp (w1 p hpN) (abs_nonneg _) hD0
      have h3 : 0 ≤ 2 * C * ε := by positivity
      linarith

/-- Two spans under a uniform load of `w` and a couple. -/
noncomputable def exTwoSpanW (w : ℝ) : BeamDef ℝ :=
  ⟨exTwoSpan.members, exTwoSpan.restraints, exTwoSpan.presc, [⟨1, 1, [w]⟩, ⟨2, 4, [5, 1]⟩]⟩

theorem exTwoSpanW_loads (w : ℝ) : (exTwoSpanW w).setLoads = .ok [⟨0, .udl w⟩, ⟨1, .ml 5 1⟩] := by
  simp [BeamDef.setLoads, exTwoSpanW, exTwoSpan, parseLM, parseRow]

theorem exTwoSpanW_system (w : ℝ) : ∃ s, (exTwoSpanW w).system = .ok s ∧ s.Nonsingular := by
  obtain ⟨s, hs⟩ : ∃ s, (exTwoSpanW w).system = .ok s := by
    rw [BeamDef.system, exTwoSpanW_loads]
    simp [exTwoSpanW, exTwoSpan, mapE, Member.spanK, Member.refSum, Member.ref, Member.cnl,
      Load.getCnl]
  refine ⟨s, hs, C77_adequate_supports (exTwoSpanW w) (by
    intro m hm
    simp only [exTwoSpanW, exTwoSpan, List.mem_cons, List.not_mem_nil, or_false] at hm
    rcases hm with rfl | rfl <;> simp [Member.Good, Rigidity.Good]) s hs 0 1 (by simp)
    (by simp [exTwoSpanW, exTwoSpan]) (by simp [exTwoSpanW, exTwoSpan])
    (Or.inl (by simp [exTwoSpanW, exTwoSpan]))⟩

theorem exTwoSpanW_completes (w : ℝ) : ∃ solve : Solver ℝ, solve.Sound ∧
    ∃ res, (exTwoSpanW w).analyze (fun _ => true) solve = .ok res := by
  obtain ⟨s, hs, hns⟩ := exTwoSpanW_system w
  obtain ⟨_, _, _, _, hp, _, _⟩ := BeamDef.system_ok hs
  refine BeamDef.completes hs hns ?_
  simp only [System.validate, hp]
  have : ∀ i : ℕ, (exTwoSpanW w).presc.getD i none = none := by
    intro i
    rcases i with _ | _ | _ | _ | _ | _ | i <;> simp [exTwoSpanW, exTwoSpan]
  simp only [this]
  simp

/-- C145 at two spans: analyses under the loads `w` and `3` both complete, and their displacements
and end moments differ by at most a fixed multiple of `w - 3`. -/
example : ∃ C : ℝ, 0 < C ∧ ∀ w : ℝ, ∃ (solve solve' : Solver ℝ) (res res' : Result ℝ),
    (exTwoSpanW 3).analyze (fun _ => true) solve = .ok res ∧
    (exTwoSpanW w).analyze (fun _ => true) solve' = .ok res' ∧
    |res.d 3 - res'.d 3| ≤ C * |3 - w| ∧ |res.fmbr 0 3 - res'.fmbr 0 3| ≤ C * |3 - w| := by
  obtain ⟨s, hs, hns⟩ := exTwoSpanW_system 3
  obtain ⟨C, hC, h⟩ := C145_well_posed (exTwoSpanW 3) s hs hns
  refine ⟨C, hC, fun w => ?_⟩
  obtain ⟨solve, hso, res, ha⟩ := exTwoSpanW_completes 3
  obtain ⟨solve', hso', res', ha'⟩ := exTwoSpanW_completes w
  obtain ⟨h1, h2, _⟩ := h _ _ _ _ rfl rfl _ _ _ solve solve' hso hso' res res'
    (exTwoSpanW_loads 3) (exTwoSpanW_loads w) ha ha' |3 - w| (abs_nonneg _) (by
      intro i hi c c' hc hc'
      have hi2 : i < 2 := by simpa [exTwoSpanW, exTwoSpan] using hi
      have hw := le_abs_self (3 - w)
      have hw' := neg_abs_le (3 - w)
      have hn := abs_nonneg (3 - w)
      interval_cases i
      · simp [exTwoSpanW, exTwoSpan, Member.refSum, Member.ref, Member.cnl, Load.getCnl] at hc hc'
        subst hc hc'
        simp only [udlCnl, releaseCnl]
        refine ⟨abs_le.2 ⟨?_, ?_⟩, abs_le.2 ⟨?_, ?_⟩, abs_le.2 ⟨?_, ?_⟩, abs_le.2 ⟨?_, ?_⟩⟩ <;> linarith
      · simp [exTwoSpanW, exTwoSpan, Member.refSum, Member.ref, Member.cnl, Load.getCnl] at hc hc'
        subst hc hc'
        simp)
    (by
      intro p v v' hv
      exfalso
      rcases p with _ | _ | _ | _ | _ | _ | p <;> simp [exTwoSpanW, exTwoSpan] at hv)
  exact ⟨solve, solve', res, res', ha, ha', h1 3 (by simp [exTwoSpanW, exTwoSpan]),
    h2 0 (by simp [exTwoSpanW, exTwoSpan]) 3⟩

end PyCBA
