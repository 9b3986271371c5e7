import Verif.Analysis.Linear
import Mathlib.Analysis.Matrix.Spectrum
import Mathlib.LinearAlgebra.Matrix.ToLin

set_option linter.unusedSectionVars false
set_option linter.unusedSimpArgs false

/-!
The stability check of `analysis.py` 507-561 (C23) and supports that guarantee
stability (C77).  `np.linalg.eigvalsh` is a parameter of which only the defining
property of eigenvalues of a symmetric matrix is assumed.
-/

namespace PyCBA

open Matrix Finset

variable {K : Type*} [Field K] [LinearOrder K] [IsStrictOrderedRing K]

/-! ### Model -/

/-- The degrees of freedom that are solved for, `analysis.py` 544-548. -/
def System.freeDofs (s : System K) : List ℕ :=
  (List.range s.N).filter fun i => ¬ (s.r i < 0 ∨ (s.presc i).isSome)

/-- `kff = ksysU[np.ix_(free, free)]`, `analysis.py` 552. -/
def System.kff (s : System K) : Matrix (Fin s.freeDofs.length) (Fin s.freeDofs.length) K :=
  Matrix.of fun a c => s.assemble s.freeDofs[a] s.freeDofs[c]

/-- `np.linalg.eigvalsh`: the eigenvalues of a symmetric matrix. -/
abbrev Eigvalsh (K : Type*) := (m : ℕ) → Matrix (Fin m) (Fin m) K → List K

/-- `_STABILITY_RCOND`, `analysis.py` 504. -/
def stabilityRcond : K := 1 / 10 ^ 12

/-- `_check_stability`, `analysis.py` 544-561; `false` stands for the `ValueError`.
`ev.max()` and `ev.min()` of an empty array raise too. -/
def System.checkStability (s : System K) (eigs : Eigvalsh K) : Bool :=
  if s.freeDofs = [] then true
  else
    let ev := (eigs _ s.kff).map fun x => |x|
    match ev.max?, ev.min? with
    | some mx, some mn => ¬ (mx = 0 ∨ mn / mx < stabilityRcond)
    | _, _ => false

/-! ### Contract of the eigenvalue routine -/

/-- The list returned for a symmetric matrix consists exactly of its eigenvalues. -/
def Eigvalsh.Sound (eigs : Eigvalsh K) : Prop :=
  ∀ m (A : Matrix (Fin m) (Fin m) K), A.transpose = A →
    ∀ l, l ∈ eigs m A ↔ ∃ x, x ≠ 0 ∧ A *ᵥ x = l • x

/-- The contract can be met over ℝ (spectral theorem). -/
noncomputable def realEigs : Eigvalsh ℝ := fun m A =>
  open Classical in
  if h : A.IsHermitian then List.ofFn h.eigenvalues else []

theorem realEigs_sound : realEigs.Sound := by
  intro m A hA l
  have hH : A.IsHermitian := by
    rw [Matrix.IsHermitian, Matrix.conjTranspose_eq_transpose_of_trivial, hA]
  simp only [realEigs, hH, dif_pos, List.mem_ofFn]
  have h1 : l ∈ spectrum ℝ A ↔ ∃ i, hH.eigenvalues i = l := by
    rw [hH.spectrum_real_eq_range_eigenvalues, Set.mem_range]
  rw [← h1, ← Matrix.spectrum_toLin', ← Module.End.hasEigenvalue_iff_mem_spectrum]
  constructor
  · intro h
    obtain ⟨x, hx⟩ := h.exists_hasEigenvector
    exact ⟨x, hx.2, by simpa using hx.apply_eq_smul⟩
  · rintro ⟨x, hx0, hx⟩
    exact Module.End.hasEigenvalue_of_hasEigenvector
      (Module.End.hasEigenvector_iff.2 ⟨Module.End.mem_eigenspace_iff.2 (by simpa using hx), hx0⟩)

/-! ### Lemmas -/

theorem System.mem_freeDofs (s : System K) (p : ℕ) :
    p ∈ s.freeDofs ↔ p < s.N ∧ s.constr p = none := by
  simp only [System.freeDofs, List.mem_filter, List.mem_range, System.constr]
  rcases s.presc p with _ | v
  · by_cases h : s.r p < 0 <;> simp [h]
  · simp

theorem System.freeDofs_nodup (s : System K) : s.freeDofs.Nodup :=
  List.Nodup.filter _ List.nodup_range

/-- A vector that vanishes at the constrained degrees of freedom. -/
theorem System.mulN_free (s : System K) (x : ℕ → K)
    (hx : ∀ p < s.N, (s.constr p).isSome → x p = 0) (a : Fin s.freeDofs.length) :
    mulN s.N s.assemble x s.freeDofs[a] = (s.kff *ᵥ fun c => x s.freeDofs[c]) a := by
  have h1 := filter_range_sum s.N (fun i => ¬ (s.r i < 0 ∨ (s.presc i).isSome))
    (fun q => s.assemble s.freeDofs[a] q * x q)
  have h2 : ∑ q ∈ range s.N, (if ¬ (s.r q < 0 ∨ (s.presc q).isSome) then
      s.assemble s.freeDofs[a] q * x q else 0) = mulN s.N s.assemble x s.freeDofs[a] := by
    apply Finset.sum_congr rfl
    intro q hq
    split
    · rfl
    · rename_i hc
      have hq' := Finset.mem_range.1 hq
      rw [hx q hq' ?_, mul_zero]
      rw [Option.isSome_iff_ne_none]
      intro hn
      have := (s.mem_freeDofs q).2 ⟨hq', hn⟩
      simp only [System.freeDofs, List.mem_filter, decide_eq_true_eq] at this
      exact hc this.2
  rw [← h2, ← h1]
  exact (Fin.sum_univ_fun_getElem s.freeDofs fun q => s.assemble s.freeDofs[a] q * x q).symm

theorem System.kff_symm (s : System K) (hsym : ∀ i < s.n, (s.kb i)ᵀ = s.kb i) :
    s.kff.transpose = s.kff := by
  ext a c
  have key : ∀ p < s.N, ∀ q < s.N, s.assemble p q = s.assemble q p := by
    intro p hp q hq
    have h := mulN_symm_work s hsym (fun i => if i = p then 1 else 0) (fun i => if i = q then 1 else 0)
    simpa [mulN, hp, hq] using h
  simp only [System.kff, transpose_apply, of_apply]
  exact key _ ((s.mem_freeDofs _).1 (List.getElem_mem _)).1 _
    ((s.mem_freeDofs _).1 (List.getElem_mem _)).1

/-- Strain energy of the members and springs in a displacement `x`. -/
def System.totalEnergy (s : System K) (x : ℕ → K) : K :=
  (∑ i ∈ range s.n, energy (s.kb i) (elemVec x i)) + ∑ p ∈ range s.N, s.spring p * x p ^ 2

theorem System.totalEnergy_eq (s : System K) (x : ℕ → K) :
    s.totalEnergy x = ∑ p ∈ range s.N, x p * mulN s.N s.assemble x p := by
  rw [s.virtual_work]
  simp only [System.totalEnergy, energy]
  congr 1
  apply Finset.sum_congr rfl
  intro p _
  ring

theorem System.totalEnergy_nonneg (s : System K) (hpos : ∀ i < s.n, ∀ d, 0 ≤ energy (s.kb i) d)
    (x : ℕ → K) : 0 ≤ s.totalEnergy x := by
  apply add_nonneg
  · exact Finset.sum_nonneg fun i hi => hpos i (Finset.mem_range.1 hi) _
  · apply Finset.sum_nonneg
    intro p _
    apply mul_nonneg
    · simp only [System.spring]
      split
      · exact le_of_lt ‹_›
      · exact le_rfl
    · positivity

/-- A nonnegative quadratic form vanishes at `x` only if its gradient does. -/
theorem System.zero_energy (s : System K) (hsym : ∀ i < s.n, (s.kb i)ᵀ = s.kb i)
    (hpos : ∀ i < s.n, ∀ d, 0 ≤ energy (s.kb i) d) (x : ℕ → K) (h0 : s.totalEnergy x = 0)
    (p : ℕ) (hp : p < s.N) : mulN s.N s.assemble x p = 0 := by
  set g := mulN s.N s.assemble x p with hg
  set e : ℕ → K := fun i => if i = p then 1 else 0 with he
  set q := s.totalEnergy e with hqe
  have hq : 0 ≤ q := s.totalEnergy_nonneg hpos e
  have hexp : ∀ t : K, s.totalEnergy (fun i => 1 * x i + t * e i) = 2 * t * g + t ^ 2 * q := by
    intro t
    have h1 : ∑ i ∈ range s.N, e i * mulN s.N s.assemble x i = g := by simp [he, hg, hp]
    have h2 := mulN_symm_work s hsym x e
    have h3 := s.totalEnergy_eq e
    rw [s.totalEnergy_eq] at h0
    have h4 : s.totalEnergy (fun i => 1 * x i + t * e i)
        = (∑ i ∈ range s.N, x i * mulN s.N s.assemble x i)
          + t * (∑ i ∈ range s.N, x i * mulN s.N s.assemble e i)
          + t * (∑ i ∈ range s.N, e i * mulN s.N s.assemble x i)
          + t ^ 2 * ∑ i ∈ range s.N, e i * mulN s.N s.assemble e i := by
      rw [s.totalEnergy_eq]
      simp only [mulN_lin, Finset.mul_sum, ← Finset.sum_add_distrib]
      apply Finset.sum_congr rfl
      intro i _
      ring
    rw [h4, h0, h2, h1, ← h3, ← hqe]
    ring
  have hall : ∀ t : K, 0 ≤ 2 * t * g + t ^ 2 * q := by
    intro t
    rw [← hexp]
    exact s.totalEnergy_nonneg hpos _
  have h5 := hall (-g / (q + 1))
  have hq1 : 0 < q + 1 := by linarith
  have h6 : 2 * (-g / (q + 1)) * g + (-g / (q + 1)) ^ 2 * q = -(g ^ 2 * (q + 2) / (q + 1) ^ 2) := by
    field_simp
    ring
  rw [h6] at h5
  by_contra hne
  have : 0 < g ^ 2 * (q + 2) / (q + 1) ^ 2 := by positivity
  linarith

theorem BeamDef.system_symm {b : BeamDef K} {s : System K} (h : b.system = .ok s) :
    ∀ i < s.n, (s.kb i)ᵀ = s.kb i := by
  obtain ⟨hn, hk, _⟩ := BeamDef.system_ok h
  intro i hi
  rw [hn] at hi
  ext p q
  exact C11_stiffness_symmetric _ _ (hk i hi) q p

theorem BeamDef.system_pos {b : BeamDef K} {s : System K} (h : b.system = .ok s)
    (hgood : ∀ m ∈ b.members, m.Good) : ∀ i < s.n, ∀ d, 0 ≤ energy (s.kb i) d := by
  obtain ⟨hn, hk, _⟩ := BeamDef.system_ok h
  intro i hi d
  rw [hn] at hi
  obtain ⟨k, h1, h2, _⟩ := C13_energy_nonneg _ (hgood _ (List.getElem_mem hi))
  rw [hk i hi] at h1
  cases h1
  exact h2 d

theorem System.nonsingular_of_check {s : System K} {eigs : Eigvalsh K} (hE : eigs.Sound)
    (hsym : ∀ i < s.n, (s.kb i)ᵀ = s.kb i) (h : s.checkStability eigs = true) :
    ∀ y, s.kff *ᵥ y = 0 → y = 0 := by
  intro y hy
  by_contra hne
  have h0 : (0 : K) ∈ eigs _ s.kff := (hE _ _ (s.kff_symm hsym) 0).2 ⟨y, hne, by simp [hy]⟩
  unfold System.checkStability at h
  split at h
  · rename_i he
    apply hne
    ext a
    exact absurd a.isLt (by simp [he])
  · simp only at h
    split at h
    · rename_i mx mn hmx hmn
      rw [List.min?_eq_some_iff] at hmn
      have h1 : (0 : K) ∈ (eigs _ s.kff).map fun x => |x| := List.mem_map.2 ⟨0, h0, abs_zero⟩
      have h2 : mn ≤ 0 := hmn.2 0 h1
      have h3 : 0 ≤ mn := by
        obtain ⟨z, _, hz⟩ := List.mem_map.1 hmn.1
        rw [← hz]
        exact abs_nonneg z
      have h4 : mn = 0 := le_antisymm h2 h3
      subst h4
      have : (0 : K) < stabilityRcond := by unfold stabilityRcond; positivity
      simp [this] at h
    · cases h

theorem System.nonsingular_iff (s : System K) :
    s.Nonsingular ↔ ∀ y, s.kff *ᵥ y = 0 → y = 0 := by
  constructor
  · intro hns y hy
    set x : ℕ → K := fun p => ∑ a, if s.freeDofs[a] = p then y a else 0 with hx
    have hxf : ∀ c : Fin s.freeDofs.length, x s.freeDofs[c] = y c := by
      intro c
      simp only [hx]
      rw [Finset.sum_eq_single c]
      · simp
      · intro a _ hac
        rw [if_neg]
        intro heq
        apply hac
        ext
        exact (List.Nodup.getElem_inj_iff s.freeDofs_nodup).1 heq
      · simp
    have hx0 : ∀ p < s.N, (s.constr p).isSome → x p = 0 := by
      intro p hp hc
      apply Finset.sum_eq_zero
      intro a _
      rw [if_neg]
      rintro rfl
      have := ((s.mem_freeDofs _).1 (List.getElem_mem a.isLt)).2
      simp only [Fin.getElem_fin] at hc
      rw [this] at hc
      cases hc
    have := hns x hx0 (by
      intro p hp hc
      have hm := (s.mem_freeDofs p).2 ⟨hp, hc⟩
      obtain ⟨i, hi, rfl⟩ := List.getElem_of_mem hm
      have := s.mulN_free x hx0 ⟨i, hi⟩
      simp only [hxf, hy] at this
      simpa using this)
    ext c
    rw [← hxf c]
    exact this _ ((s.mem_freeDofs _).1 (List.getElem_mem _)).1
  · intro h x hx hf
    have hy := h (fun c => x s.freeDofs[c]) (by
      ext a
      rw [← s.mulN_free x hx a]
      have := (s.mem_freeDofs _).1 (List.getElem_mem a.isLt)
      exact hf _ this.1 this.2)
    intro p hp
    rcases hc : s.constr p with _ | v
    · obtain ⟨i, hi, rfl⟩ := List.getElem_of_mem ((s.mem_freeDofs p).2 ⟨hp, hc⟩)
      exact congrFun hy ⟨i, hi⟩
    · exact hx p hp (by simp [hc])

theorem System.exists_solution {s : System K} (hns : s.Nonsingular) : ∃ d, s.IsSolution d := by
  rw [s.nonsingular_iff] at hns
  have hinj : Function.Injective (Matrix.toLin' s.kff) := by
    rw [← LinearMap.ker_eq_bot, LinearMap.ker_eq_bot']
    intro y hy
    exact hns y (by simpa using hy)
  have hsurj := LinearMap.injective_iff_surjective.1 hinj
  set x0 : ℕ → K := fun p => (s.constr p).getD 0 with hx0
  obtain ⟨y, hy⟩ := hsurj (fun a => -s.residual x0 s.freeDofs[a])
  set x : ℕ → K := fun p => ∑ a, if s.freeDofs[a] = p then y a else 0 with hx
  have hxf : ∀ c : Fin s.freeDofs.length, x s.freeDofs[c] = y c := by
    intro c
    simp only [hx]
    rw [Finset.sum_eq_single c]
    · simp
    · intro a _ hac
      rw [if_neg]
      intro heq
      apply hac
      ext
      exact (List.Nodup.getElem_inj_iff s.freeDofs_nodup).1 heq
    · simp
  have hxz : ∀ p < s.N, (s.constr p).isSome → x p = 0 := by
    intro p hp hc
    apply Finset.sum_eq_zero
    intro a _
    rw [if_neg]
    rintro rfl
    have := ((s.mem_freeDofs _).1 (List.getElem_mem a.isLt)).2
    simp only [Fin.getElem_fin] at hc
    rw [this] at hc
    cases hc
  refine ⟨fun p => 1 * x0 p + 1 * x p, ?_, ?_⟩
  · intro p hp v hv
    have := hxz p hp (by simp [hv])
    simp only [this]
    simp [hx0, hv]
  · intro p hp hc
    obtain ⟨i, hi, rfl⟩ := List.getElem_of_mem ((s.mem_freeDofs p).2 ⟨hp, hc⟩)
    have h1 := s.mulN_free x hxz ⟨i, hi⟩
    simp only [hxf] at h1
    have h2 := congrFun hy ⟨i, hi⟩
    simp only [Matrix.toLin'_apply] at h2
    simp only [System.residual, mulN_lin]
    simp only [System.residual, Fin.getElem_fin] at h1 h2
    rw [h1, h2]
    ring

/-! ## C23 -/

/-- **C23**, mechanisms: if the supports allow a nonzero displacement `x` (zero
where the beam is held or a displacement is prescribed) with zero strain energy in
all members and springs, the stability check rejects the beam. -/
theorem C23_mechanism_rejected (b : BeamDef K) (hgood : ∀ m ∈ b.members, m.Good) (s : System K)
    (hs : b.system = .ok s) (eigs : Eigvalsh K) (hE : eigs.Sound) (x : ℕ → K)
    (hheld : ∀ p < 2 * b.members.length + 2,
      (b.restraints.getD p 0 < 0 ∨ ∃ v, b.presc[p]? = some (some v)) → x p = 0)
    (hx : ∃ p < 2 * b.members.length + 2, x p ≠ 0)
    (k : ℕ → Mat4 K) (hk : ∀ i (hi : i < b.members.length), b.members[i].spanK = .ok (k i))
    (hmem : ∀ i < b.members.length, energy (k i) (fun a => x (2 * i + a)) = 0)
    (hspr : ∀ p < 2 * b.members.length + 2, 0 < b.restraints.getD p 0 → x p = 0) :
    s.checkStability eigs = false := by
  by_contra hc
  rw [Bool.not_eq_false] at hc
  obtain ⟨hn, hk', _, hr, hq, _⟩ := BeamDef.system_ok hs
  have hN : s.N = 2 * b.members.length + 2 := by simp [System.N, hn]
  have hns := (s.nonsingular_iff).2 (System.nonsingular_of_check hE (BeamDef.system_symm hs) hc)
  have hE0 : s.totalEnergy x = 0 := by
    simp only [System.totalEnergy]
    rw [Finset.sum_eq_zero, Finset.sum_eq_zero, add_zero]
    · intro p hp
      rw [hN] at hp
      simp only [System.spring, hr]
      split
      · rw [hspr p (Finset.mem_range.1 hp) ‹_›]
        ring
      · ring
    · intro i hi
      rw [hn] at hi
      have hi' := Finset.mem_range.1 hi
      have := (hk i hi').symm.trans (hk' i hi')
      rw [← Except.ok.inj this]
      exact hmem i hi'
  obtain ⟨p, hp, hne⟩ := hx
  apply hne
  apply hns x _ _ p (by omega)
  · intro p hp hcs
    apply hheld p (by omega)
    simp only [System.constr, hq, hr, List.getD_eq_getElem?_getD] at hcs
    rcases hq' : b.presc[p]? with _ | (_ | w)
    · left; simpa [hq', List.getD_eq_getElem?_getD] using hcs
    · left; simpa [hq', List.getD_eq_getElem?_getD] using hcs
    · right; exact ⟨w, rfl⟩
  · intro p hp _
    exact s.zero_energy (BeamDef.system_symm hs) (BeamDef.system_pos hs hgood) x hE0 p hp

/-- **C23**, accepted beams: a beam that passes the check has a nonsingular
restrained system, and exactly one displacement array satisfies the reduced system
that is handed to the solver. -/
theorem C23_accepted_unique (b : BeamDef K) (s : System K) (hs : b.system = .ok s)
    (eigs : Eigvalsh K) (hE : eigs.Sound) (hc : s.checkStability eigs = true) :
    s.Nonsingular ∧ ∃ d : ℕ → K, (∀ p < s.N, mulN s.N (s.applyBC (s.assemble, s.forces)).1 d p
        = (s.applyBC (s.assemble, s.forces)).2 p) ∧
      ∀ d' : ℕ → K, (∀ p < s.N, mulN s.N (s.applyBC (s.assemble, s.forces)).1 d' p
        = (s.applyBC (s.assemble, s.forces)).2 p) → ∀ p < s.N, d' p = d p := by
  have hns := (s.nonsingular_iff).2 (System.nonsingular_of_check hE (BeamDef.system_symm hs) hc)
  have hiff : ∀ d : ℕ → K, (∀ p < s.N, mulN s.N (s.applyBC (s.assemble, s.forces)).1 d p
        = (s.applyBC (s.assemble, s.forces)).2 p) ↔ s.IsSolution d := by
    intro d
    rw [s.reduced_iff]
    simp only [System.IsSolution, System.residual, sub_eq_zero]
  obtain ⟨d, hd⟩ := System.exists_solution hns
  exact ⟨hns, d, (hiff d).2 hd, fun d' hd' => System.IsSolution.unique hns ((hiff d').1 hd') hd⟩

/-! ## C77 -/

/-- A displacement that strains no fixed-fixed member is a rigid motion. -/
theorem rigid_of_energy_zero (b : BeamDef K) (hgood : ∀ m ∈ b.members, m.Good ∧ m.et = .FF)
    (k : ℕ → Mat4 K) (hk : ∀ i (hi : i < b.members.length), b.members[i].spanK = .ok (k i))
    (x : ℕ → K) (hmem : ∀ i < b.members.length, energy (k i) (elemVec x i) = 0) :
    ∀ j ≤ b.members.length, x (2 * j) = x 0 + x 1 * b.nodeX j ∧ x (2 * j + 1) = x 1 := by
  intro j
  induction j with
  | zero => intro _; simp [BeamDef.nodeX]
  | succ j ih =>
    intro hj
    obtain ⟨i1, i2⟩ := ih (by omega)
    have hjl : j < b.members.length := by omega
    obtain ⟨hm, hFF⟩ := hgood _ (List.getElem_mem hjl)
    obtain ⟨k', h1, _, h3⟩ := C13_energy_nonneg _ hm
    rw [hk j hjl] at h1
    cases h1
    obtain ⟨a, t, h4⟩ := h3 hFF _ (hmem j hjl)
    have e0 := congrFun h4 0
    have e1 := congrFun h4 1
    have e2 := congrFun h4 2
    have e3 := congrFun h4 3
    simp [elemVec, rigidMotion] at e0 e1 e2 e3
    rw [b.nodeX_succ j hjl]
    constructor
    · have : 2 * (j + 1) = 2 * j + 2 := by ring
      rw [this, e2, ← e0, ← e1, i1, i2]
      ring
    · have : 2 * (j + 1) + 1 = 2 * j + 3 := by ring
      rw [this, e3, ← e1, i2]

/-- **C77**: a beam of fixed-fixed members with positive properties and rigid
vertical supports at two different nodes, or one vertical and one rotational
restraint anywhere, has a nonsingular restrained stiffness, whatever springs and further
restraints it has. -/
theorem C77_adequate_supports (b : BeamDef K) (hgood : ∀ m ∈ b.members, m.Good ∧ m.et = .FF)
    (s : System K) (hs : b.system = .ok s) (i j : ℕ) (hil : i ≤ b.members.length) (hj : j ≤ b.members.length)
    (hi : b.restraints.getD (2 * i) 0 < 0)
    (hsup : (i < j ∧ b.restraints.getD (2 * j) 0 < 0) ∨ b.restraints.getD (2 * j + 1) 0 < 0) :
    s.Nonsingular := by
  obtain ⟨hn, hk, _, hr, hq, _⟩ := BeamDef.system_ok hs
  have hN : s.N = 2 * b.members.length + 2 := by simp [System.N, hn]
  intro x hx hf
  have hpos := BeamDef.system_pos hs fun m hm => (hgood m hm).1
  have hE : s.totalEnergy x = 0 := by
    rw [s.totalEnergy_eq]
    apply Finset.sum_eq_zero
    intro p hp
    have hp' := Finset.mem_range.1 hp
    rcases hc : s.constr p with _ | v
    · rw [hf p hp' hc, mul_zero]
    · rw [hx p hp' (by simp [hc]), zero_mul]
  have hmem : ∀ i < b.members.length, energy (s.kb i) (elemVec x i) = 0 := by
    have h2 : 0 ≤ ∑ p ∈ range s.N, s.spring p * x p ^ 2 := by
      apply Finset.sum_nonneg
      intro p _
      apply mul_nonneg
      · simp only [System.spring]
        split
        · exact le_of_lt ‹_›
        · exact le_rfl
      · positivity
    have h3 : 0 ≤ ∑ i ∈ range s.n, energy (s.kb i) (elemVec x i) :=
      Finset.sum_nonneg fun i hi => hpos i (Finset.mem_range.1 hi) _
    have h4 : ∑ i ∈ range s.n, energy (s.kb i) (elemVec x i) = 0 := by
      simp only [System.totalEnergy] at hE
      linarith
    intro i hi
    exact (Finset.sum_eq_zero_iff_of_nonneg fun i hi => hpos i (Finset.mem_range.1 hi) _).1 h4 i
      (by simpa [hn] using hi)
  have hrig := rigid_of_energy_zero b hgood s.kb hk x hmem
  have hheld : ∀ p < 2 * b.members.length + 2, b.restraints.getD p 0 < 0 → x p = 0 := by
    intro p hp hneg
    apply hx p (by omega)
    rw [← hr] at hneg
    simp only [System.constr]
    cases s.presc p <;> simp [hneg]
  have hXmono : ∀ j, ∀ i < j, j ≤ b.members.length → b.nodeX i < b.nodeX j := by
    intro j
    induction j with
    | zero => intro i hi; omega
    | succ j ih =>
      intro i hi hjl
      have hjl' : j < b.members.length := by omega
      rw [b.nodeX_succ j hjl']
      have hL := (hgood _ (List.getElem_mem hjl')).1.1
      rcases Nat.lt_or_ge i j with h | h
      · have := ih i h (by omega)
        linarith
      · have : i = j := by omega
        subst this
        linarith
  have hi0 := hheld (2 * i) (by omega) hi
  rw [(hrig i (by omega)).1] at hi0
  have hx1 : x 1 = 0 := by
    rcases hsup with ⟨hlt, hs2⟩ | hs2
    · have hj0 := hheld (2 * j) (by omega) hs2
      rw [(hrig j hj).1] at hj0
      have h5 : x 1 * (b.nodeX j - b.nodeX i) = 0 := by linarith
      rcases mul_eq_zero.1 h5 with h | h
      · exact h
      · have := hXmono j i hlt hj
        linarith
    · have hj0 := hheld (2 * j + 1) (by omega) hs2
      rwa [(hrig j hj).2] at hj0
  have hx0 : x 0 = 0 := by rw [hx1] at hi0; linarith
  intro p hp
  rcases Nat.even_or_odd' p with ⟨c, rfl | rfl⟩
  · rw [(hrig c (by omega)).1, hx0, hx1]
    ring
  · rw [(hrig c (by omega)).2, hx1]

/-! ### Concrete cases -/

/-- A span held only by a pin at its left end. -/
noncomputable def exPinOnly : BeamDef ℝ :=
  ⟨[⟨.const 6, 2, .FF, none⟩], [-1, 0, 0, 0], [none, none, none, none], []⟩

/-- C23 at the span with one pin: it can turn about the pin and is rejected. -/
theorem exPinOnly_unstable : ∃ s, exPinOnly.system = .ok s ∧ s.checkStability realEigs = false := by
  refine ⟨_, rfl, C23_mechanism_rejected exPinOnly (by
    simp [exPinOnly, Member.Good, Rigidity.Good]) _ rfl realEigs realEigs_sound
    (fun p => [0, 1, 2, 1].getD p 0) ?_ ⟨1, by simp [exPinOnly], by simp⟩ (fun _ => kFF 6 2)
    ?_ ?_ ?_⟩
  · intro p hp h
    simp only [exPinOnly] at h hp
    rcases p with _ | _ | _ | _ | p <;> simp at h hp ⊢
  · intro i hi
    simp [exPinOnly] at hi
    subst hi
    simp [exPinOnly, Member.spanK]
  · intro i hi
    simp [exPinOnly] at hi
    subst hi
    simp [energy, dot4, mulVec4, kFF, vecHead, vecTail]
    norm_num
  · intro p hp h
    simp only [exPinOnly] at h hp
    rcases p with _ | _ | _ | _ | p <;> simp at h hp ⊢

/-- A simple span over ℝ. -/
noncomputable def exSimpleReal : BeamDef ℝ :=
  ⟨[⟨.const 6, 2, .FF, none⟩], [-1, 0, -1, 0], [none, none, none, none], []⟩

/-- C23 at the simple span: its eigenvalues are 6 and 18, so it is accepted. -/
theorem exSimpleReal_stable :
    ∃ s, exSimpleReal.system = .ok s ∧ s.checkStability realEigs = true ∧ s.Nonsingular := by
  obtain ⟨s, hs⟩ : ∃ s, exSimpleReal.system = .ok s := ⟨_, rfl⟩
  obtain ⟨hn, hk, _, hr, hq, _⟩ := BeamDef.system_ok hs
  have hn1 : s.n = 1 := hn
  have hN : s.N = 4 := by simp [System.N, hn1]
  have hk0 : s.kb 0 = kFF 6 2 := by
    have := hk 0 (by simp [exSimpleReal])
    simp [exSimpleReal, Member.spanK] at this
    exact this.symm
  have hfree : s.freeDofs = [1, 3] := by
    have h4 : List.range 4 = [0, 1, 2, 3] := by decide
    simp [System.freeDofs, hN, hr, hq, exSimpleReal, h4]
  have c0 : (s.constr 0).isSome := by simp [System.constr, hq, hr, exSimpleReal]
  have c2 : (s.constr 2).isSome := by simp [System.constr, hq, hr, exSimpleReal]
  have row1 : ∀ x : ℕ → ℝ, x 0 = 0 → x 2 = 0 → mulN s.N s.assemble x 1 = 12 * x 1 + 6 * x 3 := by
    intro x x0 x2
    rw [s.mulN_assemble _ _ (by omega), hn1]
    simp [hk0, blockVec, mulVec4, elemVec, kFF, x0, x2, System.spring, hr, exSimpleReal]
    norm_num
  have row3 : ∀ x : ℕ → ℝ, x 0 = 0 → x 2 = 0 → mulN s.N s.assemble x 3 = 6 * x 1 + 12 * x 3 := by
    intro x x0 x2
    rw [s.mulN_assemble _ _ (by omega), hn1]
    simp [hk0, blockVec, mulVec4, elemVec, kFF, x0, x2, System.spring, hr, exSimpleReal]
    norm_num
  have hmat : ∀ y : Fin s.freeDofs.length → ℝ,
      (s.kff *ᵥ y) ⟨0, by simp [hfree]⟩
        = 12 * y ⟨0, by simp [hfree]⟩ + 6 * y ⟨1, by simp [hfree]⟩ ∧
      (s.kff *ᵥ y) ⟨1, by simp [hfree]⟩
        = 6 * y ⟨0, by simp [hfree]⟩ + 12 * y ⟨1, by simp [hfree]⟩ := by
    intro y
    set x : ℕ → ℝ := fun p => if p = 1 then y ⟨0, by simp [hfree]⟩
      else if p = 3 then y ⟨1, by simp [hfree]⟩ else 0 with hx
    have hx0 : ∀ p < s.N, (s.constr p).isSome → x p = 0 := by
      intro p hp hc
      have : p ∉ s.freeDofs := by
        rw [s.mem_freeDofs]
        rintro ⟨_, h⟩
        rw [h] at hc
        cases hc
      rw [hfree] at this
      simp at this
      simp [hx, this]
    have hy : (fun c : Fin s.freeDofs.length => x s.freeDofs[c]) = y := by
      ext ⟨c, hc⟩
      have : c < 2 := by simpa [hfree] using hc
      interval_cases c <;> simp [hfree, hx]
    have e0 := s.mulN_free x hx0 ⟨0, by simp [hfree]⟩
    have e1 := s.mulN_free x hx0 ⟨1, by simp [hfree]⟩
    rw [hy] at e0 e1
    simp only [Fin.getElem_fin, hfree, List.getElem_cons_zero, List.getElem_cons_succ] at e0 e1
    rw [← e0, ← e1, row1 x (by simp [hx]) (by simp [hx]), row3 x (by simp [hx]) (by simp [hx])]
    simp [hx]
  have hsym := s.kff_symm (BeamDef.system_symm hs)
  have hcheck : s.checkStability realEigs = true := by
    have hmem : ∀ l, l ∈ realEigs _ s.kff → l = 6 ∨ l = 18 := by
      intro l hl
      obtain ⟨y, hy0, hy⟩ := (realEigs_sound _ _ hsym l).1 hl
      obtain ⟨m0, m1⟩ := hmat y
      rw [hy] at m0 m1
      simp only [Pi.smul_apply, smul_eq_mul] at m0 m1
      by_contra hne
      push Not at hne
      apply hy0
      have k1 : (l - 6) * (l - 18) * y ⟨0, by simp [hfree]⟩ = 0 := by
        linear_combination (l - 12) * m0 + 6 * m1
      have k2 : (l - 6) * (l - 18) * y ⟨1, by simp [hfree]⟩ = 0 := by
        linear_combination (l - 12) * m1 + 6 * m0
      have hnz : (l - 6) * (l - 18) ≠ 0 :=
        mul_ne_zero (sub_ne_zero.2 hne.1) (sub_ne_zero.2 hne.2)
      ext ⟨c, hc⟩
      have : c < 2 := by simpa [hfree] using hc
      interval_cases c
      · exact (mul_eq_zero.1 k1).resolve_left hnz
      · exact (mul_eq_zero.1 k2).resolve_left hnz
    have h18 : (18 : ℝ) ∈ realEigs _ s.kff := by
      rw [realEigs_sound _ _ hsym]
      refine ⟨fun _ => 1, ?_, ?_⟩
      · intro h
        have := congrFun h ⟨0, by simp [hfree]⟩
        simp at this
      · obtain ⟨m0, m1⟩ := hmat fun _ => 1
        ext ⟨c, hc⟩
        have : c < 2 := by simpa [hfree] using hc
        interval_cases c
        · rw [m0]; norm_num
        · rw [m1]; norm_num
    unfold System.checkStability
    rw [if_neg (by simp [hfree])]
    set ev := (realEigs _ s.kff).map fun x => |x| with hev
    have hb : ∀ v ∈ ev, 6 ≤ v ∧ v ≤ 18 := by
      intro v hv
      obtain ⟨l, hl, rfl⟩ := List.mem_map.1 hv
      rcases hmem l hl with h | h <;> subst h <;> norm_num
    have hne : ev ≠ [] := by
      intro h
      have : |(18 : ℝ)| ∈ ev := List.mem_map.2 ⟨18, h18, rfl⟩
      rw [h] at this
      cases this
    obtain ⟨mx, hmx⟩ : ∃ mx, ev.max? = some mx :=
      Option.ne_none_iff_exists'.1 (by simpa [List.max?_eq_none_iff] using hne)
    obtain ⟨mn, hmn⟩ : ∃ mn, ev.min? = some mn :=
      Option.ne_none_iff_exists'.1 (by simpa [List.min?_eq_none_iff] using hne)
    have b1 := hb mx (List.max?_mem hmx)
    have b2 := hb mn (List.min?_mem hmn)
    simp only [hmx, hmn, decide_eq_true_eq, not_or, not_lt]
    refine ⟨by linarith [b1.1], ?_⟩
    rw [le_div_iff₀ (by linarith [b1.1])]
    unfold stabilityRcond
    norm_num
    linarith [b1.2, b2.1]
  exact ⟨s, hs, hcheck, (C23_accepted_unique _ s hs realEigs realEigs_sound hcheck).1⟩

/-- C77 at the simple span: pins at both ends. -/
example (s : System ℝ) (hs : exSimpleReal.system = .ok s) : s.Nonsingular :=
  C77_adequate_supports exSimpleReal (by simp [exSimpleReal, Member.Good, Rigidity.Good]) s hs 0 1
    (by simp) (by simp [exSimpleReal]) (by simp [exSimpleReal]) (Or.inl (by simp [exSimpleReal]))

end PyCBA
