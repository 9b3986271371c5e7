import Verif.Modal.Refine

/-!
C106: the natural frequencies of beams compared - stiffer spans, lighter masses, more
supports and coarser meshes never lower a frequency - and the zero frequencies.
-/

set_option linter.unusedSectionVars false
set_option linter.unusedSimpArgs false

namespace PyCBA

open Matrix Finset

/-! ## What a completed modal analysis is -/

/-- The degree of freedom is held rigidly by a support of the modal analysis. -/
def RigidDof (N : ℕ) (rs : List ℝ) (nseg p : ℕ) : Prop :=
  ∃ P < 2 * N + 2, p = meshDof nseg P ∧ rs.getD P 0 = -1

/-- The assembled problem behind a completed modal analysis and its full solution. -/
structure ModalSolved (b : BeamDef ℝ) (nModes nseg : ℕ) (res : ModalResult ℝ) (EIs ms : List ℝ)
    (free : List ℕ) (lam : Fin free.length → ℝ) (v : Fin free.length → Fin free.length → ℝ) :
    Prop where
  nseg_pos : 0 < nseg
  lenE : EIs.length = b.members.length
  lenM : ms.length = b.members.length
  posE : ∀ e ∈ EIs, 0 < e
  posM : ∀ m ∈ ms, 0 < m
  free_eq : free = (List.range (2 * (b.members.length * nseg + 1))).filter fun p =>
    p ∉ (modalK EIs (b.members.map Member.L) b.restraints nseg).2
  free_mem : ∀ p, p ∈ free ↔ p < 2 * (b.members.length * nseg + 1) ∧
    ¬ RigidDof b.members.length b.restraints nseg p
  basis : EigBasis (subMatrix free (modalK EIs (b.members.map Member.L) b.restraints nseg).1)
    (subMatrix free (modalM ms (b.members.map Member.L) nseg)) lam v
  mass_pos : ∀ x : Fin free.length → ℝ, x ≠ 0 →
    0 < x ⬝ᵥ (subMatrix free (modalM ms (b.members.map Member.L) nseg) *ᵥ x)
  stiff_nonneg : ∀ x : Fin free.length → ℝ,
    0 ≤ x ⬝ᵥ (subMatrix free (modalK EIs (b.members.map Member.L) b.restraints nseg).1 *ᵥ x)
  len : res.modes.length = min nModes free.length
  mode : ∀ (k : ℕ) (hk : k < res.modes.length) (hk' : k < free.length),
    res.modes[k] = ⟨Real.sqrt (max (lam ⟨k, hk'⟩) 0), spread free (v ⟨k, hk'⟩)⟩

theorem solveModal_solved {b : BeamDef ℝ} {mass : MassArg ℝ} {nModes nseg : ℕ} {eigh : Eigh ℝ}
    (hS : eigh.Sound) {res : ModalResult ℝ} (h : solveModal b mass nModes nseg eigh = .ok res)
    (hne : b.members ≠ []) (hL : ∀ m ∈ b.members, 0 < m.L)
    (hE : ∀ m ∈ b.members, ∀ e, m.EI = .const e → 0 < e)
    (hm : ∀ ms, broadcastMass mass b.members.length = .ok ms → ∀ m ∈ ms, 0 < m) :
    ∃ EIs ms free lam v, mapE modalEI b.members = .ok EIs ∧
      broadcastMass mass b.members.length = .ok ms ∧
      ModalSolved b nModes nseg res EIs ms free lam v := by
  unfold solveModal at h
  split at h
  · cases h
  rename_i EIs hEIs
  split at h
  · cases h
  rename_i ms hms
  split at h
  · cases h
  rename_i hns
  have hn : 0 < nseg := by
    rcases Nat.eq_zero_or_pos nseg with h0 | h0
    · exact absurd ⟨h0, hne⟩ hns
    · exact h0
  split at h
  · cases h
  obtain ⟨e1, e2⟩ := mapE_ok hEIs
  have hlm : ms.length = b.members.length := by
    unfold broadcastMass at hms
    split at hms
    · cases hms; simp
    · split at hms
      · cases hms
      · rename_i hl
        cases hms
        simpa using hl
  set Ls := b.members.map Member.L with hLs
  have hlL : Ls.length = b.members.length := by simp [hLs]
  have hLpos : ∀ l ∈ Ls, 0 < l := by
    intro l hl
    obtain ⟨m, hm, rfl⟩ := List.mem_map.1 hl
    exact hL m hm
  have hEpos : ∀ e ∈ EIs, 0 < e := by
    intro e he
    obtain ⟨i, hi, rfl⟩ := List.mem_iff_getElem.1 he
    exact hE _ (List.getElem_mem (by omega : i < b.members.length)) _ (modalEI_ok (e2 i (by omega) hi)).1
  have hmpos := hm ms hms
  have hms0 : ms ≠ [] := by
    intro h0
    rw [h0] at hlm
    exact hne (List.length_eq_zero_iff.1 hlm.symm)
  set N := 2 * (b.members.length * nseg + 1) with hN
  set KM := modalK EIs Ls b.restraints nseg with hKM
  set MM := modalM ms Ls nseg with hMM
  have hfix := (modalK_eq EIs Ls b.restraints hn).2
  rw [← hKM, e1] at hfix
  simp only at h
  set free := modalFree b.members.length nseg KM.2 with hfree
  have hfree' : free = (List.range N).filter fun p => p ∉ KM.2 := by
    rw [hfree]; rfl
  have hmem : ∀ p, p ∈ free ↔ p < N ∧ p ∉ KM.2 := by
    intro p
    rw [hfree', List.mem_filter]
    simp
  have hnd : free.Nodup := by
    rw [hfree']
    exact List.Nodup.filter _ List.nodup_range
  have symK : (subMatrix free KM.1).transpose = subMatrix free KM.1 := by
    ext a c
    simp only [subMatrix, transpose_apply, of_apply]
    refine modalK_symm EIs Ls b.restraints hn hLpos (by omega) _ _ ?_ ?_
    · rw [e1]; exact ((hmem _).1 (List.getElem_mem _)).1
    · rw [e1]; exact ((hmem _).1 (List.getElem_mem _)).1
  have symM : (subMatrix free MM).transpose = subMatrix free MM := by
    ext a c
    simp only [subMatrix, transpose_apply, of_apply]
    refine modalM_symm ms Ls nseg _ _ ?_ ?_
    · rw [hlm]; exact ((hmem _).1 (List.getElem_mem _)).1
    · rw [hlm]; exact ((hmem _).1 (List.getElem_mem _)).1
  split at h
  · cases h
  rename_i wv hwv
  obtain ⟨s1, s2, s3, s4⟩ := hS _ _ _ _ symK symM hwv
  cases h
  refine ⟨EIs, ms, free, fun i => (wv[i]'(by omega)).1, fun i => (wv[i]'(by omega)).2, hEIs, hms,
    hn, e1, hlm, hEpos, hmpos, hfree', ?_, ?_, ?_, ?_, ?_, ?_⟩
  · intro p
    rw [hmem, hfix]
    rfl
  · refine ⟨fun i => (s2 _ (List.getElem_mem _)).2, ?_, ?_, fun i => (s2 _ (List.getElem_mem _)).1⟩
    · intro i j hij
      rcases eq_or_lt_of_le hij with rfl | hlt
      · exact le_rfl
      · have := List.pairwise_iff_getElem.1 s3 i j (by rw [List.length_map]; omega)
          (by rw [List.length_map]; omega) hlt
        simpa using this
    · intro i j hij
      rcases lt_or_gt_of_ne hij with hlt | hgt
      · exact List.pairwise_iff_getElem.1 s4 i j (by omega) (by omega) hlt
      · have := List.pairwise_iff_getElem.1 s4 j i (by omega) (by omega) hgt
        rw [dotProduct_mulVec, ← Matrix.mulVec_transpose, symM, dotProduct_comm]
        exact this
  · intro x hx
    rw [← spread_dot N (fun p => p ∉ KM.2) MM free hfree' x x]
    obtain ⟨-, hMpos, -⟩ := C69_assembled_mass ms Ls nseg hn (by omega) hmpos hLpos hms0
    rw [hlm, ← hMM, ← hN] at hMpos
    apply hMpos
    obtain ⟨a, ha⟩ := Function.ne_iff.1 hx
    refine ⟨free[a], ((hmem _).1 (List.getElem_mem _)).1, ?_⟩
    rw [spread_mem hnd]
    exact ha
  · intro x
    rw [← spread_dot N (fun p => p ∉ KM.2) KM.1 free hfree' x x]
    have := modalK_nonneg EIs Ls b.restraints hn hLpos hEpos (by omega) (spread free x)
    rwa [e1] at this
  · simp only [List.length_take, List.length_map, s1]
  · intro k hk hk'
    simp only [List.getElem_take, List.getElem_map]
    rfl

/-- Displacements that vanish at the rigid supports are given by their free part. -/
theorem spread_restrict {free : List ℕ} {N : ℕ} (P : ℕ → Prop) [DecidablePred P]
    (hf : free = (List.range N).filter fun p => P p) (d : ℕ → ℝ) (hd : ∀ p < N, ¬ P p → d p = 0) :
    ∀ p < N, spread free (fun a => d free[a]) p = d p := by
  have hnd : free.Nodup := by rw [hf]; exact List.Nodup.filter _ List.nodup_range
  intro p hp
  by_cases h : P p
  · have : p ∈ free := by rw [hf, List.mem_filter]; simp [hp, h]
    obtain ⟨a, ha, rfl⟩ := List.mem_iff_getElem.1 this
    exact spread_mem hnd (fun a => d free[a]) ⟨a, ha⟩
  · rw [spread_not_mem, hd p hp h]
    rw [hf, List.mem_filter]
    simp [h]

theorem restrict_dot {free : List ℕ} {N : ℕ} (P : ℕ → Prop) [DecidablePred P]
    (hf : free = (List.range N).filter fun p => P p) (A : ℕ → ℕ → ℝ) (d : ℕ → ℝ)
    (hd : ∀ p < N, ¬ P p → d p = 0) :
    (fun a : Fin free.length => d free[a]) ⬝ᵥ (subMatrix free A *ᵥ fun a => d free[a])
      = ∑ p ∈ range N, d p * mulN N A d p := by
  have h := spread_restrict P hf d hd
  rw [← spread_dot N P A free hf]
  apply Finset.sum_congr rfl
  intro p hp
  rw [h p (Finset.mem_range.1 hp)]
  congr 1
  apply Finset.sum_congr rfl
  intro q hq
  rw [h q (Finset.mem_range.1 hq)]

/-! ## Elements -/

theorem kEbeam_scale (EI h : ℝ) (d : Vec4 ℝ) : energy (kEbeam EI h) d = EI * energy (kEbeam 1 h) d := by
  simp [energy, kEbeam, dotProduct, mulVec, Fin.sum_univ_four]
  ring

theorem mConsistent_scale (m h : ℝ) (d : Vec4 ℝ) :
    energy (mConsistent m h) d = m * energy (mConsistent 1 h) d := by
  have : mConsistent m h = m • mConsistent 1 h := by
    unfold mConsistent
    simp only
    rw [smul_smul]
    congr 1
    ring
  rw [this, energy, smul_mulVec, dotProduct_smul, smul_eq_mul, energy]

theorem kEbeam_one_nonneg {h : ℝ} (hh : 0 < h) (d : Vec4 ℝ) : 0 ≤ energy (kEbeam 1 h) d := by
  rw [kEbeam_eq _ hh.ne']
  exact kFF_nonneg one_pos hh d

theorem mConsistent_one_nonneg {h : ℝ} (hh : 0 < h) (d : Vec4 ℝ) : 0 ≤ energy (mConsistent 1 h) d := by
  by_cases hd : d = 0
  · subst hd; simp [energy]
  · exact ((C69_element_mass 1 h one_pos hh).2.1 d hd).le

/-! ## Comparison -/

/-- The second beam has the spans of the first, each at least as rigid, and at every degree of
freedom a support at least as stiff: rigid, or a spring at least as stiff where the first is
not rigid. -/
structure StifferBeam (b b' : BeamDef ℝ) : Prop where
  spans : List.Forall₂ (fun m m' : Member ℝ => m'.L = m.L ∧
    ∀ e e', m.EI = .const e → m'.EI = .const e' → e ≤ e') b.members b'.members
  supports : ∀ P < 2 * b.members.length + 2, b'.restraints.getD P 0 = -1 ∨
    (b.restraints.getD P 0 ≠ -1 ∧ max (b.restraints.getD P 0) 0 ≤ max (b'.restraints.getD P 0) 0)

theorem refineVec_meshDof {f : ℕ} (hf : 0 < f) (h d : ℕ → ℝ) (n P : ℕ) :
    refineVec f h d (meshDof (n * f) P) = d (meshDof n P) := by
  have h1 : meshDof (n * f) P = 2 * (P / 2 * n * f) + P % 2 := by
    rw [meshDof, Nat.mul_assoc (P / 2)]
  obtain ⟨a1, a2⟩ := refineVec_node hf h d (P / 2 * n)
  rw [h1, meshDof]
  have h2 : P % 2 = 0 ∨ P % 2 = 1 := by omega
  rcases h2 with h2 | h2
  · rw [h2, Nat.add_zero, Nat.add_zero, a1]
  · rw [h2, a2]

theorem elemVec_lin (d d' : ℕ → ℝ) (r : ℝ) (e : ℕ) :
    elemVec (fun p => d p + r * d' p) e = elemVec d e + r • elemVec d' e := by
  ext i
  fin_cases i <;> rfl

theorem refineVec_lin (f : ℕ) (h d d' : ℕ → ℝ) (r : ℝ) (p : ℕ) :
    refineVec f h (fun p => d p + r * d' p) p = refineVec f h d p + r * refineVec f h d' p := by
  simp only [refineVec, elemVec_lin]
  split
  · simp [cubV, cubC, cubE]; ring
  · simp [cubT, cubC, cubE]; ring

theorem refineVec_smul (f : ℕ) (h d : ℕ → ℝ) (r : ℝ) (p : ℕ) :
    refineVec f h (fun p => r * d p) p = r * refineVec f h d p := by
  have e : ∀ e, elemVec (fun p => r * d p) e = r • elemVec d e := by
    intro e; ext i; fin_cases i <;> rfl
  simp only [refineVec, e]
  split
  · simp [cubV, cubC, cubE]; ring
  · simp [cubT, cubC, cubE]; ring

theorem spread_smul (free : List ℕ) (x : Fin free.length → ℝ) (r : ℝ) :
    spread free (r • x) = fun p => r * spread free x p := by
  funext p
  simp only [spread]
  split <;> simp

theorem spread_lin (free : List ℕ) (x y : Fin free.length → ℝ) (r : ℝ) :
    spread free (x + r • y) = fun p => spread free x p + r * spread free y p := by
  funext p
  simp only [spread]
  split <;> simp

theorem getD_forall2 {α β : Type*} {R : α → β → Prop} {l : List α} {l' : List β}
    (h : List.Forall₂ R l l') (i : ℕ) (hi : i < l.length) (hi' : i < l'.length) : R l[i] l'[i] := by
  induction h generalizing i with
  | nil => simp at hi
  | cons h1 h2 ih =>
    cases i with
    | zero => exact h1
    | succ i => exact ih i (by simpa using hi) (by simpa using hi')

/-- **C106**: a beam with spans at least as rigid, masses at most as large and supports at
least as stiff, analysed with a mesh at most as fine (each of its elements is divided into `f`
for the other), has natural frequencies at least as high, mode by mode. -/
theorem C106_frequencies (b b' : BeamDef ℝ) (mass mass' : MassArg ℝ) (nModes nModes' n f : ℕ)
    (eigh eigh' : Eigh ℝ) (hS : eigh.Sound) (hS' : eigh'.Sound) (res res' : ModalResult ℝ)
    (h : solveModal b mass nModes (n * f) eigh = .ok res)
    (h' : solveModal b' mass' nModes' n eigh' = .ok res')
    (hne : b.members ≠ []) (hL : ∀ m ∈ b.members, 0 < m.L)
    (hE : ∀ m ∈ b.members, ∀ e, m.EI = .const e → 0 < e)
    (hm' : ∀ ms', broadcastMass mass' b'.members.length = .ok ms' → ∀ m ∈ ms', 0 < m)
    (hst : StifferBeam b b')
    (hmass : ∀ ms ms', broadcastMass mass b.members.length = .ok ms →
      broadcastMass mass' b'.members.length = .ok ms' → List.Forall₂ (fun m m' => m' ≤ m) ms ms')
    (k : ℕ) (hk : k < res.modes.length) (hk' : k < res'.modes.length) :
    res.modes[k].omega ≤ res'.modes[k].omega := by
  have hlen : b'.members.length = b.members.length := hst.spans.length_eq.symm
  have hLs : b'.members.map Member.L = b.members.map Member.L := by
    apply List.ext_getElem (by simp [hlen])
    intro i h1 h2
    simp only [List.length_map] at h1 h2
    simp only [List.getElem_map]
    exact (getD_forall2 hst.spans i h2 h1).1
  have hne' : b'.members ≠ [] := by
    intro h0
    rw [h0] at hlen
    exact hne (List.length_eq_zero_iff.1 hlen.symm)
  have hL' : ∀ m ∈ b'.members, 0 < m.L := by
    intro m hm
    obtain ⟨i, hi, rfl⟩ := List.mem_iff_getElem.1 hm
    rw [(getD_forall2 hst.spans i (by omega) hi).1]
    exact hL _ (List.getElem_mem _)
  -- the masses of the first beam are positive as well
  have hmb : ∀ ms', broadcastMass mass' b'.members.length = .ok ms' →
      ∀ ms, broadcastMass mass b.members.length = .ok ms → ∀ m ∈ ms, 0 < m := by
    intro ms' hms' ms hms m hm
    have hF := hmass ms ms' hms hms'
    obtain ⟨i, hi, rfl⟩ := List.mem_iff_getElem.1 hm
    have hi' : i < ms'.length := by rw [← hF.length_eq]; exact hi
    exact (hm' ms' hms' _ (List.getElem_mem hi')).trans_le (getD_forall2 hF i hi hi')
  have hpre' : ∃ EIs', mapE modalEI b'.members = .ok EIs' ∧
      ∃ ms', broadcastMass mass' b'.members.length = .ok ms' := by
    unfold solveModal at h'
    split at h'
    · cases h'
    rename_i EIs' hEIs'
    split at h'
    · cases h'
    rename_i ms' hms'
    exact ⟨EIs', hEIs', ms', hms'⟩
  have hpre : ∃ EIs, mapE modalEI b.members = .ok EIs := by
    unfold solveModal at h
    split at h
    · cases h
    rename_i EIs hEIs
    exact ⟨EIs, hEIs⟩
  obtain ⟨EIs0', hE0', ms0', hms0'⟩ := hpre'
  obtain ⟨EIs0, hE0⟩ := hpre
  have hE' : ∀ m ∈ b'.members, ∀ e, m.EI = .const e → 0 < e := by
    intro m hm e' he'
    obtain ⟨i, hi, rfl⟩ := List.mem_iff_getElem.1 hm
    have hi' : i < b.members.length := by omega
    obtain ⟨a1, a2⟩ := mapE_ok hE0
    have a3 := (modalEI_ok (a2 i hi' (by omega))).1
    exact (hE _ (List.getElem_mem hi') _ a3).trans_le
      ((getD_forall2 hst.spans i hi' hi).2 _ _ a3 he')
  obtain ⟨EIs, ms, free, lam, v, q1, q2, S⟩ := solveModal_solved hS h hne hL hE (hmb ms0' hms0')
  obtain ⟨EIs', ms', free', lam', v', q1', q2', S'⟩ := solveModal_solved hS' h' hne' hL' hE' hm'
  have hkf : k < free.length := by have := S.len; omega
  have hkf' : k < free'.length := by have := S'.len; omega
  rw [S.mode k hk hkf, S'.mode k hk' hkf']
  apply Real.sqrt_le_sqrt
  apply max_le_max _ le_rfl
  have hn : 0 < n := S'.nseg_pos
  have hf : 0 < f := Nat.pos_of_ne_zero fun h0 => by have := S.nseg_pos; simp [h0] at this
  have hn' : (0 : ℝ) < n := by exact_mod_cast hn
  set Ls := b.members.map Member.L with hLsd
  set N := b.members.length with hN
  have hlL : Ls.length = N := by simp [hLsd, hN]
  have hLpos : ∀ l ∈ Ls, 0 < l := by
    intro l hl
    obtain ⟨m, hm, rfl⟩ := List.mem_map.1 hl
    exact hL m hm
  have lE := S.lenE
  have lE' := S'.lenE
  have lM := S.lenM
  have lM' := S'.lenM
  rw [← hN] at lE lM
  rw [hlen] at lE' lM'
  -- rigidities and masses compared
  have cE : ∀ i < N, EIs.getD i 0 ≤ EIs'.getD i 0 := by
    intro i hi
    have hiE : i < EIs.length := by omega
    have hiE' : i < EIs'.length := by omega
    rw [List.getD_eq_getElem?_getD, List.getElem?_eq_getElem hiE, Option.getD_some,
      List.getD_eq_getElem?_getD, List.getElem?_eq_getElem hiE', Option.getD_some]
    obtain ⟨a1, a2⟩ := mapE_ok q1
    obtain ⟨c1, c2⟩ := mapE_ok q1'
    exact (getD_forall2 hst.spans i hi (by omega)).2 _ _ (modalEI_ok (a2 i hi hiE)).1
      (modalEI_ok (c2 i (by omega) hiE')).1
  have cM : ∀ i < N, ms'.getD i 0 ≤ ms.getD i 0 := by
    intro i hi
    have hiE : i < ms.length := by omega
    have hiE' : i < ms'.length := by omega
    rw [List.getD_eq_getElem?_getD, List.getElem?_eq_getElem hiE', Option.getD_some,
      List.getD_eq_getElem?_getD, List.getElem?_eq_getElem hiE, Option.getD_some]
    exact getD_forall2 (hmass ms ms' q2 q2') i hiE hiE'
  have hpos : ∀ e < N * n, 0 < Ls.getD (e / n) 0 / (n : ℝ) := by
    intro e he
    exact div_pos (getD_pos hLpos (by rw [hlL]; exact div_lt_spans he)) hn'
  have fe := S.free_eq
  have fm := S.free_mem
  have fe' := S'.free_eq
  have fm' := S'.free_mem
  have bas := S.basis
  have mp := S.mass_pos
  have bas' := S'.basis
  have mp' := S'.mass_pos
  have sn' := S'.stiff_nonneg
  rw [hlen, hLs] at fe'
  rw [hlen] at fm'
  rw [hLs] at bas' mp' sn'
  -- the displacements of the coarse mesh on the fine mesh
  let E : (Fin free'.length → ℝ) →ₗ[ℝ] (Fin free.length → ℝ) :=
    { toFun := fun x a => refineVec f (elemLen Ls n) (spread free' x) free[a]
      map_add' := by
        intro x y
        funext a
        have h1 := spread_lin free' x y 1
        rw [one_smul] at h1
        change refineVec f (elemLen Ls n) (spread free' (x + y)) _ = _
        rw [h1, refineVec_lin, one_mul]
        rfl
      map_smul' := by
        intro r x
        funext a
        simp only [spread_smul, refineVec_smul, Pi.smul_apply, smul_eq_mul, RingHom.id_apply] }
  have hvan : ∀ x : Fin free'.length → ℝ, ∀ p < 2 * (N * (n * f) + 1),
      ¬ (p ∉ (modalK EIs Ls b.restraints (n * f)).2) →
      refineVec f (elemLen Ls n) (spread free' x) p = 0 := by
    intro x p hp hnp
    have hnf : p ∉ free := by rw [fe, List.mem_filter]; simpa using fun _ => not_not.1 hnp
    rw [fm] at hnf
    obtain ⟨P, hP, rfl, hr⟩ : RigidDof N b.restraints (n * f) p := by
      by_contra hcon
      exact hnf ⟨hp, hcon⟩
    rw [refineVec_meshDof hf]
    apply spread_not_mem
    rw [fm']
    rintro ⟨-, hcon⟩
    rcases hst.supports P hP with hr' | ⟨hr', -⟩
    · exact hcon ⟨P, hP, rfl, hr'⟩
    · exact hr' hr
  have formE : ∀ (A : ℕ → ℕ → ℝ) (x : Fin free'.length → ℝ), E x ⬝ᵥ (subMatrix free A *ᵥ E x)
      = ∑ p ∈ range (2 * (N * (n * f) + 1)), refineVec f (elemLen Ls n) (spread free' x) p
        * mulN (2 * (N * (n * f) + 1)) A (refineVec f (elemLen Ls n) (spread free' x)) p := by
    intro A x
    exact restrict_dot _ fe A _ (hvan x)
  have hK : ∀ x, E x ⬝ᵥ (subMatrix free (modalK EIs Ls b.restraints (n * f)).1 *ᵥ E x)
      ≤ x ⬝ᵥ (subMatrix free' (modalK EIs' Ls b'.restraints n).1 *ᵥ x) := by
    intro x
    rw [formE, ← spread_dot _ _ _ free' fe' x x]
    have r1 := modalK_refine EIs Ls b.restraints hn hf (fun l hl => (hLpos l hl).ne') (by omega)
      (spread free' x)
    have r2 := modalK_energy EIs Ls b.restraints hn (spread free' x)
    have r3 := modalK_energy EIs' Ls b'.restraints hn (spread free' x)
    rw [lE] at r1 r2
    rw [lE'] at r3
    rw [r1, r2, r3]
    apply add_le_add
    · apply Finset.sum_le_sum
      intro e he
      have he := Finset.mem_range.1 he
      rw [kEbeam_scale, kEbeam_scale (EIs'.getD _ _)]
      exact mul_le_mul_of_nonneg_right (cE _ (div_lt_spans he)) (kEbeam_one_nonneg (hpos e he) _)
    · apply Finset.sum_le_sum
      intro P hP
      rcases hst.supports P (Finset.mem_range.1 hP) with hr | ⟨-, hr⟩
      · have : spread free' x (meshDof n P) = 0 := by
          apply spread_not_mem
          rw [fm']
          rintro ⟨-, hcon⟩
          exact hcon ⟨P, Finset.mem_range.1 hP, rfl, hr⟩
        rw [this]; simp
      · exact mul_le_mul_of_nonneg_right hr (sq_nonneg _)
  have hM : ∀ x, x ⬝ᵥ (subMatrix free' (modalM ms' Ls n) *ᵥ x)
      ≤ E x ⬝ᵥ (subMatrix free (modalM ms Ls (n * f)) *ᵥ E x) := by
    intro x
    rw [formE, ← spread_dot _ _ _ free' fe' x x]
    have r1 := modalM_refine ms Ls hn hf (fun l hl => (hLpos l hl).ne') (by omega)
      (spread free' x)
    have r2 := modalM_energy ms Ls n (spread free' x)
    have r3 := modalM_energy ms' Ls n (spread free' x)
    rw [lM] at r1 r2
    rw [lM'] at r3
    rw [r1, r2, r3]
    apply Finset.sum_le_sum
    intro e he
    have he := Finset.mem_range.1 he
    rw [mConsistent_scale, mConsistent_scale (ms.getD _ _)]
    exact mul_le_mul_of_nonneg_right (cM _ (div_lt_spans he)) (mConsistent_one_nonneg (hpos e he) _)
  refine eig_compare bas bas' mp mp' sn' E ?_ hK hM k hkf hkf'
  intro x hx
  by_contra hx0
  have h1 := mp' x hx0
  have h2 := hM x
  rw [hx] at h2
  simp only [Matrix.mulVec_zero, dotProduct_zero] at h2
  linarith

/-- **C106**, independence: the frequencies of a beam do not depend on the eigenvalue solver,
nor on how many are asked for. -/
theorem C106_unique (b : BeamDef ℝ) (mass : MassArg ℝ) (nModes nModes' n : ℕ)
    (eigh eigh' : Eigh ℝ) (hS : eigh.Sound) (hS' : eigh'.Sound) (res res' : ModalResult ℝ)
    (h : solveModal b mass nModes n eigh = .ok res)
    (h' : solveModal b mass nModes' n eigh' = .ok res')
    (hne : b.members ≠ []) (hL : ∀ m ∈ b.members, 0 < m.L)
    (hE : ∀ m ∈ b.members, ∀ e, m.EI = .const e → 0 < e)
    (hm : ∀ ms, broadcastMass mass b.members.length = .ok ms → ∀ m ∈ ms, 0 < m)
    (k : ℕ) (hk : k < res.modes.length) (hk' : k < res'.modes.length) :
    res.modes[k].omega = res'.modes[k].omega := by
  have hst : StifferBeam b b := by
    refine ⟨List.forall₂_same.2 fun m _ => ⟨rfl, ?_⟩, ?_⟩
    · intro e e' h1 h2
      rw [h1] at h2
      cases h2
      exact le_rfl
    · intro P _
      by_cases hr : b.restraints.getD P 0 = -1
      · exact .inl hr
      · exact .inr ⟨hr, le_rfl⟩
  have hmass : ∀ ms ms', broadcastMass mass b.members.length = .ok ms →
      broadcastMass mass b.members.length = .ok ms' → List.Forall₂ (fun m m' : ℝ => m' ≤ m) ms ms' := by
    intro ms ms' h1 h2
    rw [h1] at h2
    cases h2
    exact List.forall₂_same.2 fun m _ => le_rfl
  apply le_antisymm
  · exact C106_frequencies b b mass mass nModes nModes' n 1 eigh eigh' hS hS' res res'
      (by rwa [Nat.mul_one]) h' hne hL hE hm hst hmass k hk hk'
  · exact C106_frequencies b b mass mass nModes' nModes n 1 eigh' eigh hS' hS res' res
      (by rwa [Nat.mul_one]) h hne hL hE hm hst hmass k hk' hk

/-! ## The lowest frequency -/

/-- Twice the strain energy of displacements of the mesh, springs included. -/
noncomputable def meshStrain (EIs Ls rs : List ℝ) (n : ℕ) (d : ℕ → ℝ) : ℝ :=
  (∑ e ∈ range (EIs.length * n),
    energy (kEbeam (EIs.getD (e / n) 0) (Ls.getD (e / n) 0 / n)) (elemVec d e))
  + ∑ P ∈ range (2 * EIs.length + 2), max (rs.getD P 0) 0 * d (meshDof n P) ^ 2

/-- Twice the kinetic energy of velocities of the mesh. -/
noncomputable def meshKinetic (ms Ls : List ℝ) (n : ℕ) (d : ℕ → ℝ) : ℝ :=
  ∑ e ∈ range (ms.length * n),
    energy (mConsistent (ms.getD (e / n) 0) (Ls.getD (e / n) 0 / n)) (elemVec d e)

theorem ModalSolved.strain {b : BeamDef ℝ} {nModes nseg : ℕ} {res : ModalResult ℝ} {EIs ms : List ℝ}
    {free : List ℕ} {lam : Fin free.length → ℝ} {v : Fin free.length → Fin free.length → ℝ}
    (S : ModalSolved b nModes nseg res EIs ms free lam v) (d : ℕ → ℝ)
    (hd : ∀ P < 2 * b.members.length + 2, b.restraints.getD P 0 = -1 → d (meshDof nseg P) = 0) :
    (fun a : Fin free.length => d free[a]) ⬝ᵥ
        (subMatrix free (modalK EIs (b.members.map Member.L) b.restraints nseg).1 *ᵥ
          fun a => d free[a])
      = meshStrain EIs (b.members.map Member.L) b.restraints nseg d ∧
    (fun a : Fin free.length => d free[a]) ⬝ᵥ
        (subMatrix free (modalM ms (b.members.map Member.L) nseg) *ᵥ fun a => d free[a])
      = meshKinetic ms (b.members.map Member.L) nseg d := by
  have hv : ∀ p < 2 * (b.members.length * nseg + 1),
      ¬ (p ∉ (modalK EIs (b.members.map Member.L) b.restraints nseg).2) → d p = 0 := by
    intro p hp hnp
    have := ((modalK_eq EIs (b.members.map Member.L) b.restraints S.nseg_pos).2 p).1 (not_not.1 hnp)
    obtain ⟨P, hP, rfl, hr⟩ := this
    rw [S.lenE] at hP
    exact hd P hP hr
  constructor
  · rw [restrict_dot _ S.free_eq _ d hv]
    have := modalK_energy EIs (b.members.map Member.L) b.restraints S.nseg_pos d
    rw [S.lenE] at this
    rw [this, meshStrain, S.lenE]
  · rw [restrict_dot _ S.free_eq _ d hv]
    have := modalM_energy ms (b.members.map Member.L) nseg d
    rw [S.lenM] at this
    rw [this, meshKinetic, S.lenM]

theorem ModalSolved.nonneg {b : BeamDef ℝ} {nModes nseg : ℕ} {res : ModalResult ℝ} {EIs ms : List ℝ}
    {free : List ℕ} {lam : Fin free.length → ℝ} {v : Fin free.length → Fin free.length → ℝ}
    (S : ModalSolved b nModes nseg res EIs ms free lam v) (i : Fin free.length) : 0 ≤ lam i := by
  have h1 := S.stiff_nonneg (v i)
  rw [S.basis.eq i, dotProduct_smul, smul_eq_mul] at h1
  exact nonneg_of_mul_nonneg_left h1 (S.mass_pos _ (S.basis.ne i))

/-- **C106**, Rayleigh: the square of the lowest frequency is the least ratio of strain to
kinetic energy of any displacements of the mesh that vanish at the rigid supports, and the
first mode attains it. -/
theorem C106_rayleigh (b : BeamDef ℝ) (mass : MassArg ℝ) (nModes nseg : ℕ) (eigh : Eigh ℝ)
    (hS : eigh.Sound) (res : ModalResult ℝ) (h : solveModal b mass nModes nseg eigh = .ok res)
    (hne : b.members ≠ []) (hL : ∀ m ∈ b.members, 0 < m.L)
    (hE : ∀ m ∈ b.members, ∀ e, m.EI = .const e → 0 < e)
    (hm : ∀ ms, broadcastMass mass b.members.length = .ok ms → ∀ m ∈ ms, 0 < m)
    (h0 : 0 < res.modes.length) :
    ∃ EIs ms, mapE modalEI b.members = .ok EIs ∧ broadcastMass mass b.members.length = .ok ms ∧
      (∀ d : ℕ → ℝ,
        (∀ P < 2 * b.members.length + 2, b.restraints.getD P 0 = -1 → d (meshDof nseg P) = 0) →
        res.modes[0].omega ^ 2 * meshKinetic ms (b.members.map Member.L) nseg d
          ≤ meshStrain EIs (b.members.map Member.L) b.restraints nseg d) ∧
      res.modes[0].omega ^ 2 * meshKinetic ms (b.members.map Member.L) nseg res.modes[0].phi
          = meshStrain EIs (b.members.map Member.L) b.restraints nseg res.modes[0].phi ∧
      (0 : ℝ) < meshKinetic ms (b.members.map Member.L) nseg res.modes[0].phi := by
  obtain ⟨EIs, ms, free, lam, v, q1, q2, S⟩ := solveModal_solved hS h hne hL hE hm
  refine ⟨EIs, ms, q1, q2, ?_⟩
  have hf0 : 0 < free.length := by have := S.len; omega
  have hsq : Real.sqrt (max (lam ⟨0, hf0⟩) 0) ^ 2 = lam ⟨0, hf0⟩ := by
    rw [Real.sq_sqrt (le_max_right _ _), max_eq_left (S.nonneg _)]
  rw [S.mode 0 h0 hf0]
  simp only [hsq]
  have hvan : ∀ P < 2 * b.members.length + 2, b.restraints.getD P 0 = -1 →
      spread free (v ⟨0, hf0⟩) (meshDof nseg P) = 0 := by
    intro P hP hr
    apply spread_not_mem
    rw [S.free_mem]
    rintro ⟨-, hcon⟩
    exact hcon ⟨P, hP, rfl, hr⟩
  have hnd : free.Nodup := by rw [S.free_eq]; exact List.Nodup.filter _ List.nodup_range
  have hback : (fun a : Fin free.length => spread free (v ⟨0, hf0⟩) free[a]) = v ⟨0, hf0⟩ :=
    funext fun a => spread_mem hnd _ a
  obtain ⟨m1, m2⟩ := S.strain _ hvan
  rw [hback] at m1 m2
  refine ⟨?_, ?_, ?_⟩
  · intro d hd
    obtain ⟨d1, d2⟩ := S.strain d hd
    rw [← d1, ← d2]
    exact S.basis.lower S.mass_pos ⟨0, hf0⟩ _ fun j hj => absurd hj (by simp [Fin.lt_def])
  · rw [← m1, ← m2, S.basis.eq, dotProduct_smul, smul_eq_mul]
  · exact (S.mass_pos _ (S.basis.ne _)).trans_eq m2

/-- An element without strain energy moves rigidly. -/
theorem kEbeam_rigid {c h : ℝ} (hc : 0 < c) (hh : 0 < h) (d : Vec4 ℝ)
    (h0 : energy (kEbeam c h) d = 0) : d 2 = d 0 + d 1 * h ∧ d 3 = d 1 := by
  obtain ⟨a1, a2⟩ := cub_start h d
  obtain ⟨c1, c2⟩ := cub_end hh.ne' d
  have hs := cub_strain c h d 0 hh.ne'
  have hd : ![cubV h d 0, cubT h d 0, cubV h d (0 + h), cubT h d (0 + h)] = d := by
    rw [zero_add, a1, a2, c1, c2]
    ext i
    fin_cases i <;> rfl
  rw [hd, h0] at hs
  have hz : (cubC h d + 3 / 2 * (cubE h d * h)) ^ 2 + 3 / 4 * (cubE h d * h) ^ 2 = 0 := by
    have : 4 * c * h * ((cubC h d + 3 / 2 * (cubE h d * h)) ^ 2 + 3 / 4 * (cubE h d * h) ^ 2) = 0 := by
      linear_combination -hs
    rcases mul_eq_zero.1 this with h1 | h1
    · exact absurd h1 (by positivity)
    · exact h1
  have z1 : cubE h d * h = 0 := by
    have := sq_nonneg (cubC h d + 3 / 2 * (cubE h d * h))
    have := sq_nonneg (cubE h d * h)
    exact pow_eq_zero_iff (two_ne_zero) |>.1 (by linarith)
  have z2 : cubC h d = 0 := by
    rw [z1] at hz
    simpa using hz
  have z3 : cubE h d = 0 := (mul_eq_zero.1 z1).resolve_right hh.ne'
  constructor
  · rw [← c1, cubV, z2, z3]; ring
  · rw [← c2, cubT, z2, z3]; ring

theorem rigid_energy (c h a t : ℝ) (hh : h ≠ 0) : energy (kEbeam c h) ![a, t, a + t * h, t] = 0 := by
  simp [energy, kEbeam, dotProduct, mulVec, Fin.sum_univ_four]
  field_simp
  ring

/-- Where the `j`-th support is along the beam. -/
noncomputable def supportAt (b : BeamDef ℝ) (j : ℕ) : ℝ := ((b.members.map Member.L).take j).sum

theorem supportAt_eq (b : BeamDef ℝ) {n : ℕ} (hn : 0 < n) {j : ℕ} (hj : j ≤ b.members.length) :
    ∑ i ∈ range (j * n), elemLen (b.members.map Member.L) n i = supportAt b j := by
  have hn' : (n : ℝ) ≠ 0 := by exact_mod_cast hn.ne'
  rw [sum_range_mul]
  have h1 : ∀ e ∈ range j, ∑ s ∈ range n, elemLen (b.members.map Member.L) n (e * n + s)
      = (b.members.map Member.L).getD e 0 := by
    intro e _
    have : ∀ s ∈ range n, elemLen (b.members.map Member.L) n (e * n + s)
        = (b.members.map Member.L).getD e 0 / n := by
      intro s hs
      rw [elemLen, (node_div (Finset.mem_range.1 hs)).1]
    rw [Finset.sum_congr rfl this, Finset.sum_const, card_range, nsmul_eq_mul]
    field_simp
  rw [Finset.sum_congr rfl h1, supportAt]
  induction j with
  | zero => simp
  | succ j ih =>
    have hlt : j < (b.members.map Member.L).length := by rw [List.length_map]; omega
    rw [Finset.sum_range_succ, ih (by omega) fun e he => h1 e (by
      simp only [Finset.mem_range] at he ⊢; omega), List.sum_take_succ _ _ hlt,
      List.getD_eq_getElem?_getD, List.getElem?_eq_getElem hlt, Option.getD_some]

/-- **C106**, zero frequencies: all reported frequencies are positive exactly if the supports -
rigid or elastic - prevent every rigid motion of the beam. -/
theorem C106_positive (b : BeamDef ℝ) (mass : MassArg ℝ) (nModes nseg : ℕ) (eigh : Eigh ℝ)
    (hS : eigh.Sound) (res : ModalResult ℝ) (h : solveModal b mass nModes nseg eigh = .ok res)
    (hne : b.members ≠ []) (hL : ∀ m ∈ b.members, 0 < m.L)
    (hE : ∀ m ∈ b.members, ∀ e, m.EI = .const e → 0 < e)
    (hm : ∀ ms, broadcastMass mass b.members.length = .ok ms → ∀ m ∈ ms, 0 < m)
    (h0 : 0 < res.modes.length) :
    (∀ md ∈ res.modes, 0 < md.omega) ↔
      ∀ a t : ℝ, (∀ j ≤ b.members.length,
          ((b.restraints.getD (2 * j) 0 = -1 ∨ 0 < b.restraints.getD (2 * j) 0) →
            a + t * supportAt b j = 0) ∧
          ((b.restraints.getD (2 * j + 1) 0 = -1 ∨ 0 < b.restraints.getD (2 * j + 1) 0) → t = 0)) →
        a = 0 ∧ t = 0 := by
  obtain ⟨EIs, ms, free, lam, v, q1, q2, S⟩ := solveModal_solved hS h hne hL hE hm
  have hn := S.nseg_pos
  have hn' : (0 : ℝ) < nseg := by exact_mod_cast hn
  have hLpos : ∀ l ∈ b.members.map Member.L, 0 < l := by
    intro l hl
    obtain ⟨m, hm, rfl⟩ := List.mem_map.1 hl
    exact hL m hm
  have hpos : ∀ e < b.members.length * nseg,
      0 < (b.members.map Member.L).getD (e / nseg) 0 / (nseg : ℝ) := by
    intro e he
    exact div_pos (getD_pos hLpos (by rw [List.length_map]; exact div_lt_spans he)) hn'
  constructor
  · intro hall a t hat
    by_contra hcon
    obtain ⟨EIs2, ms2, p1, p2, hR, -, -⟩ := C106_rayleigh b mass nModes nseg eigh hS res h hne hL hE hm h0
    rw [q1] at p1
    rw [q2] at p2
    cases p1; cases p2
    -- the rigid motion on the mesh
    let x : ℕ → ℝ := fun q => ∑ i ∈ range q, elemLen (b.members.map Member.L) nseg i
    let d : ℕ → ℝ := fun p => if p % 2 = 0 then a + t * x (p / 2) else t
    have hdE : ∀ q, d (2 * q) = a + t * x q := by
      intro q
      have e1 : 2 * q % 2 = 0 := by omega
      have e2 : 2 * q / 2 = q := by omega
      simp only [d, e1, e2, if_true]
    have hdO : ∀ q, d (2 * q + 1) = t := by
      intro q
      have e1 : (2 * q + 1) % 2 ≠ 0 := by omega
      simp only [d, if_neg e1]
    have hdP : ∀ P < 2 * b.members.length + 2,
        (b.restraints.getD P 0 = -1 ∨ 0 < b.restraints.getD P 0) → d (meshDof nseg P) = 0 := by
      intro P hP hr
      obtain ⟨g1, g2⟩ := hat (P / 2) (by omega)
      have hx : x (P / 2 * nseg) = supportAt b (P / 2) := supportAt_eq b hn (by omega)
      rw [meshDof]
      have h2 : P % 2 = 0 ∨ P % 2 = 1 := by omega
      rcases h2 with h2 | h2
      · rw [h2, Nat.add_zero, hdE, hx]
        exact g1 (by rwa [show 2 * (P / 2) = P by omega])
      · rw [h2, hdO]
        exact g2 (by rwa [show 2 * (P / 2) + 1 = P by omega])
    have hR := hR d fun P hP hr => hdP P hP (.inl hr)
    have hstr : meshStrain EIs (b.members.map Member.L) b.restraints nseg d = 0 := by
      rw [meshStrain, S.lenE]
      have z1 : ∀ e ∈ range (b.members.length * nseg), energy (kEbeam (EIs.getD (e / nseg) 0)
          ((b.members.map Member.L).getD (e / nseg) 0 / nseg)) (elemVec d e) = 0 := by
        intro e he
        have := hpos e (Finset.mem_range.1 he)
        have hx : x (e + 1) = x e + (b.members.map Member.L).getD (e / nseg) 0 / nseg :=
          Finset.sum_range_succ _ _
        have : elemVec d e = ![a + t * x e, t,
            a + t * x e + t * ((b.members.map Member.L).getD (e / nseg) 0 / nseg), t] := by
          rw [elemVec_eq, hdE, hdO, hdE, hdO, hx]
          congr 3
          ring
        rw [this]
        exact rigid_energy _ _ _ _ (hpos e (Finset.mem_range.1 he)).ne'
      have z2 : ∀ P ∈ range (2 * b.members.length + 2),
          max (b.restraints.getD P 0) 0 * d (meshDof nseg P) ^ 2 = 0 := by
        intro P hP
        by_cases hr : 0 < b.restraints.getD P 0
        · rw [hdP P (Finset.mem_range.1 hP) (.inr hr)]; simp
        · rw [max_eq_right (not_lt.1 hr), zero_mul]
      rw [Finset.sum_eq_zero z1, Finset.sum_eq_zero z2, add_zero]
    have hkin : 0 < meshKinetic ms (b.members.map Member.L) nseg d := by
      have hms0 : ms ≠ [] := by
        intro h0
        have := S.lenM
        rw [h0] at this
        exact hne (List.length_eq_zero_iff.1 this.symm)
      obtain ⟨-, hMpos, -⟩ := C69_assembled_mass ms (b.members.map Member.L) nseg hn
        (by rw [List.length_map, S.lenM]) S.posM hLpos hms0
      have := hMpos d ?_
      · rwa [modalM_energy] at this
      · by_cases ht : t = 0
        · refine ⟨0, by omega, ?_⟩
          have := hdE 0
          rw [Nat.mul_zero] at this
          rw [this, ht, zero_mul, add_zero]
          exact fun ha => hcon ⟨ha, ht⟩
        · exact ⟨1, by omega, by have := hdO 0; rw [this]; exact ht⟩
    have hw := hall _ (List.getElem_mem h0)
    rw [hstr] at hR
    have := mul_pos (pow_pos hw 2) hkin
    linarith
  · intro hat md hmd
    obtain ⟨k, hk, rfl⟩ := List.mem_iff_getElem.1 hmd
    have hkf : k < free.length := by have := S.len; omega
    rw [S.mode k hk hkf]
    simp only
    rw [Real.sqrt_pos]
    apply lt_max_of_lt_left
    rcases (S.nonneg ⟨k, hkf⟩).lt_or_eq with hlt | hz
    · exact hlt
    exfalso
    set d := spread free (v ⟨k, hkf⟩) with hd
    have hvan : ∀ P < 2 * b.members.length + 2, b.restraints.getD P 0 = -1 →
        d (meshDof nseg P) = 0 := by
      intro P hP hr
      apply spread_not_mem
      rw [S.free_mem]
      rintro ⟨-, hcon⟩
      exact hcon ⟨P, hP, rfl, hr⟩
    have hnd : free.Nodup := by rw [S.free_eq]; exact List.Nodup.filter _ List.nodup_range
    have hback : (fun a : Fin free.length => d free[a]) = v ⟨k, hkf⟩ :=
      funext fun a => spread_mem hnd _ a
    obtain ⟨m1, -⟩ := S.strain d hvan
    rw [hback, S.basis.eq, ← hz, zero_smul, dotProduct_zero, meshStrain, S.lenE] at m1
    have n1 : ∀ e ∈ range (b.members.length * nseg), 0 ≤ energy (kEbeam (EIs.getD (e / nseg) 0)
        ((b.members.map Member.L).getD (e / nseg) 0 / nseg)) (elemVec d e) := by
      intro e he
      have he := Finset.mem_range.1 he
      rw [kEbeam_eq _ (hpos e he).ne']
      exact kFF_nonneg (getD_pos S.posE (by rw [S.lenE]; exact div_lt_spans he)) (hpos e he) _
    have n2 : ∀ P ∈ range (2 * b.members.length + 2),
        0 ≤ max (b.restraints.getD P 0) 0 * d (meshDof nseg P) ^ 2 := by
      intro P _
      exact mul_nonneg (le_max_right _ _) (sq_nonneg _)
    have s1 := Finset.sum_nonneg n1
    have s2 := Finset.sum_nonneg n2
    have t1 := (Finset.sum_eq_zero_iff_of_nonneg n1).1 (by linarith)
    have t2 := (Finset.sum_eq_zero_iff_of_nonneg n2).1 (by linarith)
    let x : ℕ → ℝ := fun q => ∑ i ∈ range q, elemLen (b.members.map Member.L) nseg i
    have rig : ∀ q ≤ b.members.length * nseg, d (2 * q) = d 0 + d 1 * x q ∧ d (2 * q + 1) = d 1 := by
      intro q
      induction q with
      | zero => intro _; simp [x]
      | succ q ih =>
        intro hq
        obtain ⟨i1, i2⟩ := ih (by omega)
        have he : q < b.members.length * nseg := by omega
        obtain ⟨r1, r2⟩ := kEbeam_rigid
          (getD_pos S.posE (by rw [S.lenE]; exact div_lt_spans he)) (hpos q he) _
          (t1 q (Finset.mem_range.2 he))
        have hx : x (q + 1) = x q + (b.members.map Member.L).getD (q / nseg) 0 / nseg :=
          Finset.sum_range_succ _ _
        rw [elemVec_eq] at r1 r2
        have r1 : d (2 * (q + 1)) = d (2 * q) + d (2 * q + 1) *
          ((b.members.map Member.L).getD (q / nseg) 0 / nseg) := r1
        have r2 : d (2 * (q + 1) + 1) = d (2 * q + 1) := r2
        rw [r1, r2, i1, i2, hx]
        exact ⟨by ring, rfl⟩
    have hsup : ∀ P < 2 * b.members.length + 2,
        (b.restraints.getD P 0 = -1 ∨ 0 < b.restraints.getD P 0) → d (meshDof nseg P) = 0 := by
      intro P hP hr
      rcases hr with hr | hr
      · exact hvan P hP hr
      · have := t2 P (Finset.mem_range.2 hP)
        rw [max_eq_left hr.le] at this
        exact pow_eq_zero_iff two_ne_zero |>.1 ((mul_eq_zero.1 this).resolve_left hr.ne')
    have hle : ∀ j ≤ b.members.length, j * nseg ≤ b.members.length * nseg :=
      fun j hj => Nat.mul_le_mul_right _ hj
    obtain ⟨z0, z1⟩ := hat (d 0) (d 1) (by
      intro j hj
      obtain ⟨r1, r2⟩ := rig (j * nseg) (hle j hj)
      have hx : x (j * nseg) = supportAt b j := supportAt_eq b hn hj
      rw [hx] at r1
      constructor
      · intro hr
        have := hsup (2 * j) (by omega) hr
        rw [meshDof, show 2 * j / 2 = j by omega, show 2 * j % 2 = 0 by omega, Nat.add_zero, r1] at this
        exact this
      · intro hr
        have := hsup (2 * j + 1) (by omega) hr
        rw [meshDof, show (2 * j + 1) / 2 = j by omega, show (2 * j + 1) % 2 = 1 by omega, r2] at this
        exact this)
    apply S.basis.ne ⟨k, hkf⟩
    rw [← hback]
    funext a
    have hlt := ((S.free_mem free[a]).1 (List.getElem_mem _)).1
    obtain ⟨r1, r2⟩ := rig (free[a] / 2) (by omega)
    rw [z0, z1] at r1
    rw [z1] at r2
    have h2 : free[a] % 2 = 0 ∨ free[a] % 2 = 1 := by omega
    rcases h2 with h2 | h2
    · have : 2 * (free[a] / 2) = free[a] := by omega
      rw [this] at r1
      simpa using r1
    · have : 2 * (free[a] / 2) + 1 = free[a] := by omega
      rw [this] at r2
      simpa using r2

end PyCBA
