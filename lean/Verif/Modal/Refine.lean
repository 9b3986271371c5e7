import Verif.Modal.Rayleigh

/-!
Refining the mesh of the modal analysis: the displacements of a mesh are displacements of
every finer mesh, with the same strain and kinetic energy (for C106).
-/

set_option linter.unusedSectionVars false
set_option linter.unusedSimpArgs false

namespace PyCBA

open Matrix Finset

variable {K : Type*} [Field K] [LinearOrder K] [IsStrictOrderedRing K]

/-- Coefficients of the square and the cube of the cubic with the end values `d` over a
length `h`. -/
def cubC (h : K) (d : Vec4 K) : K := 3 * (d 2 - d 0) / h ^ 2 - (2 * d 1 + d 3) / h
def cubE (h : K) (d : Vec4 K) : K := 2 * (d 0 - d 2) / h ^ 3 + (d 1 + d 3) / h ^ 2

/-- The cubic with the end deflections and slopes `d` over a length `h`, and its slope. -/
def cubV (h : K) (d : Vec4 K) (x : K) : K := d 0 + d 1 * x + cubC h d * x ^ 2 + cubE h d * x ^ 3
def cubT (h : K) (d : Vec4 K) (x : K) : K := d 1 + 2 * cubC h d * x + 3 * cubE h d * x ^ 2

theorem cub_start (h : K) (d : Vec4 K) : cubV h d 0 = d 0 ∧ cubT h d 0 = d 1 := by
  simp [cubV, cubT]

theorem cub_end {h : K} (hh : h ≠ 0) (d : Vec4 K) : cubV h d h = d 2 ∧ cubT h d h = d 3 := by
  constructor
  · simp only [cubV, cubC, cubE]; field_simp; ring
  · simp only [cubT, cubC, cubE]; field_simp; ring

/-- Strain energy of a piece of the cubic. -/
theorem cub_strain (EI h : K) (d : Vec4 K) (x : K) {g : K} (hg : g ≠ 0) :
    energy (kEbeam EI g) ![cubV h d x, cubT h d x, cubV h d (x + g), cubT h d (x + g)]
      = EI * (4 * cubC h d ^ 2 * (x + g) + 12 * cubC h d * cubE h d * (x + g) ^ 2
          + 12 * cubE h d ^ 2 * (x + g) ^ 3)
        - EI * (4 * cubC h d ^ 2 * x + 12 * cubC h d * cubE h d * x ^ 2
          + 12 * cubE h d ^ 2 * x ^ 3) := by
  simp only [cubV, cubT]
  generalize cubC h d = c
  generalize cubE h d = e
  simp [energy, kEbeam, dotProduct, mulVec, Fin.sum_univ_four]
  field_simp
  ring

/-- Kinetic energy of a piece of the cubic. -/
theorem cub_kinetic (m h : K) (d : Vec4 K) (x g : K) :
    energy (mConsistent m g) ![cubV h d x, cubT h d x, cubV h d (x + g), cubT h d (x + g)]
      = m * (d 0 ^ 2 * (x + g) + d 0 * d 1 * (x + g) ^ 2
          + (d 1 ^ 2 + 2 * d 0 * cubC h d) * (x + g) ^ 3 / 3
          + (2 * d 0 * cubE h d + 2 * d 1 * cubC h d) * (x + g) ^ 4 / 4
          + (cubC h d ^ 2 + 2 * d 1 * cubE h d) * (x + g) ^ 5 / 5
          + cubC h d * cubE h d * (x + g) ^ 6 / 3 + cubE h d ^ 2 * (x + g) ^ 7 / 7)
        - m * (d 0 ^ 2 * x + d 0 * d 1 * x ^ 2
          + (d 1 ^ 2 + 2 * d 0 * cubC h d) * x ^ 3 / 3
          + (2 * d 0 * cubE h d + 2 * d 1 * cubC h d) * x ^ 4 / 4
          + (cubC h d ^ 2 + 2 * d 1 * cubE h d) * x ^ 5 / 5
          + cubC h d * cubE h d * x ^ 6 / 3 + cubE h d ^ 2 * x ^ 7 / 7) := by
  simp only [cubV, cubT]
  generalize cubC h d = c
  generalize cubE h d = e
  generalize d 0 = a
  generalize d 1 = b
  simp [energy, mConsistent, dotProduct, mulVec, Fin.sum_univ_four]
  ring

/-- The displacements of a mesh with elements of lengths `h` as displacements of the mesh with
every element divided into `f`. -/
def refineVec (f : ℕ) (h : ℕ → K) (d : ℕ → K) (p : ℕ) : K :=
  let e := p / 2 / f
  let x := (p / 2 % f : ℕ) * (h e / f)
  if p % 2 = 0 then cubV (h e) (elemVec d e) x else cubT (h e) (elemVec d e) x

theorem refineVec_node {f : ℕ} (hf : 0 < f) (h d : ℕ → K) (j : ℕ) :
    refineVec f h d (2 * (j * f)) = d (2 * j) ∧
    refineVec f h d (2 * (j * f) + 1) = d (2 * j + 1) := by
  have e1 : 2 * (j * f) / 2 = j * f := by omega
  have e2 : (2 * (j * f) + 1) / 2 = j * f := by omega
  have e3 : 2 * (j * f) % 2 = 0 := by omega
  have e4 : (2 * (j * f) + 1) % 2 ≠ 0 := by omega
  obtain ⟨c1, c2⟩ := cub_start (h j) (elemVec d j)
  constructor
  · simp only [refineVec, e1, e3, Nat.mul_div_cancel _ hf, Nat.mul_mod_left, Nat.cast_zero, zero_mul,
      if_true, c1]
    simp [elemVec]
  · simp only [refineVec, e2, if_neg e4, Nat.mul_div_cancel _ hf, Nat.mul_mod_left, Nat.cast_zero,
      zero_mul, c2]
    simp [elemVec]

theorem refineVec_elem {f : ℕ} (hf : 0 < f) (h d : ℕ → K) (e : ℕ) (he : h e ≠ 0) (s : ℕ) (hs : s < f) :
    elemVec (refineVec f h d) (e * f + s)
      = ![cubV (h e) (elemVec d e) (s * (h e / f)), cubT (h e) (elemVec d e) (s * (h e / f)),
          cubV (h e) (elemVec d e) (s * (h e / f) + h e / f),
          cubT (h e) (elemVec d e) (s * (h e / f) + h e / f)] := by
  have hf' : (f : K) ≠ 0 := by exact_mod_cast hf.ne'
  obtain ⟨n1, n2⟩ := node_div (i := e) hs
  have at' : ∀ t, t < f → refineVec f h d (2 * (e * f + t)) = cubV (h e) (elemVec d e) (t * (h e / f)) ∧
      refineVec f h d (2 * (e * f + t) + 1) = cubT (h e) (elemVec d e) (t * (h e / f)) := by
    intro t ht
    obtain ⟨m1, m2⟩ := node_div (i := e) ht
    have e1 : 2 * (e * f + t) / 2 = e * f + t := by omega
    have e2 : (2 * (e * f + t) + 1) / 2 = e * f + t := by omega
    have e3 : 2 * (e * f + t) % 2 = 0 := by omega
    have e4 : (2 * (e * f + t) + 1) % 2 ≠ 0 := by omega
    constructor
    · simp only [refineVec, e1, e3, m1, m2, if_true]
    · simp only [refineVec, e2, if_neg e4, m1, m2]
  obtain ⟨a1, a2⟩ := at' s hs
  have step : (s : K) * (h e / f) + h e / f = (s + 1 : ℕ) * (h e / f) := by push_cast; ring
  have next : refineVec f h d (2 * (e * f + s + 1))
        = cubV (h e) (elemVec d e) ((s + 1 : ℕ) * (h e / f)) ∧
      refineVec f h d (2 * (e * f + s + 1) + 1)
        = cubT (h e) (elemVec d e) ((s + 1 : ℕ) * (h e / f)) := by
    by_cases hl : s + 1 < f
    · exact at' (s + 1) hl
    · have hsf : s + 1 = f := by omega
      have e1 : e * f + s + 1 = (e + 1) * f := by rw [Nat.succ_mul]; omega
      have e2 : ((s + 1 : ℕ) : K) * (h e / f) = h e := by rw [hsf]; field_simp
      obtain ⟨b1, b2⟩ := refineVec_node hf h d (e + 1)
      obtain ⟨c1, c2⟩ := cub_end he (elemVec d e)
      rw [e1, e2, b1, b2, c1, c2]
      constructor <;> rfl
  rw [elemVec_eq, a1, a2, step, next.1, next.2]

theorem sum_range_mul (F : ℕ → K) (A f : ℕ) :
    ∑ i ∈ range (A * f), F i = ∑ e ∈ range A, ∑ s ∈ range f, F (e * f + s) := by
  induction A with
  | zero => simp
  | succ A ih => rw [Nat.succ_mul, Finset.sum_range_add, ih, Finset.sum_range_succ]

/-- The energies of the refined displacements. -/
theorem refine_energy {f : ℕ} (hf : 0 < f) (h d : ℕ → K) (e : ℕ) (he : h e ≠ 0) (c : K) :
    ∑ s ∈ range f, energy (kEbeam c (h e / f)) (elemVec (refineVec f h d) (e * f + s))
      = energy (kEbeam c (h e)) (elemVec d e) ∧
    ∑ s ∈ range f, energy (mConsistent c (h e / f)) (elemVec (refineVec f h d) (e * f + s))
      = energy (mConsistent c (h e)) (elemVec d e) := by
  have hf' : (f : K) ≠ 0 := by exact_mod_cast hf.ne'
  have hg : h e / f ≠ 0 := div_ne_zero he hf'
  have step : ∀ s : ℕ, (s : K) * (h e / f) + h e / f = (s + 1 : ℕ) * (h e / f) := by
    intro s; push_cast; ring
  have last : (f : K) * (h e / f) = h e := by field_simp
  have whole : elemVec d e = ![cubV (h e) (elemVec d e) 0, cubT (h e) (elemVec d e) 0,
      cubV (h e) (elemVec d e) (0 + h e), cubT (h e) (elemVec d e) (0 + h e)] := by
    obtain ⟨a1, a2⟩ := cub_start (h e) (elemVec d e)
    obtain ⟨c1, c2⟩ := cub_end he (elemVec d e)
    rw [zero_add, a1, a2, c1, c2]
    ext i
    fin_cases i <;> rfl
  constructor
  · obtain ⟨G, hG⟩ : ∃ G : K → K, G = fun x => c * (4 * cubC (h e) (elemVec d e) ^ 2 * x
        + 12 * cubC (h e) (elemVec d e) * cubE (h e) (elemVec d e) * x ^ 2
        + 12 * cubE (h e) (elemVec d e) ^ 2 * x ^ 3) := ⟨_, rfl⟩
    have e0 : ∀ x g, g ≠ 0 → energy (kEbeam c g) ![cubV (h e) (elemVec d e) x,
        cubT (h e) (elemVec d e) x, cubV (h e) (elemVec d e) (x + g),
        cubT (h e) (elemVec d e) (x + g)] = G (x + g) - G x := by
      intro x g hg
      rw [cub_strain _ _ _ _ hg, hG]
    have e1 : ∀ s ∈ range f, energy (kEbeam c (h e / f)) (elemVec (refineVec f h d) (e * f + s))
        = G ((s + 1 : ℕ) * (h e / f)) - G ((s : ℕ) * (h e / f)) := by
      intro s hs
      rw [refineVec_elem hf h d e he s (Finset.mem_range.1 hs), e0 _ _ hg, step]
    rw [Finset.sum_congr rfl e1, Finset.sum_range_sub (fun t : ℕ => G (t * (h e / f)))]
    conv_rhs => rw [whole, e0 _ _ he]
    simp only [last, Nat.cast_zero, zero_mul, zero_add]
  · obtain ⟨G, hG⟩ : ∃ G : K → K, G = fun x => c * (elemVec d e 0 ^ 2 * x
          + elemVec d e 0 * elemVec d e 1 * x ^ 2
          + (elemVec d e 1 ^ 2 + 2 * elemVec d e 0 * cubC (h e) (elemVec d e)) * x ^ 3 / 3
          + (2 * elemVec d e 0 * cubE (h e) (elemVec d e)
              + 2 * elemVec d e 1 * cubC (h e) (elemVec d e)) * x ^ 4 / 4
          + (cubC (h e) (elemVec d e) ^ 2 + 2 * elemVec d e 1 * cubE (h e) (elemVec d e)) * x ^ 5 / 5
          + cubC (h e) (elemVec d e) * cubE (h e) (elemVec d e) * x ^ 6 / 3
          + cubE (h e) (elemVec d e) ^ 2 * x ^ 7 / 7) := ⟨_, rfl⟩
    have e0 : ∀ x g, energy (mConsistent c g) ![cubV (h e) (elemVec d e) x,
        cubT (h e) (elemVec d e) x, cubV (h e) (elemVec d e) (x + g),
        cubT (h e) (elemVec d e) (x + g)] = G (x + g) - G x := by
      intro x g
      rw [cub_kinetic, hG]
    have e1 : ∀ s ∈ range f, energy (mConsistent c (h e / f)) (elemVec (refineVec f h d) (e * f + s))
        = G ((s + 1 : ℕ) * (h e / f)) - G ((s : ℕ) * (h e / f)) := by
      intro s hs
      rw [refineVec_elem hf h d e he s (Finset.mem_range.1 hs), e0, step]
    rw [Finset.sum_congr rfl e1, Finset.sum_range_sub (fun t : ℕ => G (t * (h e / f)))]
    conv_rhs => rw [whole, e0]
    simp only [last, Nat.cast_zero, zero_mul, zero_add]

/-- A sum over the degrees of freedom of a mesh at the ends of the spans. -/
theorem sum_meshDof {n : ℕ} (hn : 0 < n) (N : ℕ) (F : ℕ → ℕ → K) :
    ∑ p ∈ range (2 * (N * n + 1)), (if p / 2 % n = 0 then F (2 * (p / 2 / n) + p % 2) p else 0)
      = ∑ P ∈ range (2 * N + 2), F P (meshDof n P) := by
  rw [← Finset.sum_filter]
  symm
  refine Finset.sum_nbij' (meshDof n) (fun p => 2 * (p / 2 / n) + p % 2) ?_ ?_ ?_ ?_ ?_
  · intro P hP
    have hP := Finset.mem_range.1 hP
    rw [Finset.mem_filter, Finset.mem_range]
    refine ⟨meshDof_lt hP, ?_⟩
    rw [(meshDof_parts n P).1]
    exact Nat.mul_mod_left _ _
  · intro p hp
    obtain ⟨h1, h2⟩ := Finset.mem_filter.1 hp
    have h1 := Finset.mem_range.1 h1
    rw [Finset.mem_range]
    have : p / 2 / n ≤ N := by
      apply Nat.div_le_of_le_mul
      rw [Nat.mul_comm]; omega
    omega
  · intro P hP
    obtain ⟨h1, h2⟩ := meshDof_parts n P
    simp only [h1, h2, Nat.mul_div_cancel _ hn]
    omega
  · intro p hp
    obtain ⟨h1, h2⟩ := Finset.mem_filter.1 hp
    have h3 : p / 2 / n * n = p / 2 := Nat.div_mul_cancel (Nat.dvd_of_mod_eq_zero h2)
    simp only [meshDof]
    have h4 : (2 * (p / 2 / n) + p % 2) / 2 = p / 2 / n := by omega
    have h5 : (2 * (p / 2 / n) + p % 2) % 2 = p % 2 := by omega
    rw [h4, h5, h3]
    omega
  · intro P hP
    obtain ⟨h1, h2⟩ := meshDof_parts n P
    have : 2 * (meshDof n P / 2 / n) + meshDof n P % 2 = P := by
      rw [h1, h2, Nat.mul_div_cancel _ hn]; omega
    simp only [this]

/-- The stiffness form of the modal analysis: strain energy of the elements and of the
springs. -/
theorem modalK_energy (EIs Ls rs : List K) {n : ℕ} (hn : 0 < n) (d : ℕ → K) :
    ∑ p ∈ range (2 * (EIs.length * n + 1)),
        d p * mulN (2 * (EIs.length * n + 1)) (modalK EIs Ls rs n).1 d p
      = (∑ e ∈ range (EIs.length * n),
          energy (kEbeam (EIs.getD (e / n) 0) (Ls.getD (e / n) 0 / n)) (elemVec d e))
        + ∑ P ∈ range (2 * EIs.length + 2), max (rs.getD P 0) 0 * d (meshDof n P) ^ 2 := by
  rw [(modalK_eq EIs Ls rs hn).1]
  have h := (meshSys EIs.length n
      (fun i => kEbeam (EIs.getD i 0) (Ls.getD i 0 / n)) fun P => rs.getD P 0).totalEnergy_eq d
  rw [meshSys_N] at h
  rw [← h, System.totalEnergy]
  congr 1
  rw [meshSys_N, ← sum_meshDof hn EIs.length fun P p => max (rs.getD P 0) 0 * d p ^ 2]
  apply Finset.sum_congr rfl
  intro p _
  simp only [System.spring, meshSys]
  by_cases h1 : p / 2 % n = 0
  · simp only [h1, if_true]
    by_cases h2 : 0 < rs.getD (2 * (p / 2 / n) + p % 2) 0
    · rw [if_pos h2, max_eq_left h2.le]
    · rw [if_neg h2, max_eq_right (not_lt.1 h2)]
  · simp [h1]

/-- Lengths of the elements of the mesh. -/
def elemLen (Ls : List K) (n e : ℕ) : K := Ls.getD (e / n) 0 / n

theorem fine_index {n f : ℕ} (e s : ℕ) (hs : s < f) : (e * f + s) / (n * f) = e / n := by
  rw [Nat.mul_comm n f, ← Nat.div_div_eq_div_mul, (node_div hs).1]

theorem elemLen_fine (Ls : List K) {n f : ℕ} (hf : 0 < f) (e s : ℕ) (hs : s < f) :
    Ls.getD ((e * f + s) / (n * f)) 0 / ((n * f : ℕ) : K) = elemLen Ls n e / f := by
  rw [fine_index e s hs, elemLen, Nat.cast_mul, div_div]

/-- The strain energy of a mesh is that of the finer mesh. -/
theorem modalK_refine (EIs Ls rs : List K) {n f : ℕ} (hn : 0 < n) (hf : 0 < f)
    (hL : ∀ x ∈ Ls, x ≠ 0) (hlen : Ls.length = EIs.length) (d : ℕ → K) :
    ∑ p ∈ range (2 * (EIs.length * (n * f) + 1)),
        refineVec f (elemLen Ls n) d p * mulN (2 * (EIs.length * (n * f) + 1))
          (modalK EIs Ls rs (n * f)).1 (refineVec f (elemLen Ls n) d) p
      = ∑ p ∈ range (2 * (EIs.length * n + 1)),
        d p * mulN (2 * (EIs.length * n + 1)) (modalK EIs Ls rs n).1 d p := by
  have hn' : (n : K) ≠ 0 := by exact_mod_cast hn.ne'
  rw [modalK_energy _ _ _ (Nat.mul_pos hn hf), modalK_energy _ _ _ hn]
  congr 1
  · rw [← Nat.mul_assoc, sum_range_mul]
    apply Finset.sum_congr rfl
    intro e he
    have he := Finset.mem_range.1 he
    have hne : elemLen Ls n e ≠ 0 := by
      have := div_lt_spans he
      unfold elemLen
      rw [List.getD_eq_getElem?_getD, List.getElem?_eq_getElem (by omega), Option.getD_some]
      exact div_ne_zero (hL _ (List.getElem_mem _)) hn'
    rw [← show elemLen Ls n e = Ls.getD (e / n) 0 / n from rfl, ← (refine_energy hf _ _ _ hne _).1]
    apply Finset.sum_congr rfl
    intro s hs
    have hs := Finset.mem_range.1 hs
    rw [elemLen_fine Ls hf e s hs, fine_index e s hs]
  · apply Finset.sum_congr rfl
    intro P _
    have h1 : meshDof (n * f) P = 2 * (P / 2 * n * f) + P % 2 := by
      rw [meshDof, Nat.mul_assoc (P / 2)]
    obtain ⟨a1, a2⟩ := refineVec_node hf (elemLen Ls n) d (P / 2 * n)
    have : refineVec f (elemLen Ls n) d (meshDof (n * f) P) = d (meshDof n P) := by
      rw [h1, meshDof]
      have h2 : P % 2 = 0 ∨ P % 2 = 1 := by omega
      rcases h2 with h2 | h2
      · rw [h2, Nat.add_zero, Nat.add_zero, a1]
      · rw [h2, a2]
    rw [this]

/-- The kinetic energy of a mesh is that of the finer mesh. -/
theorem modalM_refine (ms Ls : List K) {n f : ℕ} (hn : 0 < n) (hf : 0 < f)
    (hL : ∀ x ∈ Ls, x ≠ 0) (hlen : Ls.length = ms.length) (d : ℕ → K) :
    ∑ p ∈ range (2 * (ms.length * (n * f) + 1)),
        refineVec f (elemLen Ls n) d p * mulN (2 * (ms.length * (n * f) + 1))
          (modalM ms Ls (n * f)) (refineVec f (elemLen Ls n) d) p
      = ∑ p ∈ range (2 * (ms.length * n + 1)),
        d p * mulN (2 * (ms.length * n + 1)) (modalM ms Ls n) d p := by
  have hn' : (n : K) ≠ 0 := by exact_mod_cast hn.ne'
  rw [modalM_energy, modalM_energy, ← Nat.mul_assoc, sum_range_mul]
  apply Finset.sum_congr rfl
  intro e he
  have he := Finset.mem_range.1 he
  have hne : elemLen Ls n e ≠ 0 := by
    have := div_lt_spans he
    unfold elemLen
    rw [List.getD_eq_getElem?_getD, List.getElem?_eq_getElem (by omega), Option.getD_some]
    exact div_ne_zero (hL _ (List.getElem_mem _)) hn'
  rw [← show elemLen Ls n e = Ls.getD (e / n) 0 / n from rfl, ← (refine_energy hf _ _ _ hne _).2]
  apply Finset.sum_congr rfl
  intro s hs
  have hs := Finset.mem_range.1 hs
  rw [elemLen_fine Ls hf e s hs, fine_index e s hs]

end PyCBA
