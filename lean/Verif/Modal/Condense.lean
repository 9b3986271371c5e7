import Verif.Modal.Props

/-!
C70: the mesh of the modal analysis against the stiffness of the static analysis.
-/

set_option linter.unusedSectionVars false
set_option linter.unusedSimpArgs false

namespace PyCBA

open Matrix Finset

variable {K : Type*} [Field K] [LinearOrder K] [IsStrictOrderedRing K]

/-- A row of the assembled stiffness: the members meeting at the node, and the spring. -/
theorem System.mulN_node (s : System K) (d : ℕ → K) (j : ℕ) (hj : j ≤ s.n) (c : Fin 2) :
    mulN s.N s.assemble d (2 * j + c)
      = (if 0 < j then (s.kb (j - 1) *ᵥ elemVec d (j - 1)) ⟨2 + c, by omega⟩ else 0)
        + (if j < s.n then (s.kb j *ᵥ elemVec d j) ⟨c, by omega⟩ else 0)
        + s.spring (2 * j + c) * d (2 * j + c) := by
  have hc := c.isLt
  rw [s.mulN_assemble d _ (by simp only [System.N]; omega),
    sum_blocks_node s.n (fun i => s.kb i *ᵥ elemVec d i) j hj c]

theorem elemVec_eq (d : ℕ → K) (e : ℕ) :
    elemVec d e = ![d (2 * e), d (2 * e + 1), d (2 * (e + 1)), d (2 * (e + 1) + 1)] := by
  funext p
  fin_cases p <;> rfl

theorem node_div {n i s : ℕ} (hs : s < n) : (i * n + s) / n = i ∧ (i * n + s) % n = s := by
  constructor
  · rw [Nat.mul_comm, Nat.mul_add_div (by omega), Nat.div_eq_of_lt hs, Nat.add_zero]
  · rw [Nat.mul_comm, Nat.mul_add_mod, Nat.mod_eq_of_lt hs]

theorem node_lt {N n i s : ℕ} (hi : i < N) (hs : s < n) : i * n + s < N * n := by
  have := Nat.mul_le_mul_right n (Nat.succ_le_of_lt hi)
  rw [Nat.succ_mul] at this
  omega

/-- The elements of the mesh of the modal analysis. -/
def meshK (n : ℕ) (EI L : ℕ → K) (i : ℕ) : Mat4 K := kEbeam (EI i) (L i / n)

/-- No force at the nodes inside the spans. -/
def MeshRest (N n : ℕ) (EI L : ℕ → K) (d : ℕ → K) : Prop :=
  ∀ i < N, ∀ s, 0 < s → s < n → ∀ c : Fin 2,
    (meshK n EI L i *ᵥ elemVec d (i * n + s - 1)) ⟨2 + c, by omega⟩
      + (meshK n EI L i *ᵥ elemVec d (i * n + s)) ⟨c, by omega⟩ = 0

theorem meshRest_iff {N n : ℕ} (hn : 0 < n) (EI L r : ℕ → K) (d : ℕ → K) :
    MeshRest N n EI L d ↔ ∀ p < 2 * (N * n + 1), p / 2 % n ≠ 0 →
      mulN (2 * (N * n + 1)) (meshSys N n (meshK n EI L) r).assemble d p = 0 := by
  have row : ∀ i < N, ∀ s, 0 < s → s < n → ∀ c : Fin 2,
      mulN (2 * (N * n + 1)) (meshSys N n (meshK n EI L) r).assemble d (2 * (i * n + s) + c)
        = (meshK n EI L i *ᵥ elemVec d (i * n + s - 1)) ⟨2 + c, by omega⟩
          + (meshK n EI L i *ᵥ elemVec d (i * n + s)) ⟨c, by omega⟩ := by
    intro i hi s hs0 hs c
    have hlt := node_lt hi hs
    have := (meshSys N n (meshK n EI L) r).mulN_node d (i * n + s) (by simp only [meshSys]; omega) c
    rw [meshSys_N] at this
    rw [this, if_pos (by omega), if_pos (by simp only [meshSys]; exact hlt)]
    have hc := c.isLt
    have e1 : (2 * (i * n + s) + c) / 2 = i * n + s := by omega
    have e2 : (i * n + s - 1) / n = i := by
      rw [show i * n + s - 1 = i * n + (s - 1) by omega]
      exact (node_div (by omega)).1
    have e3 : (meshSys N n (meshK n EI L) r).spring (2 * (i * n + s) + c) = 0 := by
      have : (meshSys N n (meshK n EI L) r).r (2 * (i * n + s) + c) = 0 := by
        simp only [meshSys, e1, (node_div hs).2]
        rw [if_neg hs0.ne']
      simp [System.spring, this]
    rw [e3, zero_mul, add_zero]
    simp only [meshSys, (node_div hs).1, e2]
  constructor
  · intro h p hp hpn
    have hlt : p / 2 / n < N := by
      rw [Nat.div_lt_iff_lt_mul hn]
      by_contra hc
      have : p / 2 = N * n := by omega
      rw [this] at hpn
      exact hpn (Nat.mul_mod_left _ _)
    have h1 := Nat.div_add_mod (p / 2) n
    rw [Nat.mul_comm] at h1
    have h2 := row (p / 2 / n) hlt (p / 2 % n) (by omega) (Nat.mod_lt _ hn)
      ⟨p % 2, Nat.mod_lt _ (by norm_num)⟩
    have h3 := h (p / 2 / n) hlt (p / 2 % n) (by omega) (Nat.mod_lt _ hn)
      ⟨p % 2, Nat.mod_lt _ (by norm_num)⟩
    rw [h3] at h2
    simp only at h2
    rw [h1] at h2
    rwa [show 2 * (p / 2) + p % 2 = p by omega] at h2
  · intro h i hi s hs0 hs c
    rw [← row i hi s hs0 hs c]
    have hlt := node_lt hi hs
    have hc := c.isLt
    apply h
    · omega
    · rw [show (2 * (i * n + s) + c) / 2 = i * n + s by omega, (node_div hs).2]
      omega

/-- Along a span at rest inside, the ends of the first `t + 1` pieces are related as
the ends of one piece. -/
theorem mesh_chain {N n : ℕ} (hn : 0 < n) {EI L d : ℕ → K} (hL : ∀ i < N, L i ≠ 0)
    (h : MeshRest N n EI L d) {i : ℕ} (hi : i < N) (t : ℕ) (ht : t < n) :
    Transfer (EI i) ((t + 1 : ℕ) * (L i / n)) 0
      ![d (2 * (i * n)), d (2 * (i * n) + 1), d (2 * (i * n + (t + 1))),
        d (2 * (i * n + (t + 1)) + 1)]
      ![(meshK n EI L i *ᵥ elemVec d (i * n)) 0, (meshK n EI L i *ᵥ elemVec d (i * n)) 1,
        (meshK n EI L i *ᵥ elemVec d (i * n + t)) 2,
        (meshK n EI L i *ᵥ elemVec d (i * n + t)) 3] := by
  have hn' : (n : K) ≠ 0 := by exact_mod_cast hn.ne'
  have hh : L i / n ≠ 0 := div_ne_zero (hL i hi) hn'
  have one : ∀ e, Transfer (EI i) (L i / n) 0 (elemVec d e) (meshK n EI L i *ᵥ elemVec d e) := by
    intro e
    have := (transfer_iff (EI := EI i) hh 0 (elemVec d e) (meshK n EI L i *ᵥ elemVec d e)).1
      (by rw [meshK, kEbeam_eq _ hh, add_zero])
    rwa [loadState_zero] at this
  induction t with
  | zero =>
    have := one (i * n)
    constructor
    · simpa [elemVec_eq] using this.v
    · simpa [elemVec_eq] using this.t
    · simpa [elemVec_eq] using this.V
    · simpa [elemVec_eq] using this.M
  | succ t ih =>
    have a := ih (by omega)
    have b := one (i * n + (t + 1))
    have c0 := h i hi (t + 1) (by omega) ht 0
    have c1 := h i hi (t + 1) (by omega) ht 1
    rw [show i * n + (t + 1) - 1 = i * n + t by omega] at c0 c1
    have := a.comp b (by simp [elemVec_eq]) (by simp [elemVec_eq]) (by simpa using c0)
      (by simpa using c1)
    rw [join_zero] at this
    have e : ((t + 1 + 1 : ℕ) : K) * (L i / n) = ((t + 1 : ℕ) : K) * (L i / n) + L i / n := by
      push_cast; ring
    rw [e]
    simpa [elemVec_eq, add_assoc] using this

/-- The end forces of a span at rest inside are those of one element. -/
theorem mesh_ends {N n : ℕ} (hn : 0 < n) {EI L d : ℕ → K} (hL : ∀ i < N, L i ≠ 0)
    (h : MeshRest N n EI L d) {i : ℕ} (hi : i < N) :
    (![(meshK n EI L i *ᵥ elemVec d (i * n)) 0, (meshK n EI L i *ᵥ elemVec d (i * n)) 1,
        (meshK n EI L i *ᵥ elemVec d (i * n + n - 1)) 2,
        (meshK n EI L i *ᵥ elemVec d (i * n + n - 1)) 3] : Vec4 K)
      = kFF (EI i) (L i) *ᵥ elemVec (fun P => d (meshDof n P)) i := by
  have hn' : (n : K) ≠ 0 := by exact_mod_cast hn.ne'
  have := mesh_chain hn hL h hi (n - 1) (by omega)
  rw [show n - 1 + 1 = n by omega, mul_div_cancel₀ _ hn', show i * n + (n - 1) = i * n + n - 1 by omega]
    at this
  rw [← loadState_zero (L i)] at this
  rw [(transfer_iff (hL i hi) 0 _ _).2 this, add_zero]
  congr 1
  rw [elemVec_eq]
  have e1 : ∀ j, meshDof n (2 * j) = 2 * (j * n) := by
    intro j
    simp only [meshDof]
    rw [show 2 * j / 2 = j by omega, show 2 * j % 2 = 0 by omega, Nat.add_zero]
  have e2 : ∀ j, meshDof n (2 * j + 1) = 2 * (j * n) + 1 := by
    intro j
    simp only [meshDof]
    rw [show (2 * j + 1) / 2 = j by omega, show (2 * j + 1) % 2 = 1 by omega]
  rw [e1, e2, e1, e2, show (i + 1) * n = i * n + n by ring]

/-- The mesh at rest inside the spans acts on the span ends as the beam itself. -/
theorem mesh_condense {N n : ℕ} (hn : 0 < n) {EI L d r : ℕ → K} (hL : ∀ i < N, L i ≠ 0)
    (h : MeshRest N n EI L d) (s : System K) (hs : s.n = N)
    (hk : ∀ i < N, s.kb i = kFF (EI i) (L i)) (hr : ∀ P < 2 * N + 2, s.r P = r P) :
    ∀ P < 2 * N + 2,
      mulN (2 * (N * n + 1)) (meshSys N n (meshK n EI L) r).assemble d (meshDof n P)
        = mulN s.N s.assemble (fun Q => d (meshDof n Q)) P := by
  intro P hP
  obtain ⟨j, c, rfl⟩ : ∃ j, ∃ c : Fin 2, P = 2 * j + c :=
    ⟨P / 2, ⟨P % 2, Nat.mod_lt _ (by norm_num)⟩, by simp only; omega⟩
  have hc := c.isLt
  have hj : j ≤ N := by omega
  have em : meshDof n (2 * j + c) = 2 * (j * n) + c := by
    simp only [meshDof]
    rw [show (2 * j + (c : ℕ)) / 2 = j by omega, show (2 * j + (c : ℕ)) % 2 = c by omega]
  have A := (meshSys N n (meshK n EI L) r).mulN_node d (j * n)
    (by simp only [meshSys]; exact Nat.mul_le_mul_right n hj) c
  rw [meshSys_N] at A
  rw [em, A, s.mulN_node _ j (by omega) c, em]
  congr 1
  · congr 1
    · by_cases h0 : 0 < j
      · rw [if_pos (Nat.mul_pos h0 hn), if_pos h0]
        have hi : j - 1 < N := by omega
        have e1 : j * n - 1 = (j - 1) * n + n - 1 := by
          obtain ⟨k, rfl⟩ : ∃ k, j = k + 1 := ⟨j - 1, by omega⟩
          rw [Nat.succ_mul]
          simp
        have e2 : (j * n - 1) / n = j - 1 := by
          rw [e1, show (j - 1) * n + n - 1 = (j - 1) * n + (n - 1) by omega]
          exact (node_div (by omega)).1
        have := mesh_ends hn hL h hi
        rw [← hk _ hi, ← e1] at this
        rw [← this]
        simp only [meshSys, e2]
        rcases c with ⟨c, hc⟩
        interval_cases c <;> rfl
      · rw [if_neg h0, if_neg (by
          have : j = 0 := by omega
          rw [this]; simp)]
    · by_cases h0 : j < N
      · have e2 : j * n / n = j := Nat.mul_div_cancel _ hn
        rw [if_pos (by simp only [meshSys]; exact Nat.mul_lt_mul_of_pos_right h0 hn),
          if_pos (by omega)]
        have := mesh_ends hn hL h h0
        rw [← hk _ h0] at this
        rw [← this]
        simp only [meshSys, e2]
        rcases c with ⟨c, hc⟩
        interval_cases c <;> rfl
      · have : j = N := by omega
        rw [if_neg (by simp [meshSys, this]), if_neg (by omega)]
  · congr 1
    have : (meshSys N n (meshK n EI L) r).r (2 * (j * n) + c) = s.r (2 * j + c) := by
      rw [hr _ (by omega)]
      simp only [meshSys]
      rw [show (2 * (j * n) + (c : ℕ)) / 2 = j * n by omega, Nat.mul_mod_left, if_pos rfl,
        Nat.mul_div_cancel _ hn, show (2 * (j * n) + (c : ℕ)) % 2 = c by omega]
    simp only [System.spring, this]

/-! ### Every displacement of the span ends extends to one at rest inside the spans -/

/-- Deflection and rotation along a member without load, at `x` from its left end,
the end forces being `Va` and `Ma`. -/
def lineV (EI v t Va Ma x : K) : K := v + t * x + (-(Ma * x ^ 2 / 2) + Va * x ^ 3 / 6) / EI

def lineT (EI t Va Ma x : K) : K := t + (-(Ma * x) + Va * x ^ 2 / 2) / EI

/-- The mesh displacement that follows the elastic line of the beam for the end
displacements `u`. -/
def meshLine (N n : ℕ) (EI L u : ℕ → K) (p : ℕ) : K :=
  let i := p / 2 / n
  let x := (p / 2 % n : ℕ) * (L i / n)
  let f := kFF (EI i) (L i) *ᵥ elemVec u i
  if i < N then
    if p % 2 = 0 then lineV (EI i) (u (2 * i)) (u (2 * i + 1)) (f 0) (f 1) x
    else lineT (EI i) (u (2 * i + 1)) (f 0) (f 1) x
  else u (2 * N + p % 2)

theorem meshLine_at {N n : ℕ} (hn : 0 < n) {EI L u : ℕ → K} (hL : ∀ i < N, L i ≠ 0)
    (hE : ∀ i < N, EI i ≠ 0) {i : ℕ} (hi : i < N) {s : ℕ} (hs : s ≤ n) :
    meshLine N n EI L u (2 * (i * n + s))
      = lineV (EI i) (u (2 * i)) (u (2 * i + 1)) ((kFF (EI i) (L i) *ᵥ elemVec u i) 0)
          ((kFF (EI i) (L i) *ᵥ elemVec u i) 1) (s * (L i / n)) ∧
    meshLine N n EI L u (2 * (i * n + s) + 1)
      = lineT (EI i) (u (2 * i + 1)) ((kFF (EI i) (L i) *ᵥ elemVec u i) 0)
          ((kFF (EI i) (L i) *ᵥ elemVec u i) 1) (s * (L i / n)) := by
  have hn' : (n : K) ≠ 0 := by exact_mod_cast hn.ne'
  have d0 : ∀ k, 2 * k / 2 = k := fun k => by omega
  have d1 : ∀ k, (2 * k + 1) / 2 = k := fun k => by omega
  have m0 : ∀ k, 2 * k % 2 = 0 := fun k => by omega
  have m1 : ∀ k, (2 * k + 1) % 2 = 1 := fun k => by omega
  rcases Nat.lt_or_eq_of_le hs with hs | rfl
  · simp only [meshLine, d0, d1, m0, m1, (node_div hs).1, (node_div hs).2, hi, if_true]
    simp
  · have ht := (transfer_iff (EI := EI i) (hL i hi) 0 (elemVec u i)
      (kFF (EI i) (L i) *ᵥ elemVec u i)).1 (by rw [add_zero])
    rw [loadState_zero] at ht
    have e := hE i hi
    have hv : u (2 * (i + 1)) = lineV (EI i) (u (2 * i)) (u (2 * i + 1))
        ((kFF (EI i) (L i) *ᵥ elemVec u i) 0) ((kFF (EI i) (L i) *ᵥ elemVec u i) 1) (L i) := by
      have := ht.v
      simp only [elemVec, Pi.zero_apply] at this
      change EI i * u (2 * i + 2) = EI i * u (2 * i) + EI i * u (2 * i + 1) * L i - _ + _ + _ at this
      rw [show 2 * (i + 1) = 2 * i + 2 by ring]
      apply mul_left_cancel₀ e
      rw [this, lineV]
      field_simp
      ring
    have htt : u (2 * (i + 1) + 1) = lineT (EI i) (u (2 * i + 1))
        ((kFF (EI i) (L i) *ᵥ elemVec u i) 0) ((kFF (EI i) (L i) *ᵥ elemVec u i) 1) (L i) := by
      have := ht.t
      simp only [elemVec, Pi.zero_apply] at this
      change EI i * u (2 * i + 3) = EI i * u (2 * i + 1) - _ + _ + _ at this
      rw [show 2 * (i + 1) + 1 = 2 * i + 3 by ring]
      apply mul_left_cancel₀ e
      rw [this, lineT]
      field_simp
      ring
    rw [mul_div_cancel₀ _ hn', ← hv, ← htt]
    have e1 : i * s + s = (i + 1) * s := by ring
    rw [e1]
    simp only [meshLine, d0, d1, m0, m1, Nat.mul_div_cancel _ hn, Nat.mul_mod_left]
    by_cases hc : i + 1 < N
    · simp [hc, lineV, lineT]
    · have : N = i + 1 := by omega
      simp [hc, this]

theorem meshLine_rest {N n : ℕ} (hn : 0 < n) {EI L u : ℕ → K} (hL : ∀ i < N, L i ≠ 0)
    (hE : ∀ i < N, EI i ≠ 0) : MeshRest N n EI L (meshLine N n EI L u) := by
  have hn' : (n : K) ≠ 0 := by exact_mod_cast hn.ne'
  have key : ∀ i < N, ∀ s < n, meshK n EI L i *ᵥ elemVec (meshLine N n EI L u) (i * n + s)
      = ![(kFF (EI i) (L i) *ᵥ elemVec u i) 0,
          (kFF (EI i) (L i) *ᵥ elemVec u i) 1
            - (kFF (EI i) (L i) *ᵥ elemVec u i) 0 * (s * (L i / n)),
          -(kFF (EI i) (L i) *ᵥ elemVec u i) 0,
          -((kFF (EI i) (L i) *ᵥ elemVec u i) 1
            - (kFF (EI i) (L i) *ᵥ elemVec u i) 0 * ((s + 1 : ℕ) * (L i / n)))] := by
    intro i hi s hs
    have hh : L i / n ≠ 0 := div_ne_zero (hL i hi) hn'
    have e := hE i hi
    rw [meshK, kEbeam_eq _ hh]
    symm
    have := (transfer_iff (EI := EI i) hh 0 (elemVec (meshLine N n EI L u) (i * n + s))
      ![(kFF (EI i) (L i) *ᵥ elemVec u i) 0,
          (kFF (EI i) (L i) *ᵥ elemVec u i) 1
            - (kFF (EI i) (L i) *ᵥ elemVec u i) 0 * (s * (L i / n)),
          -(kFF (EI i) (L i) *ᵥ elemVec u i) 0,
          -((kFF (EI i) (L i) *ᵥ elemVec u i) 1
            - (kFF (EI i) (L i) *ᵥ elemVec u i) 0 * ((s + 1 : ℕ) * (L i / n)))]).2 ?_
    · rw [this, add_zero]
    · obtain ⟨a1, a2⟩ := meshLine_at hn (u := u) hL hE hi hs.le
      obtain ⟨b1, b2⟩ := meshLine_at hn (u := u) hL hE hi (Nat.succ_le_of_lt hs)
      rw [loadState_zero, elemVec_eq, add_assoc, a1, a2, b1, b2]
      generalize (kFF (EI i) (L i) *ᵥ elemVec u i) 0 = Va
      generalize (kFF (EI i) (L i) *ᵥ elemVec u i) 1 = Ma
      generalize L i / n = l
      constructor <;> simp only [lineV, lineT, Matrix.cons_val, Pi.zero_apply, Nat.succ_eq_add_one] <;>
        push_cast <;> (try field_simp) <;> ring
  intro i hi s hs0 hs c
  have a := key i hi (s - 1) (by omega)
  rw [show i * n + (s - 1) = i * n + s - 1 by omega, show s - 1 + 1 = s by omega] at a
  rw [a, key i hi s hs]
  rcases c with ⟨c, hc⟩
  interval_cases c <;> simp

theorem meshLine_ends {N n : ℕ} (hn : 0 < n) (EI L u : ℕ → K) : ∀ P < 2 * N + 2, meshLine N n EI L u (meshDof n P) = u P := by
  intro P hP
  obtain ⟨h1, h2⟩ := meshDof_parts n P
  simp only [meshLine, h1, h2, Nat.mul_div_cancel _ hn, Nat.mul_mod_left]
  by_cases hc : P / 2 < N
  · rw [if_pos hc]
    by_cases hp : P % 2 = 0
    · rw [if_pos hp]
      have : 2 * (P / 2) = P := by omega
      simp [lineV, this]
    · rw [if_neg hp]
      have : 2 * (P / 2) + 1 = P := by omega
      simp [lineT, this]
  · rw [if_neg hc]
    congr 1
    omega

theorem modalEI_ok {m : Member K} {e : K} (h : modalEI m = .ok e) :
    m.EI = .const e ∧ m.GAv = none ∧ m.et = .FF := by
  unfold modalEI at h
  split at h <;> first | (cases h; done) | skip
  rename_i h1 h2 h3
  cases h
  exact ⟨h1, h2, h3⟩

theorem modalEI_spanK {m : Member K} {e : K} (h : modalEI m = .ok e) :
    m.spanK = .ok (kFF e m.L) := by
  obtain ⟨h1, h2, h3⟩ := modalEI_ok h
  obtain ⟨EI, GAv, et, L⟩ := m
  simp only at h1 h2 h3
  subst h1 h2 h3
  rfl

/-- **C70**, without foundations: on every beam accepted by both analyses, a mesh
displacement that leaves the nodes inside the spans at rest produces at the span
ends exactly the forces of the static stiffness, springs included; every displacement
of the span ends extends to such a mesh displacement; and the rigidly held degrees
of freedom are the same, provided no displacement is prescribed and every negative
restraint is `-1`.  The full claim fails without these provisos
(`C70_prescribed_violated`, `C70_negative_restraint_violated`) and for spans on a
foundation, which `solve_modal` ignores. -/
theorem C70_same_structure_partial (b : BeamDef K) (s : System K) (hs : b.system = .ok s)
    (EIs : List K) (hE : mapE modalEI b.members = .ok EIs) (n : ℕ) (hn : 0 < n)
    (hL : ∀ m ∈ b.members, m.L ≠ 0) (hE0 : ∀ e ∈ EIs, e ≠ 0) :
    (∀ d : ℕ → K,
      (∀ p < 2 * (s.n * n + 1), p / 2 % n ≠ 0 → mulN (2 * (s.n * n + 1))
        (modalK EIs (b.members.map Member.L) b.restraints n).1 d p = 0) →
      ∀ P < s.N, mulN (2 * (s.n * n + 1))
          (modalK EIs (b.members.map Member.L) b.restraints n).1 d (2 * (P / 2 * n) + P % 2)
        = mulN s.N s.assemble (fun Q => d (2 * (Q / 2 * n) + Q % 2)) P) ∧
    (∀ u : ℕ → K, ∃ d : ℕ → K, (∀ P < s.N, d (2 * (P / 2 * n) + P % 2) = u P) ∧
      ∀ p < 2 * (s.n * n + 1), p / 2 % n ≠ 0 → mulN (2 * (s.n * n + 1))
        (modalK EIs (b.members.map Member.L) b.restraints n).1 d p = 0) ∧
    ((∀ P < s.N, s.presc P = none) → (∀ P < s.N, s.r P < 0 → s.r P = -1) → ∀ P < s.N,
      (2 * (P / 2 * n) + P % 2 ∈ (modalK EIs (b.members.map Member.L) b.restraints n).2 ↔
        (s.constr P).isSome)) := by
  obtain ⟨h1, h2, -, h4, -, -, -⟩ := BeamDef.system_ok hs
  obtain ⟨e1, e2⟩ := mapE_ok hE
  obtain ⟨k1, k2⟩ := modalK_eq EIs (b.members.map Member.L) b.restraints hn
  set Ls := b.members.map Member.L with hLs
  have hlen : EIs.length = s.n := by rw [e1, h1]
  have hN : s.N = 2 * s.n + 2 := rfl
  rw [hlen] at k1 k2
  have hL' : ∀ i < s.n, (fun i => Ls.getD i 0) i ≠ 0 := by
    intro i hi
    have hi' : i < b.members.length := by omega
    have : Ls.getD i 0 = b.members[i].L := by
      rw [hLs, List.getD_eq_getElem?_getD, List.getElem?_map, List.getElem?_eq_getElem hi']
      rfl
    simp only [this]
    exact hL _ (List.getElem_mem _)
  have hEn : ∀ i < s.n, (fun i => EIs.getD i 0) i ≠ 0 := by
    intro i hi
    have hi' : i < EIs.length := by omega
    simp only [List.getD_eq_getElem?_getD, List.getElem?_eq_getElem hi', Option.getD_some]
    exact hE0 _ (List.getElem_mem _)
  have hk : ∀ i < s.n, s.kb i = kFF ((fun i => EIs.getD i 0) i) ((fun i => Ls.getD i 0) i) := by
    intro i hi
    have hi' : i < b.members.length := by omega
    have a := h2 i hi'
    rw [modalEI_spanK (e2 i hi' (by omega))] at a
    rw [← Except.ok.inj a]
    simp only
    congr 1
    · simp [List.getD_eq_getElem?_getD, List.getElem?_eq_getElem (by omega : i < EIs.length)]
    · rw [hLs, List.getD_eq_getElem?_getD, List.getElem?_map, List.getElem?_eq_getElem hi']
      rfl
  have hK : (modalK EIs Ls b.restraints n).1 = (meshSys s.n n
      (meshK n (fun i => EIs.getD i 0) fun i => Ls.getD i 0) fun P => b.restraints.getD P 0).assemble :=
    k1
  rw [hK]
  refine ⟨?_, ?_, ?_⟩
  · intro d hd
    have hrest := (meshRest_iff hn _ _ _ d).2 hd
    intro P hP
    exact mesh_condense hn hL' hrest s rfl hk (fun P _ => h4 P) P hP
  · intro u
    exact ⟨meshLine s.n n (fun i => EIs.getD i 0) (fun i => Ls.getD i 0) u,
      fun P hP => meshLine_ends hn _ _ u P hP, (meshRest_iff hn _ _ _ _).1 (meshLine_rest hn hL' hEn)⟩
  · intro hp hr P hP
    rw [k2]
    have hc : (s.constr P).isSome ↔ s.r P < 0 := by
      simp only [System.constr, hp P hP]
      split <;> simp_all
    rw [hc]
    constructor
    · rintro ⟨Q, hQ, e, hm⟩
      have : P = Q := meshDof_inj hn e
      subst this
      rw [h4, hm]
      norm_num
    · intro h
      exact ⟨P, hP, rfl, by rw [← h4]; exact hr P hP h⟩

/-- A propped cantilever with an elastic support, restraints all `-1`. -/
def modalBeam (rs : List ℚ) (ps : List (Option ℚ)) : BeamDef ℚ where
  members := [prism 1 1, prism 2 3]
  restraints := rs
  presc := ps
  LM := []

/-- `C70_same_structure_partial` applies to a two-span beam with a spring. -/
example : ∃ s, (modalBeam [-1, -1, 5, 0, -1, 0] [none, none, none, none, none, none]).system = .ok s ∧
    (∀ P < s.N, s.presc P = none) ∧ (∀ P < s.N, s.r P < 0 → s.r P = -1) ∧
    mapE modalEI (modalBeam [-1, -1, 5, 0, -1, 0] [none, none, none, none, none, none]).members
      = .ok [1, 2] := by
  refine ⟨_, rfl, ?_, ?_, rfl⟩ <;> decide +kernel

/-- C70 fails when a displacement is prescribed at a degree of freedom that is not
held: the static analysis holds it there, the modal analysis leaves it free. -/
theorem C70_prescribed_violated : ∃ (b : BeamDef ℚ) (s : System ℚ) (P : ℕ),
    b.system = .ok s ∧ mapE modalEI b.members = .ok [1, 2] ∧ P < s.N ∧ (s.constr P).isSome ∧
    P ∉ (modalK [1, 2] (b.members.map Member.L) b.restraints 1).2 := by
  refine ⟨modalBeam [-1, -1, 0, 0, -1, 0] [none, none, some 0, none, none, none], _, 2, rfl, rfl,
    ?_, ?_, ?_⟩ <;> decide +kernel

/-- C70 fails for negative restraints other than `-1`: the static analysis treats
them as rigid, the modal analysis as free. -/
theorem C70_negative_restraint_violated : ∃ (b : BeamDef ℚ) (s : System ℚ) (P : ℕ),
    b.system = .ok s ∧ mapE modalEI b.members = .ok [1, 2] ∧ P < s.N ∧ s.presc P = none ∧
    (s.constr P).isSome ∧
    P ∉ (modalK [1, 2] (b.members.map Member.L) b.restraints 1).2 := by
  refine ⟨modalBeam [-1, -1, -2, 0, -1, 0] [none, none, none, none, none, none], _, 2, rfl, rfl,
    ?_, ?_, ?_, ?_⟩ <;> decide +kernel

end PyCBA
