import Verif.Stiffness.Model
import Mathlib.Tactic.FieldSimp
import Mathlib.Tactic.Ring
import Mathlib.Tactic.Linarith
import Mathlib.Tactic.LinearCombination
import Mathlib.Tactic.FinCases
import Mathlib.Data.Fin.VecNotation
import Mathlib.Algebra.BigOperators.Fin

set_option linter.unusedSectionVars false
set_option linter.unusedSimpArgs false

/-!
Vocabulary and helper lemmas for the member stiffness (the property theorems are in `Props.lean`).
-/

namespace PyCBA

open Matrix

variable {K : Type*} [Field K] [LinearOrder K] [IsStrictOrderedRing K]

/-! ### Specification vocabulary -/

/-- Work of the end forces `k d` on the end displacements `d`. -/
def energy (k : Mat4 K) (d : Vec4 K) : K := d ⬝ᵥ (k *ᵥ d)

/-- End displacements of a rigid motion: deflection `a` at the left end and
rotation `t` of the whole member of length `L`. -/
def rigidMotion (a t L : K) : Vec4 K := ![a, t, a + L * t, t]

/-- `kr` is the stiffness of the member `kff` after the rotations in `rel` have
been released: whatever the kept displacements, the released rotations can take
values that leave no moment there, and the end forces are then those of `kr`. -/
def IsReleaseOf (kff kr : Mat4 K) (rel : List (Fin 4)) : Prop :=
  (∀ d : Vec4 K, ∃ d' : Vec4 K,
    (∀ p, p ∉ rel → d' p = d p) ∧ ∀ r ∈ rel, (kff *ᵥ d') r = 0) ∧
  ∀ d d' : Vec4 K, (∀ p, p ∉ rel → d' p = d p) → (∀ r ∈ rel, (kff *ᵥ d') r = 0) →
    kr *ᵥ d = kff *ᵥ d'

/-- The nodes of a quadrature rule that can tell apart linear functions, with
positive weights and rigidities (true of every Gauss-Legendre rule with two or
more points on a span of positive rigidity). -/
def GoodNodes (ns : List (GNode K)) : Prop :=
  (∀ n ∈ ns, 0 < n.w ∧ 0 < n.EI) ∧ ∃ n ∈ ns, ∃ n' ∈ ns, n.x ≠ n'.x

/-- A usable rigidity. -/
def Rigidity.Good : Rigidity K → Prop
  | .const v => 0 < v
  | .section s => GoodNodes s.nodes

/-- A usable member: positive length and rigidities. -/
def Member.Good (m : Member K) : Prop :=
  0 < m.L ∧ m.EI.Good ∧ ∀ g, m.GAv = some g → g.Good

/-! ### Helpers -/

theorem mulVec4 (k : Mat4 K) (d : Vec4 K) (p : Fin 4) :
    (k *ᵥ d) p = k p 0 * d 0 + k p 1 * d 1 + k p 2 * d 2 + k p 3 * d 3 := by
  simp [mulVec, dotProduct, Fin.sum_univ_four]

theorem dot4 (a b : Vec4 K) :
    a ⬝ᵥ b = a 0 * b 0 + a 1 * b 1 + a 2 * b 2 + a 3 * b 3 := by
  simp [dotProduct, Fin.sum_univ_four]

theorem inv2_ok {m i : Matrix (Fin 2) (Fin 2) K} (h : inv2 m = .ok i) :
    m 0 0 * m 1 1 - m 0 1 * m 1 0 ≠ 0 ∧
    i = !![m 1 1 / (m 0 0 * m 1 1 - m 0 1 * m 1 0), -m 0 1 / (m 0 0 * m 1 1 - m 0 1 * m 1 0);
      -m 1 0 / (m 0 0 * m 1 1 - m 0 1 * m 1 0), m 0 0 / (m 0 0 * m 1 1 - m 0 1 * m 1 0)] := by
  unfold inv2 at h
  simp only at h
  split at h
  · cases h
  · rename_i hd
    cases h
    exact ⟨hd, rfl⟩

/-- The model of `inv` really returns a two-sided inverse. -/
theorem inv2_mul {m i : Matrix (Fin 2) (Fin 2) K} (h : inv2 m = .ok i) :
    m * i = 1 ∧ i * m = 1 := by
  obtain ⟨hd, hi⟩ := inv2_ok h
  generalize hD : m 0 0 * m 1 1 - m 0 1 * m 1 0 = D at hd hi
  subst hi
  constructor <;>
  · ext p q
    fin_cases p <;> fin_cases q <;>
      simp [Matrix.mul_apply, Fin.sum_univ_two] <;> field_simp <;>
      first | ring1 | linear_combination hD

theorem TtKT_apply (Kth : Matrix (Fin 2) (Fin 2) K) (L : K) :
    TtKT Kth L =
      let s0 := Kth 0 0 + Kth 1 0
      let s1 := Kth 0 1 + Kth 1 1
      let r0 := Kth 0 0 + Kth 0 1
      let r1 := Kth 1 0 + Kth 1 1
      let s := Kth 0 0 + Kth 0 1 + Kth 1 0 + Kth 1 1
      !![s / L ^ 2, s0 / L, -s / L ^ 2, s1 / L;
         r0 / L, Kth 0 0, -r0 / L, Kth 0 1;
         -s / L ^ 2, -s0 / L, s / L ^ 2, -s1 / L;
         r1 / L, Kth 1 0, -r1 / L, Kth 1 1] := by
  ext p q
  fin_cases p <;> fin_cases q <;>
    simp [TtKT, Matrix.mul_apply, Fin.sum_univ_two] <;> ring

/-- End rotation relative to the chord. -/
def chordRot (d : Vec4 K) (L : K) : K × K := (d 1 + (d 0 - d 2) / L, d 3 + (d 0 - d 2) / L)

/-- Two-dimensional quadratic form. -/
def quad2 (m : Matrix (Fin 2) (Fin 2) K) (a b : K) : K :=
  m 0 0 * a ^ 2 + (m 0 1 + m 1 0) * a * b + m 1 1 * b ^ 2

theorem energy_TtKT (Kth : Matrix (Fin 2) (Fin 2) K) (L : K) (d : Vec4 K) :
    energy (TtKT Kth L) d = quad2 Kth (chordRot d L).1 (chordRot d L).2 := by
  simp only [energy, dot4, mulVec4, TtKT_apply, quad2, chordRot]
  simp
  ring

theorem TtKT_symm (Kth : Matrix (Fin 2) (Fin 2) K) (L : K) (h : Kth 0 1 = Kth 1 0) :
    (TtKT Kth L).transpose = TtKT Kth L := by
  ext p q
  rw [TtKT_apply]
  fin_cases p <;> fin_cases q <;> simp [h] 

theorem TtKT_rigid (Kth : Matrix (Fin 2) (Fin 2) K) (L : K) (hL : L ≠ 0) (a t : K) :
    TtKT Kth L *ᵥ rigidMotion a t L = 0 := by
  ext p
  rw [mulVec4, TtKT_apply]
  fin_cases p <;> simp [rigidMotion] <;> field_simp <;> ring

theorem flexibility_quad (ns : List (GNode K)) (L a b : K) :
    quad2 (flexibility ns L) a b
      = (ns.map fun n => n.w / n.EI * (a * (1 - n.x / L) + b * (-n.x / L)) ^ 2).sum := by
  simp only [quad2, flexibility]
  simp
  induction ns with
  | nil => simp
  | cons n ns ih =>
    simp only [List.map_cons, List.sum_cons]
    rw [← ih]
    ring

theorem flexibility_pos (ns : List (GNode K)) (hns : GoodNodes ns) (L : K) (hL : 0 < L)
    (a b : K) (h : ¬ (a = 0 ∧ b = 0)) : 0 < quad2 (flexibility ns L) a b := by
  rw [flexibility_quad]
  obtain ⟨hpos, n, hn, n', hn', hne⟩ := hns
  have hterm : ∀ m ∈ ns, 0 ≤ m.w / m.EI * (a * (1 - m.x / L) + b * (-m.x / L)) ^ 2 := by
    intro m hm
    have := hpos m hm
    have := div_pos this.1 this.2
    positivity
  by_contra hcon
  push Not at hcon
  have hz : ∀ m ∈ ns, m.w / m.EI * (a * (1 - m.x / L) + b * (-m.x / L)) ^ 2 = 0 := by
    have hs : (ns.map fun n => n.w / n.EI * (a * (1 - n.x / L) + b * (-n.x / L)) ^ 2).sum = 0 :=
      le_antisymm hcon (List.sum_nonneg (by simpa using hterm))
    intro m hm
    have h1 := List.single_le_sum (l := ns.map fun n =>
      n.w / n.EI * (a * (1 - n.x / L) + b * (-n.x / L)) ^ 2) (by simpa using hterm) _
      (List.mem_map_of_mem hm)
    rw [hs] at h1
    exact le_antisymm h1 (hterm m hm)
  have hlin : ∀ m ∈ ns, a * L = (a + b) * m.x := by
    intro m hm
    have h1 := hz m hm
    have h2 := hpos m hm
    have h3 := (div_pos h2.1 h2.2).ne'
    have h4 : a * (1 - m.x / L) + b * (-m.x / L) = 0 := by
      rcases mul_eq_zero.1 h1 with h | h
      · exact absurd h h3
      · exact pow_eq_zero_iff (two_ne_zero) |>.1 h
    field_simp at h4
    linear_combination h4
  have e1 := hlin n hn
  have e2 := hlin n' hn'
  have e3 : (a + b) * (n.x - n'.x) = 0 := by linear_combination e2 - e1
  have e4 : a + b = 0 := by
    rcases mul_eq_zero.1 e3 with h | h
    · exact h
    · exact absurd (sub_eq_zero.1 h) hne
  have e5 : a = 0 := by
    rw [e4] at e1
    simpa [hL.ne'] using e1
  exact h ⟨e5, by linear_combination e4 - e5⟩

/-- Symmetric positive definite 2×2 matrices. -/
def PD2 (m : Matrix (Fin 2) (Fin 2) K) : Prop :=
  m 0 1 = m 1 0 ∧ ∀ a b, ¬ (a = 0 ∧ b = 0) → 0 < quad2 m a b

theorem PD2.det_pos {m : Matrix (Fin 2) (Fin 2) K} (h : PD2 m) :
    0 < m 0 0 ∧ 0 < m 1 1 ∧ 0 < m 0 0 * m 1 1 - m 0 1 * m 1 0 := by
  have h0 : 0 < m 0 0 := by
    have := h.2 1 0 (by simp)
    simpa [quad2] using this
  have h1 : 0 < m 1 1 := by
    have := h.2 0 1 (by simp)
    simpa [quad2] using this
  refine ⟨h0, h1, ?_⟩
  have h2 := h.2 (-m 0 1) (m 0 0) (by rintro ⟨-, h⟩; exact h0.ne' h)
  have h3 : quad2 m (-m 0 1) (m 0 0) = m 0 0 * (m 0 0 * m 1 1 - m 0 1 * m 1 0) := by
    simp only [quad2, ← h.1]
    ring
  rw [h3] at h2
  exact pos_of_mul_pos_right h2 h0.le |> fun h => h

theorem PD2.inv {m : Matrix (Fin 2) (Fin 2) K} (h : PD2 m) :
    ∃ i, inv2 m = .ok i ∧ PD2 i := by
  obtain ⟨h0, h1, hd⟩ := h.det_pos
  refine ⟨_, by simp only [inv2]; rw [if_neg hd.ne'], ?_, ?_⟩
  · simp [h.1]
  · intro a b hab
    have h2 := h.2 (m 1 1 * a - m 0 1 * b) (m 0 0 * b - m 0 1 * a) (by
      rintro ⟨e1, e2⟩
      apply hab
      have e3 : (m 0 0 * m 1 1 - m 0 1 * m 1 0) * a = 0 := by
        rw [← h.1]; linear_combination m 0 0 * e1 + m 0 1 * e2
      have e4 : (m 0 0 * m 1 1 - m 0 1 * m 1 0) * b = 0 := by
        rw [← h.1]; linear_combination m 0 1 * e1 + m 1 1 * e2
      exact ⟨(mul_eq_zero.1 e3).resolve_left hd.ne', (mul_eq_zero.1 e4).resolve_left hd.ne'⟩)
    have h3 : quad2 m (m 1 1 * a - m 0 1 * b) (m 0 0 * b - m 0 1 * a)
        = (m 0 0 * m 1 1 - m 0 1 * m 1 0) ^ 2 * quad2 !![
          m 1 1 / (m 0 0 * m 1 1 - m 0 1 * m 1 0), -m 0 1 / (m 0 0 * m 1 1 - m 0 1 * m 1 0);
          -m 1 0 / (m 0 0 * m 1 1 - m 0 1 * m 1 0),
          m 0 0 / (m 0 0 * m 1 1 - m 0 1 * m 1 0)] a b := by
      have hd' := hd.ne'
      simp only [quad2]
      simp
      rw [← h.1] at hd' ⊢
      field_simp
      ring
    rw [h3] at h2
    exact pos_of_mul_pos_right h2 (by positivity)

theorem flexibility_PD2 (ns : List (GNode K)) (hns : GoodNodes ns) (L : K) (hL : 0 < L) :
    PD2 (flexibility ns L) :=
  ⟨by simp [flexibility], fun a b h => flexibility_pos ns hns L hL a b h⟩

theorem shearFlexibility_nonneg (g : Rigidity K) (hg : g.Good) (L : K) (hL : 0 < L) :
    0 ≤ shearFlexibility g L := by
  cases g with
  | const v =>
    have : (0 : K) < v := hg
    simp only [shearFlexibility]
    positivity
  | «section» ns =>
    simp only [shearFlexibility]
    apply div_nonneg _ (by positivity)
    apply List.sum_nonneg
    simp only [List.mem_map]
    rintro _ ⟨n, hn, rfl⟩
    have := hg.1 n hn
    exact (div_pos this.1 this.2).le

theorem timoFlexibility_PD2 (EI g : Rigidity K) (hE : EI.Good) (hg : g.Good) (L : K)
    (hL : 0 < L) : PD2 (timoFlexibility EI g L) := by
  have hs := shearFlexibility_nonneg g hg L hL
  have key : ∀ F : Matrix (Fin 2) (Fin 2) K, PD2 F →
      PD2 (Matrix.of fun i j => F i j + shearFlexibility g L : Matrix (Fin 2) (Fin 2) K) := by
    intro F hF
    refine ⟨by simp only [Matrix.of_apply, hF.1], fun a b h => ?_⟩
    have h1 := hF.2 a b h
    have h2 : quad2 (Matrix.of fun i j => F i j + shearFlexibility g L : Matrix (Fin 2) (Fin 2) K) a b
        = quad2 F a b + shearFlexibility g L * (a + b) ^ 2 := by
      simp only [quad2, Matrix.of_apply]; ring
    rw [h2]
    positivity
  cases EI with
  | const e =>
    have he : (0 : K) < e := hE
    refine key _ ⟨by simp, fun a b h => ?_⟩
    have : quad2 (!![L / (3 * e), -L / (6 * e); -L / (6 * e), L / (3 * e)] :
        Matrix (Fin 2) (Fin 2) K) a b = L / (6 * e) * (a ^ 2 + b ^ 2 + (a - b) ^ 2) := by
      simp only [quad2]
      simp
      field_simp
      ring
    rw [this]
    have h3 : 0 < a ^ 2 + b ^ 2 := by
      by_contra hc
      push Not at hc
      apply h
      constructor
      · nlinarith [sq_nonneg a, sq_nonneg b, pow_eq_zero_iff (two_ne_zero) (a := a)]
      · nlinarith [sq_nonneg a, sq_nonneg b]
    positivity
  | «section» ns => exact key _ (flexibility_PD2 _ hE L hL)

/-! ### Condensation -/

theorem fin4_ne (p : Fin 4) : p = 0 ∨ p = 1 ∨ p = 2 ∨ p = 3 := by
  fin_cases p <;> simp

theorem condense1_release (k kr : Mat4 K) (r : Fin 4) (h : condense1 k r = .ok kr) :
    IsReleaseOf k kr [r] := by
  unfold condense1 at h
  split at h
  · cases h
  rename_i hr
  cases h
  constructor
  · intro d
    refine ⟨fun p => if p = r then -((k *ᵥ d) r - k r r * d r) / k r r else d p, ?_, ?_⟩
    · intro p hp
      simp at hp
      simp [hp]
    · intro q hq
      simp at hq
      subst hq
      rw [mulVec4, mulVec4]
      fin_cases q <;> simp at hr ⊢ <;> field_simp <;> ring
  · intro d d' hk hz
    have hz := hz r (by simp)
    have h0 : ∀ p, p ≠ r → d' p = d p := fun p hp => hk p (by simpa using hp)
    ext p
    rw [mulVec4] at hz
    rw [mulVec4, mulVec4]
    have h00 := h0 0
    have h11 := h0 1
    have h22 := h0 2
    have h33 := h0 3
    rcases fin4_ne r with rfl | rfl | rfl | rfl <;> rcases fin4_ne p with rfl | rfl | rfl | rfl <;>
    · simp at h00 h11 h22 h33
      simp [*] at hz ⊢
      field_simp
      first
        | linear_combination hz
        | linear_combination -hz
        | linear_combination (-(k 0 1)) * hz
        | linear_combination (-(k 0 2)) * hz
        | linear_combination (-(k 0 3)) * hz
        | linear_combination (-(k 1 0)) * hz
        | linear_combination (-(k 1 2)) * hz
        | linear_combination (-(k 1 3)) * hz
        | linear_combination (-(k 2 0)) * hz
        | linear_combination (-(k 2 1)) * hz
        | linear_combination (-(k 2 3)) * hz
        | linear_combination (-(k 3 0)) * hz
        | linear_combination (-(k 3 1)) * hz
        | linear_combination (-(k 3 2)) * hz

theorem inv2_eqs {m i : Matrix (Fin 2) (Fin 2) K} (h : inv2 m = .ok i) :
    (i 0 0 * m 0 0 + i 0 1 * m 1 0 = 1 ∧ i 0 0 * m 0 1 + i 0 1 * m 1 1 = 0 ∧
      i 1 0 * m 0 0 + i 1 1 * m 1 0 = 0 ∧ i 1 0 * m 0 1 + i 1 1 * m 1 1 = 1) ∧
    (m 0 0 * i 0 0 + m 0 1 * i 1 0 = 1 ∧ m 0 0 * i 0 1 + m 0 1 * i 1 1 = 0 ∧
      m 1 0 * i 0 0 + m 1 1 * i 1 0 = 0 ∧ m 1 0 * i 0 1 + m 1 1 * i 1 1 = 1) := by
  obtain ⟨h1, h2⟩ := inv2_mul h
  have e : ∀ (a b : Matrix (Fin 2) (Fin 2) K), a * b = 1 →
      (a 0 0 * b 0 0 + a 0 1 * b 1 0 = 1 ∧ a 0 0 * b 0 1 + a 0 1 * b 1 1 = 0 ∧
      a 1 0 * b 0 0 + a 1 1 * b 1 0 = 0 ∧ a 1 0 * b 0 1 + a 1 1 * b 1 1 = 1) := by
    intro a b hab
    have := fun p q => congrFun (congrFun hab p) q
    simp only [Matrix.mul_apply, Fin.sum_univ_two] at this
    refine ⟨by simpa using this 0 0, by simpa using this 0 1, by simpa using this 1 0,
      by simpa using this 1 1⟩
  exact ⟨e _ _ h2, e _ _ h1⟩

theorem condense2_release (k kr : Mat4 K) (h : condense2 k = .ok kr) :
    IsReleaseOf k kr [1, 3] := by
  unfold condense2 at h
  split at h
  · cases h
  rename_i i hi
  cases h
  obtain ⟨⟨a1, a2, a3, a4⟩, b1, b2, b3, b4⟩ := inv2_eqs hi
  simp at a1 a2 a3 a4 b1 b2 b3 b4
  constructor
  · intro d
    refine ⟨![d 0, -(i 0 0 * (k 1 0 * d 0 + k 1 2 * d 2) + i 0 1 * (k 3 0 * d 0 + k 3 2 * d 2)),
      d 2, -(i 1 0 * (k 1 0 * d 0 + k 1 2 * d 2) + i 1 1 * (k 3 0 * d 0 + k 3 2 * d 2))], ?_, ?_⟩
    · intro p hp
      fin_cases p <;> simp at hp ⊢
    · intro r hr
      simp at hr
      rcases hr with rfl | rfl
      · rw [mulVec4]
        simp
        linear_combination (-(k 1 0 * d 0 + k 1 2 * d 2)) * b1 - (k 3 0 * d 0 + k 3 2 * d 2) * b2
      · rw [mulVec4]
        simp
        linear_combination (-(k 1 0 * d 0 + k 1 2 * d 2)) * b3 - (k 3 0 * d 0 + k 3 2 * d 2) * b4
  · intro d d' hk hz
    have z1 := hz 1 (by simp)
    have z3 := hz 3 (by simp)
    have k0 := hk 0 (by simp)
    have k2 := hk 2 (by simp)
    rw [mulVec4, k0, k2] at z1 z3
    ext p
    rw [mulVec4, mulVec4, k0, k2]
    rcases fin4_ne p with rfl | rfl | rfl | rfl
    · simp
      linear_combination (-(k 0 1 * i 0 0 + k 0 3 * i 1 0)) * z1
        - (k 0 1 * i 0 1 + k 0 3 * i 1 1) * z3
        + d' 1 * (k 0 1 * a1 + k 0 3 * a3) + d' 3 * (k 0 1 * a2 + k 0 3 * a4)
    · simp
      linear_combination -z1
    · simp
      linear_combination (-(k 2 1 * i 0 0 + k 2 3 * i 1 0)) * z1
        - (k 2 1 * i 0 1 + k 2 3 * i 1 1) * z3
        + d' 1 * (k 2 1 * a1 + k 2 3 * a3) + d' 3 * (k 2 1 * a2 + k 2 3 * a4)
    · simp
      linear_combination -z3

theorem condenseFor_release (k kr : Mat4 K) (et : EType) (h : condenseFor k et = .ok kr) :
    IsReleaseOf k kr et.released := by
  cases et with
  | FF =>
    cases h
    refine ⟨fun d => ⟨d, by simp [EType.released]⟩, fun d d' hk _ => ?_⟩
    have : d' = d := funext fun p => hk p (by simp [EType.released])
    rw [this]
  | FP => exact condense1_release k kr 3 h
  | PF => exact condense1_release k kr 1 h
  | PP => exact condense2_release k kr h

theorem IsReleaseOf.energy_eq {kff kr : Mat4 K} {rel : List (Fin 4)} (h : IsReleaseOf kff kr rel)
    (d : Vec4 K) : ∃ d' : Vec4 K, (∀ p, p ∉ rel → d' p = d p) ∧
      energy kr d = energy kff d' := by
  obtain ⟨d', h1, h2⟩ := h.1 d
  refine ⟨d', h1, ?_⟩
  simp only [energy]
  rw [h.2 d d' h1 h2]
  simp only [dotProduct]
  apply Finset.sum_congr rfl
  intro p _
  by_cases hp : p ∈ rel
  · rw [h2 p hp]; simp
  · rw [h1 p hp]

/-- A release of a symmetric stiffness is symmetric. -/
theorem IsReleaseOf.symm {kff kr : Mat4 K} {rel : List (Fin 4)} (h : IsReleaseOf kff kr rel)
    (hs : kff.transpose = kff) : kr.transpose = kr := by
  have key : ∀ d e : Vec4 K, e ⬝ᵥ (kr *ᵥ d) = d ⬝ᵥ (kr *ᵥ e) := by
    intro d e
    obtain ⟨d', d1, d2⟩ := h.1 d
    obtain ⟨e', e1, e2⟩ := h.1 e
    rw [h.2 d d' d1 d2, h.2 e e' e1 e2]
    have a1 : e ⬝ᵥ (kff *ᵥ d') = e' ⬝ᵥ (kff *ᵥ d') := by
      simp only [dotProduct]
      apply Finset.sum_congr rfl
      intro p _
      by_cases hp : p ∈ rel
      · rw [d2 p hp]; simp
      · rw [e1 p hp]
    have a2 : d ⬝ᵥ (kff *ᵥ e') = d' ⬝ᵥ (kff *ᵥ e') := by
      simp only [dotProduct]
      apply Finset.sum_congr rfl
      intro p _
      by_cases hp : p ∈ rel
      · rw [e2 p hp]; simp
      · rw [d1 p hp]
    rw [a1, a2, dotProduct_mulVec, ← mulVec_transpose, hs, dotProduct_comm]
  ext p q
  have := key (Pi.single p 1) (Pi.single q 1)
  simpa using this

theorem IsReleaseOf.rigid {kff kr : Mat4 K} {rel : List (Fin 4)} (h : IsReleaseOf kff kr rel)
    (d : Vec4 K) (hd : kff *ᵥ d = 0) : kr *ᵥ d = 0 := by
  rw [h.2 d d (fun _ _ => rfl) (fun r _ => by rw [hd]; rfl), hd]

theorem IsReleaseOf.row_zero {kff kr : Mat4 K} {rel : List (Fin 4)} (h : IsReleaseOf kff kr rel)
    (d : Vec4 K) (r : Fin 4) (hr : r ∈ rel) : (kr *ᵥ d) r = 0 := by
  obtain ⟨d', h1, h2⟩ := h.1 d
  rw [h.2 d d' h1 h2, h2 r hr]

/-! ### The fixed-fixed stiffness behind every member -/

theorem kFFtimo_eq (EI GAv L : K) (hE : 0 < EI) (hg : 0 < GAv) (hL : 0 < L) :
    ∃ Kth, inv2 (timoFlexibility (.const EI) (.const GAv) L) = .ok Kth ∧
      kFFtimo EI GAv L = TtKT Kth L := by
  obtain ⟨Kth, h1, _⟩ := (timoFlexibility_PD2 (.const EI) (.const GAv) hE hg L hL).inv
  refine ⟨Kth, h1, ?_⟩
  obtain ⟨hd, rfl⟩ := inv2_ok h1
  have hphi : 1 + 12 * EI / (GAv * L ^ 2) ≠ 0 := by positivity
  have hphi' : GAv * L ^ 2 + 12 * EI ≠ 0 := by positivity
  have hd2 : timoFlexibility (.const EI) (.const GAv) L 0 0 * timoFlexibility (.const EI) (.const GAv) L 1 1 - timoFlexibility (.const EI) (.const GAv) L 0 1 * timoFlexibility (.const EI) (.const GAv) L 1 0 = (GAv * L ^ 2 + 12 * EI) / (12 * GAv * EI ^ 2) := by
    simp [timoFlexibility, shearFlexibility]
    field_simp
    ring
  rw [hd2, TtKT_apply]
  ext p q
  fin_cases p <;> fin_cases q <;>
    simp [kFFtimo, timoFlexibility, shearFlexibility] <;> field_simp <;> ring

theorem kFF_eq (EI L : K) :
    kFF EI L = TtKT !![4 * EI / L, 2 * EI / L; 2 * EI / L, 4 * EI / L] L := by
  rw [TtKT_apply]
  ext p q
  fin_cases p <;> fin_cases q <;> simp [kFF] <;> ring

end PyCBA
