import Verif.Analysis.Stability
import Verif.Analysis.Equil

set_option linter.unusedSectionVars false
set_option linter.unusedSimpArgs false

/-!
C153: a stiffer member stores at least the energy of a softer one, whatever its end
displacements, and a stiffer beam needs at least the work of a softer one to be forced into
the same support settlements.
-/

namespace PyCBA

open Matrix Finset

variable {K : Type*} [Field K] [LinearOrder K] [IsStrictOrderedRing K]

/-! ### Specification vocabulary -/

/-- A rigidity nowhere above another: two numbers, or two sections integrated at the same
stations. -/
def Rigidity.AtMost : Rigidity K → Rigidity K → Prop
  | .const e, .const e' => e ≤ e'
  | .section s, .section s' =>
      List.Forall₂ (fun n n' => n.x = n'.x ∧ n.w = n'.w ∧ n.EI ≤ n'.EI) s.nodes s'.nodes
  | _, _ => False

/-- `m` is nowhere stiffer than `m'`: equal lengths, smaller rigidities, the shear flexibility
of `m'` (if it has one) also in `m`, and every end released in `m'` released in `m`. -/
structure Member.AtMost (m m' : Member K) : Prop where
  L : m.L = m'.L
  EI : m.EI.AtMost m'.EI
  GAv : m'.GAv = none ∨ ∃ g g', m.GAv = some g ∧ m'.GAv = some g' ∧ g.AtMost g'
  et : ∀ r ∈ m'.et.released, r ∈ m.et.released

/-- The force that has to act from outside on component `c` of node `j` of an analysed beam:
the end forces of the members meeting there and the spring force. -/
def BeamDef.holding (b : BeamDef K) (res : Result K) (j : ℕ) (c : Fin 2) : K :=
  (if 0 < j then res.fmbr (j - 1) ⟨2 + c, by omega⟩ else 0)
    + (if j < b.members.length then res.fmbr j ⟨c, by omega⟩ else 0)
    + max (b.restraints.getD (2 * j + c) 0) 0 * res.d (2 * j + c)

/-- The work of the holding forces on the prescribed displacements of a beam. -/
def BeamDef.settlementWork (b : BeamDef K) (res : Result K) : K :=
  ∑ j ∈ range (b.members.length + 1), ∑ c : Fin 2,
    (b.presc.getD (2 * j + c) none).getD 0 * b.holding res j c

/-! ### Helpers: members -/

/-- The flexibility of the member with hinged ends. -/
def Member.flex (m : Member K) : Matrix (Fin 2) (Fin 2) K :=
  match m.GAv, m.EI with
  | some g, e => timoFlexibility e g m.L
  | none, .section s => flexibility s.nodes m.L
  | none, .const e => !![m.L / (3 * e), -m.L / (6 * e); -m.L / (6 * e), m.L / (3 * e)]

theorem TtKT_inj {A B : Matrix (Fin 2) (Fin 2) K} {L : K} (h : TtKT A L = TtKT B L) : A = B := by
  have h' := fun p q => congrFun (congrFun h p) q
  rw [TtKT_apply, TtKT_apply] at h'
  have h11 := h' 1 1
  have h13 := h' 1 3
  have h31 := h' 3 1
  have h33 := h' 3 3
  simp at h11 h13 h31 h33
  ext p q
  fin_cases p <;> fin_cases q <;> assumption

theorem constFlex_quad (e L : K) (he : 0 < e) (a b : K) :
    quad2 (!![L / (3 * e), -L / (6 * e); -L / (6 * e), L / (3 * e)] :
        Matrix (Fin 2) (Fin 2) K) a b = L / (6 * e) * (a ^ 2 + b ^ 2 + (a - b) ^ 2) := by
  simp only [quad2]
  simp
  field_simp
  ring

/-- The released stiffness of a member from its flexibility. -/
theorem Member.spanK_flex (m : Member K) (hm : m.Good) :
    ∃ Kth kr, PD2 m.flex ∧ PD2 Kth ∧ inv2 m.flex = .ok Kth ∧
      condenseFor (TtKT Kth m.L) m.et = .ok kr ∧ m.spanK = .ok kr := by
  obtain ⟨Kth, kr, h1, h2, h3, h4⟩ := m.spanK_form hm
  have key : PD2 m.flex ∧ ∀ K0, inv2 m.flex = .ok K0 →
      ({ m with et := .FF } : Member K).spanK = .ok (TtKT K0 m.L) := by
    obtain ⟨EI, L, et, GAv⟩ := m
    obtain ⟨hL, hE, hG⟩ := hm
    cases GAv with
    | none =>
      cases EI with
      | const e =>
        have he : (0 : K) < e := hE
        have hL' : (0 : K) < L := hL
        refine ⟨⟨by simp [Member.flex], fun a b h => ?_⟩, fun K0 h0 => ?_⟩
        · simp only [Member.flex]
          rw [constFlex_quad e L he]
          have h3 : 0 < a ^ 2 + b ^ 2 := by
            by_contra hc
            push Not at hc
            apply h
            constructor <;> nlinarith [sq_nonneg a, sq_nonneg b]
          positivity
        · obtain ⟨hd, hi⟩ := inv2_ok h0
          have hdet : L / (3 * e) * (L / (3 * e)) - -L / (6 * e) * (-L / (6 * e))
              = L ^ 2 / (12 * e ^ 2) := by field_simp; ring
          have hK : K0 = !![4 * e / L, 2 * e / L; 2 * e / L, 4 * e / L] := by
            rw [hi]
            simp only [Member.flex]
            ext p q
            fin_cases p <;> fin_cases q <;> simp [hdet] <;> field_simp <;> ring
          simp only [Member.spanK, hK, kFF_eq]
      | «section» ns =>
        refine ⟨flexibility_PD2 _ hE L hL, fun K0 h0 => ?_⟩
        simp only [Member.flex] at h0
        simp only [Member.spanK, kNonprismatic, h0, condenseFor]
    | some g =>
      have hg := hG g rfl
      refine ⟨timoFlexibility_PD2 EI g hE hg L hL, fun K0 h0 => ?_⟩
      simp only [Member.flex] at h0
      cases EI with
      | const e =>
        cases g with
        | const g =>
          obtain ⟨K1, k1, k2⟩ := kFFtimo_eq e g L hE hg hL
          rw [k1] at h0
          cases h0
          simp only [Member.spanK, condenseFor, k2]
        | «section» gs => simp only [Member.spanK, kTimoshenko, h0, condenseFor]
      | «section» ns => simp only [Member.spanK, kTimoshenko, h0, condenseFor]
  obtain ⟨K0, k0, _⟩ := key.1.inv
  have := key.2 K0 k0
  rw [h2] at this
  have hK : Kth = K0 := TtKT_inj (Except.ok.inj this)
  subst hK
  exact ⟨Kth, kr, key.1, h1, k0, h3, h4⟩

theorem sum_forall₂_le {l l' : List (GNode K)} (f : GNode K → K)
    (h : List.Forall₂ (fun n n' => n.x = n'.x ∧ n.w = n'.w ∧ n.EI ≤ n'.EI) l l')
    (hf : ∀ n ∈ l, ∀ n', n.x = n'.x → n.w = n'.w → n.EI ≤ n'.EI → f n' ≤ f n) :
    (l'.map f).sum ≤ (l.map f).sum := by
  induction h with
  | nil => simp
  | cons hab _ ih =>
    simp only [List.map_cons, List.sum_cons]
    exact add_le_add (hf _ (by simp) _ hab.1 hab.2.1 hab.2.2)
      (ih fun n hn => hf n (by simp [hn]))

/-- A smaller shear rigidity gives a larger shear flexibility. -/
theorem shearFlexibility_anti {g g' : Rigidity K} (h : g.AtMost g') (hg : g.Good) (L : K)
    (hL : 0 < L) : shearFlexibility g' L ≤ shearFlexibility g L := by
  cases g with
  | const v =>
    cases g' with
    | const v' =>
      have h1 : v ≤ v' := h
      have h2 : (0 : K) < v := hg
      simp only [shearFlexibility]
      gcongr
    | «section» s' => exact h.elim
  | «section» s =>
    cases g' with
    | const v' => exact h.elim
    | «section» s' =>
      simp only [shearFlexibility]
      apply div_le_div_of_nonneg_right _ (by positivity)
      apply sum_forall₂_le (fun n => n.w / n.EI) h
      intro n hn n' _ hw hE
      have := hg.1 n hn
      rw [← hw]
      exact div_le_div_of_nonneg_left this.1.le this.2 hE

/-- The bending part of the flexibility. -/
def bendFlex (EI : Rigidity K) (L : K) : Matrix (Fin 2) (Fin 2) K :=
  match EI with
  | .section s => flexibility s.nodes L
  | .const e => !![L / (3 * e), -L / (6 * e); -L / (6 * e), L / (3 * e)]

theorem bendFlex_anti {E E' : Rigidity K} (h : E.AtMost E') (hE : E.Good) (L : K)
    (hL : 0 < L) (a b : K) : quad2 (bendFlex E' L) a b ≤ quad2 (bendFlex E L) a b := by
  cases E with
  | const v =>
    cases E' with
    | const v' =>
      have h1 : v ≤ v' := h
      have h2 : (0 : K) < v := hE
      simp only [bendFlex]
      rw [constFlex_quad v L h2, constFlex_quad v' L (lt_of_lt_of_le h2 h1)]
      gcongr
    | «section» s' => exact h.elim
  | «section» s =>
    cases E' with
    | const v' => exact h.elim
    | «section» s' =>
      simp only [bendFlex]
      rw [flexibility_quad, flexibility_quad]
      apply sum_forall₂_le (fun n => n.w / n.EI * (a * (1 - n.x / L) + b * (-n.x / L)) ^ 2) h
      intro n hn n' hx hw hE'
      have := hE.1 n hn
      rw [← hw, ← hx]
      exact mul_le_mul_of_nonneg_right (div_le_div_of_nonneg_left this.1.le this.2 hE')
        (sq_nonneg _)

theorem Member.flex_quad (m : Member K) (a b : K) :
    quad2 m.flex a b = quad2 (bendFlex m.EI m.L) a b + (match m.GAv with
      | none => 0
      | some g => shearFlexibility g m.L) * (a + b) ^ 2 := by
  obtain ⟨EI, L, et, GAv⟩ := m
  cases GAv with
  | none => cases EI <;> simp [Member.flex, bendFlex]
  | some g => cases EI <;> simp [Member.flex, timoFlexibility, bendFlex, quad2] <;> ring

theorem Member.flex_anti {m m' : Member K} (h : m.AtMost m') (hm : m.Good) (a b : K) :
    quad2 m'.flex a b ≤ quad2 m.flex a b := by
  rw [m.flex_quad, m'.flex_quad, ← h.L]
  apply add_le_add (bendFlex_anti h.EI hm.2.1 m.L hm.1 a b)
  apply mul_le_mul_of_nonneg_right _ (sq_nonneg _)
  rcases h.GAv with h0 | ⟨g, g', h1, h2, h3⟩
  · rw [h0]
    cases hg : m.GAv with
    | none => exact le_rfl
    | some g => exact shearFlexibility_nonneg g (hm.2.2 g hg) m.L hm.1
  · rw [h1, h2]
    exact shearFlexibility_anti h3 (hm.2.2 g h1) m.L hm.1

/-- The inverse reverses the order of positive definite matrices. -/
theorem inv2_anti {F F' i i' : Matrix (Fin 2) (Fin 2) K} (hF' : PD2 F')
    (hi : inv2 F = .ok i) (hi' : inv2 F' = .ok i')
    (hle : ∀ a b, quad2 F' a b ≤ quad2 F a b) (a b : K) : quad2 i a b ≤ quad2 i' a b := by
  obtain ⟨_, e1, e2, e3, e4⟩ := inv2_eqs hi
  obtain ⟨_, f1, f2, f3, f4⟩ := inv2_eqs hi'
  set p := i 0 0 * a + i 0 1 * b with hp
  set q := i 1 0 * a + i 1 1 * b with hq
  set p' := i' 0 0 * a + i' 0 1 * b with hp'
  set q' := i' 1 0 * a + i' 1 1 * b with hq'
  have ha : a = F 0 0 * p + F 0 1 * q := by
    rw [hp, hq]; linear_combination (-a) * e1 - b * e2
  have hb : b = F 1 0 * p + F 1 1 * q := by
    rw [hp, hq]; linear_combination (-a) * e3 - b * e4
  have ha' : a = F' 0 0 * p' + F' 0 1 * q' := by
    rw [hp', hq']; linear_combination (-a) * f1 - b * f2
  have hb' : b = F' 1 0 * p' + F' 1 1 * q' := by
    rw [hp', hq']; linear_combination (-a) * f3 - b * f4
  have h1 : quad2 i a b = a * p + b * q := by simp only [quad2, hp, hq]; ring
  have h2 : quad2 i' a b = a * p' + b * q' := by simp only [quad2, hp', hq']; ring
  have h3 : quad2 F p q = a * p + b * q := by
    simp only [quad2]; linear_combination (-p) * ha - q * hb
  have h4 : 0 ≤ quad2 F' (p - p') (q - q') := by
    by_cases hz : p - p' = 0 ∧ q - q' = 0
    · rw [hz.1, hz.2]; simp [quad2]
    · exact (hF'.2 _ _ hz).le
  have h5 : quad2 F' (p - p') (q - q')
      = quad2 F' p q - 2 * (a * p + b * q) + (a * p' + b * q') := by
    have hs := hF'.1
    simp only [quad2]
    rw [← hs] at hb' ⊢
    linear_combination (2 * p - p') * ha' + (2 * q - q') * hb'
  have h6 := hle p q
  rw [h1, h2]
  linarith

theorem energy_add_vec (k : Mat4 K) (hs : k.transpose = k) (d e : Vec4 K) :
    energy k (d + e) = energy k d + 2 * (e ⬝ᵥ (k *ᵥ d)) + energy k e := by
  have h : d ⬝ᵥ (k *ᵥ e) = e ⬝ᵥ (k *ᵥ d) := by
    rw [dotProduct_mulVec, ← hs, vecMul_transpose, hs, dotProduct_comm]
  simp only [energy, mulVec_add, add_dotProduct, dotProduct_add, h]
  ring

/-- The released member stores the least energy possible with the kept displacements. -/
theorem IsReleaseOf.energy_le {kff kr : Mat4 K} {rel : List (Fin 4)} (h : IsReleaseOf kff kr rel)
    (hs : kff.transpose = kff) (hpos : ∀ d, 0 ≤ energy kff d) (d x : Vec4 K)
    (hx : ∀ p, p ∉ rel → x p = d p) : energy kr d ≤ energy kff x := by
  obtain ⟨d', h1, h2⟩ := h.1 d
  have e1 : energy kr d = energy kff d' := by
    simp only [energy]
    rw [h.2 d d' h1 h2, dot4, dot4]
    have : ∀ p, d p * (kff *ᵥ d') p = d' p * (kff *ᵥ d') p := by
      intro p
      by_cases hp : p ∈ rel
      · rw [h2 p hp, mul_zero, mul_zero]
      · rw [h1 p hp]
    simp only [this]
  have e2 : x = d' + (x - d') := by abel
  have e3 : (x - d') ⬝ᵥ (kff *ᵥ d') = 0 := by
    rw [dot4]
    have : ∀ p, (x - d') p * (kff *ᵥ d') p = 0 := by
      intro p
      by_cases hp : p ∈ rel
      · rw [h2 p hp, mul_zero]
      · rw [Pi.sub_apply, hx p hp, h1 p hp, sub_self, zero_mul]
    simp only [this, add_zero]
  rw [e1, e2, energy_add_vec kff hs, e3]
  have := hpos (x - d')
  linarith

/-! ## C153: members -/

/-- **C153** (members): of two members of the same length, the one with the larger
rigidities, no more shear flexibility and no more moment releases stores at least as much
energy as the other at the same end displacements. -/
theorem C153_member (m m' : Member K) (h : m.AtMost m') (hm : m.Good) (hm' : m'.Good) :
    ∃ k k', m.spanK = .ok k ∧ m'.spanK = .ok k' ∧ ∀ d, energy k d ≤ energy k' d := by
  obtain ⟨i, k, a1, a2, a3, a4, a5⟩ := m.spanK_flex hm
  obtain ⟨i', k', b1, b2, b3, b4, b5⟩ := m'.spanK_flex hm'
  refine ⟨k, k', a5, b5, fun d => ?_⟩
  have hr := condenseFor_release _ _ _ a4
  obtain ⟨x, x1, x2⟩ := (condenseFor_release _ _ _ b4).energy_eq d
  have hpos : ∀ d, 0 ≤ energy (TtKT i m.L) d := by
    intro d
    rw [energy_TtKT]
    by_cases hz : (chordRot d m.L).1 = 0 ∧ (chordRot d m.L).2 = 0
    · rw [hz.1, hz.2]; simp [quad2]
    · exact (a2.2 _ _ hz).le
  have e1 := hr.energy_le (TtKT_symm _ _ a2.1) hpos d x fun p hp =>
    x1 p fun hp' => hp (h.et p hp')
  have e2 : energy (TtKT i m.L) x ≤ energy (TtKT i' m'.L) x := by
    rw [energy_TtKT, energy_TtKT, ← h.L]
    exact inv2_anti b1 a3 b3 (Member.flex_anti h hm) _ _
  rw [x2]
  exact e1.trans e2

/-- A stepped member hinged at the right against one twice as stiff in its left half, shear
flexible, and the same with fixed ends. -/
def exSofter : Member ℚ :=
  ⟨.section ⟨[⟨1 / 2, 1, 6⟩, ⟨3 / 2, 1, 12⟩], fun x => if x < 1 then 6 else 12, [0, 1, 2]⟩, 2, .FP,
    some (.const 9)⟩
/-- See `exSofter`. -/
def exStiffer : Member ℚ :=
  ⟨.section ⟨[⟨1 / 2, 1, 12⟩, ⟨3 / 2, 1, 12⟩], fun _ => 12, [0, 1, 2]⟩, 2, .FF, none⟩

example : ∃ k k', exSofter.spanK = .ok k ∧ exStiffer.spanK = .ok k' ∧
    (∀ d, energy k d ≤ energy k' d) ∧ energy k ![1, 0, 0, 0] < energy k' ![1, 0, 0, 0] := by
  obtain ⟨k, k', h1, h2, h3⟩ := C153_member exSofter exStiffer
    ⟨rfl, by simp [exSofter, exStiffer, Rigidity.AtMost]; norm_num, .inl rfl,
      by simp [exSofter, exStiffer, EType.released]⟩
    (by simp [exSofter, Member.Good, Rigidity.Good, GoodNodes]; norm_num)
    (by simp [exStiffer, Member.Good, Rigidity.Good, GoodNodes]; norm_num)
  refine ⟨k, k', h1, h2, h3, ?_⟩
  have e1 : (exSofter.spanK.map fun k => decide (energy k ![1, 0, 0, 0] < 2)) = .ok true := by
    decide +kernel
  have e2 : (exStiffer.spanK.map fun k => decide (2 < energy k ![1, 0, 0, 0])) = .ok true := by
    decide +kernel
  rw [h1] at e1
  rw [h2] at e2
  simp only [Except.map, Except.ok.injEq, decide_eq_true_eq] at e1 e2
  exact e1.trans e2

/-! ### Helpers: beams -/

/-- Without loads the displacements of an analysis store the least energy among those with
the prescribed values. -/
theorem System.least_energy (s : System K) (hsym : ∀ i < s.n, (s.kb i)ᵀ = s.kb i)
    (hpos : ∀ i < s.n, ∀ d, 0 ≤ energy (s.kb i) d) (h0 : ∀ p < s.N, s.forces p = 0)
    {d : ℕ → K} (hd : s.IsSolution d) (x : ℕ → K)
    (hx : ∀ p < s.N, ∀ v, s.constr p = some v → x p = v) :
    s.totalEnergy d ≤ s.totalEnergy x := by
  set e : ℕ → K := fun p => 1 * x p + (-1) * d p with he
  have h1 : ∑ p ∈ range s.N, e p * mulN s.N s.assemble d p = 0 := by
    apply Finset.sum_eq_zero
    intro p hp
    have hp' := Finset.mem_range.1 hp
    cases hc : s.constr p with
    | none =>
      have := hd.2 p hp' hc
      simp only [System.residual, h0 p hp', sub_zero] at this
      rw [this, mul_zero]
    | some v =>
      have : e p = 0 := by
        simp only [he, hx p hp' v hc, hd.1 p hp' v hc]
        ring
      rw [this, zero_mul]
  have h2 := mulN_symm_work s hsym d e
  have h3 := s.totalEnergy_nonneg hpos e
  have hxe : x = fun p => 1 * d p + 1 * e p := by
    funext p
    simp only [he]
    ring
  have h4 : s.totalEnergy x = s.totalEnergy d
      + (∑ p ∈ range s.N, d p * mulN s.N s.assemble e p)
      + (∑ p ∈ range s.N, e p * mulN s.N s.assemble d p) + s.totalEnergy e := by
    rw [s.totalEnergy_eq x, s.totalEnergy_eq d, s.totalEnergy_eq e, hxe]
    simp only [mulN_lin, ← Finset.sum_add_distrib]
    apply Finset.sum_congr rfl
    intro p _
    ring
  rw [h4, h2, h1]
  linarith

/-- Sum over the degrees of freedom, node by node. -/
theorem sum_nodes (n : ℕ) (f : ℕ → K) :
    ∑ p ∈ range (2 * n + 2), f p = ∑ j ∈ range (n + 1), ∑ c : Fin 2, f (2 * j + c) := by
  induction n with
  | zero => simp [Finset.sum_range_succ, Fin.sum_univ_two]
  | succ n ih =>
    rw [Finset.sum_range_succ _ (n + 1), ← ih]
    have : 2 * (n + 1) + 2 = (2 * n + 2) + 1 + 1 := by ring
    rw [this, Finset.sum_range_succ, Finset.sum_range_succ, Fin.sum_univ_two, add_assoc]
    rfl

/-- The fixed-end forces of an unloaded beam. -/
theorem BeamDef.unloaded_ref {b : BeamDef K} {s : System K} (h : b.system = .ok s)
    (hLM : b.LM = []) : ∀ i < s.n, s.ref i = 0 := by
  obtain ⟨hn, _, ⟨ls, h1, h2⟩, _⟩ := BeamDef.system_ok h
  intro i hi
  rw [hn] at hi
  have hls : ls = [] := by
    unfold BeamDef.setLoads at h1
    rw [hLM] at h1
    have hp : parseLM ([] : List (Row K)) = .ok [] := rfl
    rw [hp] at h1
    simpa using h1.symm
  obtain ⟨c, h3, h4⟩ := h2 i hi
  rw [hls] at h3
  cases h3
  rw [h4]
  ext p
  fin_cases p <;> rfl

theorem System.spring_eq (s : System K) (p : ℕ) : s.spring p = max (s.r p) 0 := by
  simp only [System.spring]
  split
  · rename_i h
    rw [max_eq_left h.le]
  · rename_i h
    rw [max_eq_right (not_lt.1 h)]

/-- What an analysis of an unloaded beam says about its energy. -/
theorem BeamDef.settlement_energy {b : BeamDef K} {s : System K} (hs : b.system = .ok s)
    (hLM : b.LM = []) {solve : Solver K} (hsol : solve.Sound) {res : Result K}
    (h : s.analyze solve = .ok res) : b.settlementWork res = s.totalEnergy res.d := by
  obtain ⟨hn, _, _, hr, hp, _⟩ := BeamDef.system_ok hs
  obtain ⟨⟨h1, h2⟩, _, _, h5, _⟩ := System.analyze_ok hsol h
  have href := BeamDef.unloaded_ref hs hLM
  have hf : ∀ p < s.N, s.forces p = 0 := by
    intro p hp
    rw [s.forces_eq]
    simp only [neg_eq_zero]
    apply Finset.sum_eq_zero
    intro i hi
    rw [href i (Finset.mem_range.1 hi)]
    simp [blockVec]
  rw [s.totalEnergy_eq]
  have e1 : ∑ p ∈ range s.N, res.d p * mulN s.N s.assemble res.d p
      = ∑ p ∈ range s.N, (s.presc p).getD 0 * s.residual res.d p := by
    apply Finset.sum_congr rfl
    intro p hp
    have hp' := Finset.mem_range.1 hp
    have hm : mulN s.N s.assemble res.d p = s.residual res.d p := by
      simp only [System.residual, hf p hp', sub_zero]
    rw [hm]
    cases hc : s.constr p with
    | none => rw [h2 p hp' hc, mul_zero, mul_zero]
    | some v =>
      rw [h1 p hp' v hc]
      congr 1
      cases hq : s.presc p with
      | none =>
        simp only [System.constr, hq] at hc
        split at hc
        · cases hc; rfl
        · cases hc
      | some w =>
        simp only [System.constr, hq] at hc
        cases hc
        rfl
  rw [e1]
  have hN : s.N = 2 * b.members.length + 2 := by simp only [System.N, hn]
  rw [hN, sum_nodes]
  apply Finset.sum_congr rfl
  intro j hj
  apply Finset.sum_congr rfl
  intro c _
  rw [s.residual_node res.d j (by rw [hn]; exact Nat.lt_succ_iff.1 (Finset.mem_range.1 hj)) c,
    hp, BeamDef.holding, h5, hn, s.spring_eq, hr]

/-! ## C153: beams -/

/-- **C153** (settlements): of two unloaded beams with the same prescribed displacements,
the one whose members are nowhere softer and whose supports are nowhere softer (rigid, or a
spring at least as stiff) needs at least as much work of its supports for these
displacements. -/
theorem C153_settlement (b b' : BeamDef K) (hm : List.Forall₂ Member.AtMost b.members b'.members)
    (hg : ∀ m ∈ b.members, m.Good) (hg' : ∀ m ∈ b'.members, m.Good)
    (hLM : b.LM = []) (hLM' : b'.LM = [])
    (hp : ∀ p, b'.presc.getD p none = b.presc.getD p none)
    (hr : ∀ p, (b'.restraints.getD p 0 < 0 ∧
        (b.restraints.getD p 0 < 0 ∨ b.presc.getD p none = none)) ∨
      (0 ≤ b.restraints.getD p 0 ∧ b.restraints.getD p 0 ≤ b'.restraints.getD p 0))
    (stable stable' : System K → Bool) (solve solve' : Solver K) (hs : solve.Sound)
    (hs' : solve'.Sound) (res res' : Result K) (h : b.analyze stable solve = .ok res)
    (h' : b'.analyze stable' solve' = .ok res') :
    0 ≤ b.settlementWork res ∧ b.settlementWork res ≤ b'.settlementWork res' := by
  obtain ⟨s, a1, a2⟩ := BeamDef.analyze_ok h
  obtain ⟨s', b1, b2⟩ := BeamDef.analyze_ok h'
  obtain ⟨hn, hk, _, hsr, hsp, _⟩ := BeamDef.system_ok a1
  obtain ⟨hn', hk', _, hsr', hsp', _⟩ := BeamDef.system_ok b1
  rw [BeamDef.settlement_energy a1 hLM hs a2, BeamDef.settlement_energy b1 hLM' hs' b2]
  have hpos := BeamDef.system_pos a1 hg
  have hlen : b.members.length = b'.members.length := hm.length_eq
  have hnn : s'.n = s.n := by rw [hn, hn', hlen]
  have hNN : s'.N = s.N := by simp only [System.N, hnn]
  have href := BeamDef.unloaded_ref a1 hLM
  have hf : ∀ p < s.N, s.forces p = 0 := by
    intro p hp
    rw [s.forces_eq]
    simp only [neg_eq_zero]
    apply Finset.sum_eq_zero
    intro i hi
    rw [href i (Finset.mem_range.1 hi)]
    simp [blockVec]
  have c1 := (System.analyze_ok hs a2).1
  have c2 := (System.analyze_ok hs' b2).1
  refine ⟨s.totalEnergy_nonneg hpos _, ?_⟩
  have hsame : ∀ p, s'.presc p = s.presc p := by
    intro p
    rw [hsp, hsp', hp]
  have hadm : ∀ p < s.N, ∀ v, s.constr p = some v → res'.d p = v := by
    intro p hpN v hv
    apply c2.1 p (by rw [hNN]; exact hpN) v
    simp only [System.constr, hsame] at hv ⊢
    cases hq : s.presc p with
    | some w => rw [hq] at hv; exact hv
    | none =>
      rw [hq] at hv
      simp only at hv ⊢
      split at hv
      · rename_i hneg
        rw [if_pos]
        · exact hv
        · rw [hsr] at hneg
          rw [hsr']
          rcases hr p with h1 | h1
          · exact h1.1
          · exact absurd hneg (not_lt.2 h1.1)
      · cases hv
  refine (s.least_energy (BeamDef.system_symm a1) hpos hf c1 res'.d hadm).trans ?_
  simp only [System.totalEnergy]
  rw [hnn, hNN]
  apply add_le_add
  · apply Finset.sum_le_sum
    intro i hi
    have hi' := Finset.mem_range.1 hi
    have l1 : i < b.members.length := by rw [← hn]; exact hi'
    have l2 : i < b'.members.length := by rw [← hlen]; exact l1
    obtain ⟨k, k', e1, e2, e3⟩ := C153_member _ _ (hm.get l1 l2) (hg _ (List.getElem_mem l1))
      (hg' _ (List.getElem_mem l2))
    simp only [List.get_eq_getElem] at e1 e2
    rw [hk i l1] at e1
    rw [hk' i l2] at e2
    cases e1
    cases e2
    exact e3 _
  · apply Finset.sum_le_sum
    intro p hpm
    have hpN := Finset.mem_range.1 hpm
    rw [s.spring_eq, s'.spring_eq, hsr, hsr']
    rcases hr p with ⟨h1, h2⟩ | ⟨h1, h2⟩
    · rcases h2 with h2 | h2
      · rw [max_eq_right h2.le, max_eq_right h1.le]
      · have hz : res'.d p = 0 := by
          apply c2.1 p (by rw [hNN]; exact hpN) 0
          simp only [System.constr, hsame]
          rw [hsp, h2]
          simp only
          rw [if_pos (by rw [hsr']; exact h1)]
        rw [hz]
        simp
    · exact mul_le_mul_of_nonneg_right (max_le_max_right 0 h2) (sq_nonneg _)

/-- **C153** (one settlement): with a single prescribed displacement `w`, the force that
holds it, taken in its direction, is not smaller in the stiffer beam. -/
theorem C153_one_settlement (b b' : BeamDef K)
    (hm : List.Forall₂ Member.AtMost b.members b'.members)
    (hg : ∀ m ∈ b.members, m.Good) (hg' : ∀ m ∈ b'.members, m.Good)
    (hLM : b.LM = []) (hLM' : b'.LM = []) (j : ℕ) (c : Fin 2) (w : K)
    (hj : j ≤ b.members.length)
    (hp : ∀ p, (b.presc.getD p none).getD 0 = if p = 2 * j + c then w else 0)
    (hpp : ∀ p, b'.presc.getD p none = b.presc.getD p none)
    (hr : ∀ p, (b'.restraints.getD p 0 < 0 ∧
        (b.restraints.getD p 0 < 0 ∨ b.presc.getD p none = none)) ∨
      (0 ≤ b.restraints.getD p 0 ∧ b.restraints.getD p 0 ≤ b'.restraints.getD p 0))
    (stable stable' : System K → Bool) (solve solve' : Solver K) (hs : solve.Sound)
    (hs' : solve'.Sound) (res res' : Result K) (h : b.analyze stable solve = .ok res)
    (h' : b'.analyze stable' solve' = .ok res') :
    0 ≤ w * b.holding res j c ∧ w * b.holding res j c ≤ w * b'.holding res' j c := by
  have key : ∀ (b : BeamDef K) (res : Result K), j ≤ b.members.length →
      (∀ p, (b.presc.getD p none).getD 0 = if p = 2 * j + c then w else 0) →
      b.settlementWork res = w * b.holding res j c := by
    intro b res hj hp
    simp only [BeamDef.settlementWork, hp]
    rw [Finset.sum_eq_single j]
    · rw [Finset.sum_eq_single c]
      · simp
      · intro c' _ hc
        rw [if_neg fun h => hc (Fin.ext (by omega)), zero_mul]
      · simp
    · intro j' _ hj'
      apply Finset.sum_eq_zero
      intro c' _
      have h1 := c.isLt
      have h2 := c'.isLt
      rw [if_neg (by omega), zero_mul]
    · intro hn
      exact absurd (Finset.mem_range.2 (Nat.lt_succ_of_le hj)) hn
  have hlen : b.members.length = b'.members.length := hm.length_eq
  have h0 := C153_settlement b b' hm hg hg' hLM hLM' hpp hr stable stable' solve solve' hs hs' res
    res' h h'
  rw [key b res hj hp, key b' res' (by rw [← hlen]; exact hj) fun p => by rw [hpp, hp]] at h0
  exact h0

/-- The beam `exBeam 0 (some 1) []` with twice the rigidity and its right end kept from
turning. -/
def exClampedTip : BeamDef ℚ :=
  ⟨[⟨.const 12, 2, .FF, none⟩], [-1, -1, 0, -1], [none, none, some 1, none], []⟩

/-- A cantilever whose tip is lifted by 1 needs a force of 9/4; with twice the rigidity and the
tip kept from turning it needs 18. -/
example : ∃ res res',
    (exBeam 0 (some 1) []).analyze (fun _ => true)
      (trySolver fun p => [0, 0, 1, 3 / 4].getD p 0) = .ok res ∧
    exClampedTip.analyze (fun _ => true)
      (trySolver fun p => [0, 0, 1, 0].getD p 0) = .ok res' ∧
    (exBeam 0 (some 1) []).holding res 1 0 = 9 / 4 ∧
    exClampedTip.holding res' 1 0 = 18 ∧
    (1 : ℚ) * (exBeam 0 (some 1) []).holding res 1 0
      ≤ 1 * exClampedTip.holding res' 1 0 := by
  obtain ⟨res, h1, h2⟩ := ok_of_map
    (x := (exBeam 0 (some 1) []).analyze (fun _ => true)
      (trySolver fun p => [0, 0, 1, 3 / 4].getD p 0))
    (f := fun res => (exBeam 0 (some 1) []).holding res 1 0) (y := 9 / 4) (by decide +kernel)
  obtain ⟨res', h3, h4⟩ := ok_of_map
    (x := exClampedTip.analyze (fun _ => true) (trySolver fun p => [0, 0, 1, 0].getD p 0))
    (f := fun res => exClampedTip.holding res 1 0) (y := 18) (by decide +kernel)
  refine ⟨res, res', h1, h3, h2, h4, (C153_one_settlement (exBeam 0 (some 1) []) exClampedTip ?_ ?_ ?_ rfl rfl
    1 0 1 (by simp [exBeam]) ?_ (fun _ => rfl) ?_ _ _ _ _ (trySolver_sound _) (trySolver_sound _)
    res res' h1 h3).2⟩
  · refine .cons ⟨rfl, ?_, .inl rfl, by simp [EType.released]⟩ .nil
    show (6 : ℚ) ≤ 12
    norm_num
  · simp [exBeam, exPrismatic_good]
  · simp [exClampedTip, Member.Good, Rigidity.Good]
  · rintro (_ | _ | _ | _ | p) <;> simp [exBeam]
  · rintro (_ | _ | _ | _ | p) <;> simp [exBeam, exClampedTip]

/-! ## C153: loads -/

/-- The displacements of an analysis have the least potential energy among those that keep the
supports. -/
theorem System.least_potential (s : System K) (hsym : ∀ i < s.n, (s.kb i)ᵀ = s.kb i)
    (hpos : ∀ i < s.n, ∀ d, 0 ≤ energy (s.kb i) d)
    {d : ℕ → K} (hd : s.IsSolution d) (x : ℕ → K)
    (hx : ∀ p < s.N, ∀ v, s.constr p = some v → x p = v) :
    s.totalEnergy d - 2 * ∑ p ∈ range s.N, s.forces p * d p
      ≤ s.totalEnergy x - 2 * ∑ p ∈ range s.N, s.forces p * x p := by
  set e : ℕ → K := fun p => 1 * x p + (-1) * d p with he
  have h1 : ∑ p ∈ range s.N, e p * mulN s.N s.assemble d p
      = ∑ p ∈ range s.N, s.forces p * e p := by
    apply Finset.sum_congr rfl
    intro p hp
    have hp' := Finset.mem_range.1 hp
    cases hc : s.constr p with
    | none =>
      have := hd.2 p hp' hc
      simp only [System.residual] at this
      linear_combination e p * this
    | some v =>
      have : e p = 0 := by
        simp only [he, hx p hp' v hc, hd.1 p hp' v hc]
        ring
      rw [this, zero_mul, mul_zero]
  have h2 := mulN_symm_work s hsym d e
  have h3 := s.totalEnergy_nonneg hpos e
  have hxe : x = fun p => 1 * d p + 1 * e p := by
    funext p
    simp only [he]
    ring
  have h4 : s.totalEnergy x = s.totalEnergy d
      + (∑ p ∈ range s.N, d p * mulN s.N s.assemble e p)
      + (∑ p ∈ range s.N, e p * mulN s.N s.assemble d p) + s.totalEnergy e := by
    rw [s.totalEnergy_eq x, s.totalEnergy_eq d, s.totalEnergy_eq e, hxe]
    simp only [mulN_lin, ← Finset.sum_add_distrib]
    apply Finset.sum_congr rfl
    intro p _
    ring
  have h5 : ∑ p ∈ range s.N, s.forces p * x p
      = (∑ p ∈ range s.N, s.forces p * d p) + ∑ p ∈ range s.N, s.forces p * e p := by
    rw [← Finset.sum_add_distrib]
    apply Finset.sum_congr rfl
    intro p _
    simp only [he]
    ring
  rw [h4, h5, h2, h1]
  linarith

/-- The work of the nodal forces, member by member. -/
theorem System.forces_work_members (s : System K) (x : ℕ → K) :
    ∑ p ∈ range s.N, s.forces p * x p = -∑ i ∈ range s.n, s.ref i ⬝ᵥ elemVec x i := by
  simp only [s.forces_eq, neg_mul, Finset.sum_neg_distrib, Finset.sum_mul]
  rw [Finset.sum_comm]
  congr 1
  apply Finset.sum_congr rfl
  intro i hi
  have hi' : 2 * i + 4 ≤ s.N := by
    simp only [Finset.mem_range, System.N] at hi ⊢
    omega
  rw [Finset.sum_congr rfl fun p _ => mul_comm _ _, sum_blockVec s.N (2 * i) hi', dotProduct_comm]
  rfl

/-- With unyielding supports the stored energy is the work of the nodal forces. -/
theorem System.energy_work (s : System K) {d : ℕ → K} (hd : s.IsSolution d)
    (h0 : ∀ p, s.presc p = none) :
    s.totalEnergy d = ∑ p ∈ range s.N, s.forces p * d p := by
  rw [s.totalEnergy_eq]
  apply Finset.sum_congr rfl
  intro p hp
  have hp' := Finset.mem_range.1 hp
  cases hc : s.constr p with
  | none =>
    have := hd.2 p hp' hc
    simp only [System.residual] at this
    linear_combination d p * this
  | some v =>
    have hv : v = 0 := by
      simp only [System.constr, h0] at hc
      split at hc
      · cases hc; rfl
      · cases hc
    rw [hd.1 p hp' v hc, hv, zero_mul, mul_zero]

/-- **C153** (loads): of two beams under the same loads, with the same fixed-end forces `c`
and no prescribed displacements, the one whose members and supports are nowhere softer gives
way less: the fixed-end forces, applied to the nodes in reverse, do nonnegative work on the
displacements, and no more in the stiffer beam. -/
theorem C153_loads (b b' : BeamDef K) (hm : List.Forall₂ Member.AtMost b.members b'.members)
    (hg : ∀ m ∈ b.members, m.Good) (hg' : ∀ m ∈ b'.members, m.Good)
    (ls : List (SpanLoad K)) (hls : b.setLoads = .ok ls) (hls' : b'.setLoads = .ok ls)
    (c : ℕ → CNL K) (hc : ∀ i (hi : i < b.members.length), b.members[i].refSum i ls = .ok (c i))
    (hc' : ∀ i (hi : i < b'.members.length), b'.members[i].refSum i ls = .ok (c i))
    (hp : ∀ p, b.presc.getD p none = none) (hp' : ∀ p, b'.presc.getD p none = none)
    (hr : ∀ p, b'.restraints.getD p 0 < 0 ∨
      (0 ≤ b.restraints.getD p 0 ∧ b.restraints.getD p 0 ≤ b'.restraints.getD p 0))
    (stable stable' : System K → Bool) (solve solve' : Solver K) (hs : solve.Sound)
    (hs' : solve'.Sound) (res res' : Result K) (h : b.analyze stable solve = .ok res)
    (h' : b'.analyze stable' solve' = .ok res') :
    0 ≤ -∑ i ∈ range b.members.length, (c i).vec ⬝ᵥ elemVec res'.d i ∧
    -∑ i ∈ range b.members.length, (c i).vec ⬝ᵥ elemVec res'.d i
      ≤ -∑ i ∈ range b.members.length, (c i).vec ⬝ᵥ elemVec res.d i := by
  obtain ⟨s, a1, a2⟩ := BeamDef.analyze_ok h
  obtain ⟨s', b1, b2⟩ := BeamDef.analyze_ok h'
  obtain ⟨hn, hk, ⟨l1, d1, d2⟩, hsr, hsp, _⟩ := BeamDef.system_ok a1
  obtain ⟨hn', hk', ⟨l2, d3, d4⟩, hsr', hsp', _⟩ := BeamDef.system_ok b1
  rw [hls] at d1
  rw [hls'] at d3
  cases d1
  cases d3
  have hlen : b.members.length = b'.members.length := hm.length_eq
  have hnn : s'.n = s.n := by rw [hn, hn', hlen]
  have hNN : s'.N = s.N := by simp only [System.N, hnn]
  have hpos := BeamDef.system_pos a1 hg
  have hpos' := BeamDef.system_pos b1 hg'
  have hw : ∀ x : ℕ → K, -∑ i ∈ range b.members.length, (c i).vec ⬝ᵥ elemVec x i
      = ∑ p ∈ range s.N, s.forces p * x p := by
    intro x
    rw [s.forces_work_members, hn]
    congr 1
    apply Finset.sum_congr rfl
    intro i hi
    obtain ⟨c1, e1, e2⟩ := d2 i (Finset.mem_range.1 hi)
    rw [hc i (Finset.mem_range.1 hi)] at e1
    cases e1
    rw [e2]
  have hw' : ∀ x : ℕ → K, -∑ i ∈ range b.members.length, (c i).vec ⬝ᵥ elemVec x i
      = ∑ p ∈ range s'.N, s'.forces p * x p := by
    intro x
    rw [s'.forces_work_members, hn', hlen]
    congr 1
    apply Finset.sum_congr rfl
    intro i hi
    obtain ⟨c1, e1, e2⟩ := d4 i (Finset.mem_range.1 hi)
    rw [hc' i (Finset.mem_range.1 hi)] at e1
    cases e1
    rw [e2]
  have c1 := (System.analyze_ok hs a2).1
  have c2 := (System.analyze_ok hs' b2).1
  have hadm : ∀ p < s.N, ∀ v, s.constr p = some v → res'.d p = v := by
    intro p hpN v hv
    apply c2.1 p (by rw [hNN]; exact hpN) v
    simp only [System.constr, hsp, hsp', hp, hp'] at hv ⊢
    split at hv
    · rename_i hneg
      rw [if_pos]
      · exact hv
      · rw [hsr] at hneg
        rw [hsr']
        rcases hr p with h1 | h1
        · exact h1
        · exact absurd hneg (not_lt.2 h1.1)
    · cases hv
  have e1 := s.energy_work c1 fun p => by rw [hsp, hp]
  have e2 := s'.energy_work c2 fun p => by rw [hsp', hp']
  have e3 := s.least_potential (BeamDef.system_symm a1) hpos c1 res'.d hadm
  have e4 := s'.totalEnergy_nonneg hpos' res'.d
  have e5 : s.totalEnergy res'.d ≤ s'.totalEnergy res'.d := by
    simp only [System.totalEnergy]
    rw [hnn, hNN]
    apply add_le_add
    · apply Finset.sum_le_sum
      intro i hi
      have hi' := Finset.mem_range.1 hi
      have l1 : i < b.members.length := by rw [← hn]; exact hi'
      have l2 : i < b'.members.length := by rw [← hlen]; exact l1
      obtain ⟨k, k', e1, e2, e3⟩ := C153_member _ _ (hm.get l1 l2) (hg _ (List.getElem_mem l1))
        (hg' _ (List.getElem_mem l2))
      simp only [List.get_eq_getElem] at e1 e2
      rw [hk i l1] at e1
      rw [hk' i l2] at e2
      cases e1
      cases e2
      exact e3 _
    · apply Finset.sum_le_sum
      intro p hpm
      have hpN := Finset.mem_range.1 hpm
      rw [s.spring_eq, s'.spring_eq, hsr, hsr']
      rcases hr p with h1 | ⟨h1, h2⟩
      · have hz : res'.d p = 0 := by
          apply c2.1 p (by rw [hNN]; exact hpN) 0
          simp only [System.constr, hsp', hp']
          rw [if_pos (by rw [hsr']; exact h1)]
        rw [hz]
        simp
      · exact mul_le_mul_of_nonneg_right (max_le_max_right 0 h2) (sq_nonneg _)
  have f1 := hw res.d
  have f2 := hw res'.d
  have f3 := hw' res'.d
  rw [← f3] at e2
  rw [← f1, ← f2] at e3
  rw [← f1] at e1
  constructor <;> linarith

/-- A load of 4 at the tip of a cantilever of length 2 and rigidity 6 sinks it by
`4·8/(3·6) = 16/9`, and by `4·8/(3·6 + 8·9/4) = 8/9` with a spring of 9/4 under the tip: the
work falls from 64/9 to 32/9. -/
example : ∃ res res',
    (exBeam 0 none [⟨1, 2, [4, 2]⟩]).analyze (fun _ => true)
      (trySolver fun p => [0, 0, -16 / 9, -4 / 3].getD p 0) = .ok res ∧
    (exBeam (9 / 4) none [⟨1, 2, [4, 2]⟩]).analyze (fun _ => true)
      (trySolver fun p => [0, 0, -8 / 9, -2 / 3].getD p 0) = .ok res' ∧
    -(![0, 0, 4, 0] ⬝ᵥ elemVec res'.d 0) ≤ -(![(0 : ℚ), 0, 4, 0] ⬝ᵥ elemVec res.d 0) ∧
    -(![(0 : ℚ), 0, 4, 0] ⬝ᵥ elemVec res.d 0) = 64 / 9 := by
  obtain ⟨res, h1, h2⟩ := ok_of_map
    (x := (exBeam 0 none [⟨1, 2, [4, 2]⟩]).analyze (fun _ => true)
      (trySolver fun p => [0, 0, -16 / 9, -4 / 3].getD p 0))
    (f := fun res => -(![(0 : ℚ), 0, 4, 0] ⬝ᵥ elemVec res.d 0)) (y := 64 / 9) (by decide +kernel)
  obtain ⟨res', h3, h4⟩ := ok_of_map
    (x := (exBeam (9 / 4) none [⟨1, 2, [4, 2]⟩]).analyze (fun _ => true)
      (trySolver fun p => [0, 0, -8 / 9, -2 / 3].getD p 0))
    (f := fun res => -(![(0 : ℚ), 0, 4, 0] ⬝ᵥ elemVec res.d 0)) (y := 32 / 9) (by decide +kernel)
  have hload : ∀ ρ : ℚ, (exBeam ρ none [⟨1, 2, [4, 2]⟩]).setLoads
      = .ok [⟨0, .pl 4 2⟩] := by
    intro ρ
    rfl
  have href : ∀ (ρ : ℚ) i (hi : i < (exBeam ρ none [⟨1, 2, [4, 2]⟩]).members.length),
      (exBeam ρ none [⟨1, 2, [4, 2]⟩]).members[i].refSum i [⟨0, .pl 4 2⟩]
        = .ok ⟨0, 0, 4, 0⟩ := by
    intro ρ i hi
    have hi0 : i = 0 := by simp [exBeam] at hi; exact hi
    subst hi0
    show (exPrismatic .FF).refSum 0 _ = _
    decide +kernel
  have key := C153_loads (exBeam 0 none [⟨1, 2, [4, 2]⟩]) (exBeam (9 / 4) none [⟨1, 2, [4, 2]⟩])
    (.cons ⟨rfl, le_refl (6 : ℚ), .inl rfl, fun _ h => h⟩ .nil)
    (by simp [exBeam, exPrismatic_good]) (by simp [exBeam, exPrismatic_good]) _ (hload _) (hload _)
    (fun _ => ⟨0, 0, 4, 0⟩) (href _) (href _)
    (by rintro (_ | _ | _ | _ | p) <;> simp [exBeam])
    (by rintro (_ | _ | _ | _ | p) <;> simp [exBeam])
    (by rintro (_ | _ | _ | _ | p) <;> norm_num [exBeam])
    _ _ _ _ (trySolver_sound _) (trySolver_sound _) res res' h1 h3
  refine ⟨res, res', h1, h3, ?_, h2⟩
  have := key.2
  simpa [exBeam, CNL.vec] using this

end PyCBA
