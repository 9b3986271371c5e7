import Verif.Stiffness.Lemmas
import Verif.Load.ReleaseProps
import Mathlib.Analysis.SpecialFunctions.Integrals.Basic
import Mathlib.Topology.Instances.Matrix

set_option linter.unusedSectionVars false
set_option linter.unusedSimpArgs false

/-!
Properties of the member stiffness and of the forces released at member ends:
C04, C11-C15.
-/

namespace PyCBA

open Matrix

section field

variable {K : Type*} [Field K] [LinearOrder K] [IsStrictOrderedRing K]

/-- The released prismatic stiffnesses are the condensed fixed-fixed one. -/
theorem condenseFor_kFF (EI L : K) (hE : 0 < EI) (hL : 0 < L) :
    condenseFor (kFF EI L) .FP = .ok (kFP EI L) ∧
    condenseFor (kFF EI L) .PF = .ok (kPF EI L) ∧
    condenseFor (kFF EI L) .PP = .ok kPP := by
  have e1 : kFF EI L 1 1 = 4 * EI / L := by simp [kFF]
  have e3 : kFF EI L 3 3 = 4 * EI / L := by simp [kFF]
  have e0 : 4 * EI / L ≠ 0 := by positivity
  refine ⟨?_, ?_, ?_⟩
  · simp only [condenseFor, condense1, e3, e0, if_false]
    congr 1
    ext p q
    fin_cases p <;> fin_cases q <;> simp [kFF, kFP] <;> field_simp <;> ring
  · simp only [condenseFor, condense1, e1, e0, if_false]
    congr 1
    ext p q
    fin_cases p <;> fin_cases q <;> simp [kFF, kPF] <;> field_simp <;> ring
  · have hd : 4 * EI / L * (4 * EI / L) - 2 * EI / L * (2 * EI / L) = 12 * EI ^ 2 / L ^ 2 := by
      field_simp
      ring
    have hd0 : 12 * EI ^ 2 / L ^ 2 ≠ 0 := by positivity
    simp only [condenseFor, condense2, inv2]
    simp only [kFF, Matrix.of_apply, Matrix.cons_val', Matrix.cons_val_zero, Matrix.cons_val_one,
      Matrix.cons_val_fin_one, Matrix.cons_val, hd, hd0, if_false]
    congr 1
    ext p q
    fin_cases p <;> fin_cases q <;> simp [kPP] <;> field_simp <;> ring

/-- Every usable member is a release of a positive definite fixed-fixed member. -/
theorem Member.spanK_form (m : Member K) (hm : m.Good) :
    ∃ Kth kr, PD2 Kth ∧ ({ m with et := .FF } : Member K).spanK = .ok (TtKT Kth m.L) ∧
      condenseFor (TtKT Kth m.L) m.et = .ok kr ∧ m.spanK = .ok kr := by
  obtain ⟨EI, L, et, GAv⟩ := m
  obtain ⟨hL, hE, hG⟩ := hm
  have hcond : ∀ Kth : Matrix (Fin 2) (Fin 2) K, PD2 Kth → ∀ et,
      ∃ kr, condenseFor (TtKT Kth L) et = .ok kr := by
    intro Kth hK et
    obtain ⟨p0, p1, pd⟩ := hK.det_pos
    cases et with
    | FF => exact ⟨_, rfl⟩
    | FP =>
      simp only [condenseFor, condense1]
      rw [if_neg (by rw [TtKT_apply]; simpa using p1.ne')]
      exact ⟨_, rfl⟩
    | PF =>
      simp only [condenseFor, condense1]
      rw [if_neg (by rw [TtKT_apply]; simpa using p0.ne')]
      exact ⟨_, rfl⟩
    | PP =>
      simp only [condenseFor, condense2, inv2]
      rw [if_neg (by rw [TtKT_apply]; simpa using pd.ne')]
      exact ⟨_, rfl⟩
  have hflex : ∀ F : Matrix (Fin 2) (Fin 2) K, PD2 F → ∃ Kth kr, PD2 Kth ∧
      inv2 F = .ok Kth ∧ condenseFor (TtKT Kth L) et = .ok kr := by
    intro F hF
    obtain ⟨Kth, h1, h2⟩ := hF.inv
    obtain ⟨kr, h3⟩ := hcond Kth h2 et
    exact ⟨Kth, kr, h2, h1, h3⟩
  cases GAv with
  | none =>
    cases EI with
    | const e =>
      have he : (0 : K) < e := hE
      have hPD : PD2 (!![4 * e / L, 2 * e / L; 2 * e / L, 4 * e / L] :
          Matrix (Fin 2) (Fin 2) K) := by
        refine ⟨by simp, fun a b h => ?_⟩
        have : quad2 (!![4 * e / L, 2 * e / L; 2 * e / L, 4 * e / L] :
            Matrix (Fin 2) (Fin 2) K) a b = 2 * e / L * (a ^ 2 + b ^ 2 + (a + b) ^ 2) := by
          simp only [quad2]
          simp
          field_simp
          ring
        rw [this]
        have h3 : 0 < a ^ 2 + b ^ 2 := by
          by_contra hc
          push Not at hc
          apply h
          constructor <;> nlinarith [sq_nonneg a, sq_nonneg b]
        have hL' : (0 : K) < L := hL
        positivity
      obtain ⟨c1, c2, c3⟩ := condenseFor_kFF e L he hL
      refine ⟨!![4 * e / L, 2 * e / L; 2 * e / L, 4 * e / L], (match et with
          | .FF => kFF e L | .FP => kFP e L | .PF => kPF e L | .PP => kPP), hPD, ?_, ?_, ?_⟩
      · simp only [Member.spanK, kFF_eq]
      · rw [← kFF_eq]
        cases et <;> first | rfl | assumption
      · cases et <;> rfl
    | «section» ns =>
      obtain ⟨Kth, kr, h1, h2, h3⟩ := hflex _ (flexibility_PD2 _ hE L hL)
      refine ⟨Kth, kr, h1, ?_, h3, ?_⟩
      · simp only [Member.spanK, kNonprismatic, h2, condenseFor]
      · simp only [Member.spanK, kNonprismatic, h2, h3]
  | some g =>
    have hg := hG g rfl
    cases EI with
    | const e =>
      cases g with
      | const g =>
        obtain ⟨Kth, h1, h2⟩ := kFFtimo_eq e g L hE hg hL
        obtain ⟨Kth', kr, h3, h4, h5⟩ := hflex _ (timoFlexibility_PD2 (.const e) (.const g) hE hg L hL)
        rw [h1] at h4
        cases h4
        refine ⟨Kth, kr, h3, ?_, h5, ?_⟩
        · simp only [Member.spanK, condenseFor, h2]
        · simp only [Member.spanK, h2, h5]
      | «section» gs =>
        obtain ⟨Kth, kr, h1, h2, h3⟩ := hflex _ (timoFlexibility_PD2 (.const e) (.section gs) hE hg L hL)
        refine ⟨Kth, kr, h1, ?_, h3, ?_⟩
        · simp only [Member.spanK, kTimoshenko, h2, condenseFor]
        · simp only [Member.spanK, kTimoshenko, h2, h3]
    | «section» ns =>
      obtain ⟨Kth, kr, h1, h2, h3⟩ := hflex _ (timoFlexibility_PD2 (.section ns) g hE hg L hL)
      refine ⟨Kth, kr, h1, ?_, h3, ?_⟩
      · simp only [Member.spanK, kTimoshenko, h2, condenseFor]
      · simp only [Member.spanK, kTimoshenko, h2, h3]

/-- A concrete usable member of each kind, for the examples below: prismatic
`EI = 6`, shear rigidity 9, two-point rule on a stepped section. -/
def exPrismatic (et : EType) : Member ℚ := ⟨.const 6, 2, et, none⟩
/-- As `exPrismatic`, shear flexible. -/
def exShear (et : EType) : Member ℚ := ⟨.const 6, 2, et, some (.const 9)⟩
/-- A member with a stepped rigidity. -/
def exStepped (et : EType) : Member ℚ :=
  ⟨.section ⟨[⟨1 / 2, 1, 6⟩, ⟨3 / 2, 1, 12⟩], fun x => if x < 1 then 6 else 12, [0, 1, 2]⟩, 2, et,
    none⟩

theorem exPrismatic_good (et : EType) : (exPrismatic et).Good := by
  simp [exPrismatic, Member.Good, Rigidity.Good]
theorem exShear_good (et : EType) : (exShear et).Good := by
  simp [exShear, Member.Good, Rigidity.Good]
theorem exStepped_good (et : EType) : (exStepped et).Good := by
  simp [exStepped, Member.Good, Rigidity.Good, GoodNodes]
  norm_num

/-! ## C11 -/

/-- **C11**: whatever the member type, rigidities and length, a stiffness that
`get_span_k` returns is symmetric. -/
theorem C11_stiffness_symmetric (m : Member K) (k : Mat4 K) (h : m.spanK = .ok k) (p q : Fin 4) :
    k p q = k q p := by
  have key : k.transpose = k := by
    have hc : ∀ (kff : Mat4 K), kff.transpose = kff → ∀ et kr, condenseFor kff et = .ok kr →
        kr.transpose = kr := fun kff hs et kr h => (condenseFor_release kff kr et h).symm hs
    have hF : ∀ ns (L : K), flexibility ns L 0 1 = flexibility ns L 1 0 := by
      intro ns L; simp [flexibility]
    have hT : ∀ EI g (L : K), timoFlexibility EI g L 0 1 = timoFlexibility EI g L 1 0 := by
      intro EI g L
      cases EI <;> simp [timoFlexibility, hF]
    have hinv : ∀ F i : Matrix (Fin 2) (Fin 2) K, F 0 1 = F 1 0 → inv2 F = .ok i →
        i 0 1 = i 1 0 := by
      intro F i hs hi
      obtain ⟨_, rfl⟩ := inv2_ok hi
      simp [hs]
    have hTimo : ∀ EI g (L : K) et k, kTimoshenko EI g L et = .ok k → k.transpose = k := by
      intro EI g L et k hk
      unfold kTimoshenko at hk
      split at hk
      · cases hk
      · rename_i Kth hi
        exact hc _ (TtKT_symm _ _ (hinv _ _ (hT _ _ _) hi)) _ _ hk
    unfold Member.spanK at h
    split at h
    · refine hc _ ?_ _ _ h
      ext p q
      fin_cases p <;> fin_cases q <;> simp [kFFtimo]
    · exact hTimo _ _ _ _ _ h
    · unfold kNonprismatic at h
      split at h
      · cases h
      · rename_i Kth hi
        exact hc _ (TtKT_symm _ _ (hinv _ _ (hF _ _) hi)) _ _ h
    · split at h <;> cases h <;> ext p q <;> fin_cases p <;> fin_cases q <;>
        simp [kFF, kFP, kPF, kPP]
  exact (congrFun (congrFun key q) p)

example : ∃ k, (exShear .PP).spanK = .ok k ∧ ∀ p q, k p q = k q p := by
  obtain ⟨_, k, _, _, _, h⟩ := (exShear .PP).spanK_form (exShear_good _)
  exact ⟨k, h, C11_stiffness_symmetric _ k h⟩

/-! ## C12 -/

/-- **C12**: a rigid motion of a member causes no end forces. -/
theorem C12_rigid_body (m : Member K) (hm : m.Good) (a t : K) :
    ∃ k, m.spanK = .ok k ∧ k *ᵥ rigidMotion a t m.L = 0 := by
  obtain ⟨Kth, k, _, _, h3, h4⟩ := m.spanK_form hm
  exact ⟨k, h4, (condenseFor_release _ _ _ h3).rigid _ (TtKT_rigid Kth m.L hm.1.ne' a t)⟩

example : ∃ k, (exStepped .FP).spanK = .ok k ∧ k *ᵥ rigidMotion 3 (-5) 2 = 0 :=
  C12_rigid_body (exStepped .FP) (exStepped_good _) 3 (-5)

/-! ## C13 -/

/-- **C13**: the strain energy of a member is never negative, and for a
fixed-fixed member it vanishes only for rigid motions. -/
theorem C13_energy_nonneg (m : Member K) (hm : m.Good) :
    ∃ k, m.spanK = .ok k ∧ (∀ d, 0 ≤ energy k d) ∧
      (m.et = .FF → ∀ d, energy k d = 0 → ∃ a t, d = rigidMotion a t m.L) := by
  obtain ⟨Kth, k, h1, _, h3, h4⟩ := m.spanK_form hm
  have hL := hm.1
  have hpos : ∀ d, 0 ≤ energy (TtKT Kth m.L) d := by
    intro d
    rw [energy_TtKT]
    by_cases hz : (chordRot d m.L).1 = 0 ∧ (chordRot d m.L).2 = 0
    · rw [hz.1, hz.2]; simp [quad2]
    · exact (h1.2 _ _ hz).le
  refine ⟨k, h4, ?_, ?_⟩
  · intro d
    obtain ⟨d', _, h5⟩ := (condenseFor_release _ _ _ h3).energy_eq d
    rw [h5]
    exact hpos d'
  · intro hff d hd
    rw [hff] at h3
    cases h3
    rw [energy_TtKT] at hd
    have hz : (chordRot d m.L).1 = 0 ∧ (chordRot d m.L).2 = 0 := by
      by_contra hz
      exact (h1.2 _ _ hz).ne' hd
    simp only [chordRot] at hz
    obtain ⟨z1, z2⟩ := hz
    refine ⟨d 0, d 1, ?_⟩
    field_simp at z1 z2
    ext p
    fin_cases p
    · simp [rigidMotion]
    · simp [rigidMotion]
    · simp [rigidMotion]
      linear_combination -z1
    · simp [rigidMotion]
      have : m.L * (d 3 - d 1) = 0 := by linear_combination z2 - z1
      rcases mul_eq_zero.1 this with h | h
      · exact absurd h hL.ne'
      · linear_combination h

/-- The hypotheses hold for a shear-flexible member, and a motion that is not
rigid has positive energy there. -/
example : ∃ k, (exShear .FF).spanK = .ok k ∧ energy k ![0, 1, 0, 0] ≠ 0 := by
  obtain ⟨k, h1, _, h3⟩ := C13_energy_nonneg (exShear .FF) (exShear_good _)
  refine ⟨k, h1, fun h => ?_⟩
  obtain ⟨a, t, h⟩ := h3 rfl _ h
  have e1 := congrFun h 1
  have e3 := congrFun h 3
  simp [rigidMotion] at e1 e3
  rw [← e3] at e1
  exact one_ne_zero e1

/-! ## C14 -/

/-- **C14**: the stiffness of a member with moment releases is the stiffness of
the same member with fixed ends after the released rotations have taken the
values that leave no moment there. -/
theorem C14_release_is_condensation (m : Member K) (hm : m.Good) :
    ∃ kff k, ({ m with et := .FF } : Member K).spanK = .ok kff ∧ m.spanK = .ok k ∧
      IsReleaseOf kff k m.et.released ∧ ∀ r ∈ m.et.released, ∀ d, (k *ᵥ d) r = 0 := by
  obtain ⟨Kth, k, _, h2, h3, h4⟩ := m.spanK_form hm
  have h5 := condenseFor_release _ _ _ h3
  exact ⟨_, k, h2, h4, h5, fun r hr d => h5.row_zero d r hr⟩

/-- For a fixed-pinned member the released rotation `d' 3 = -1/2 d 1` of the
textbook. -/
example : IsReleaseOf (kFF (6 : ℚ) 2) (kFP 6 2) [3] := by
  obtain ⟨kff, k, h1, h2, h3, _⟩ := C14_release_is_condensation (exPrismatic .FP) (exPrismatic_good _)
  cases h1
  cases h2
  exact h3

/-! ## C15 -/

/-- Difference between the slender and the shear-flexible energies. -/
theorem timo_energy (EI GAv L : K) (hE : 0 < EI) (hg : 0 < GAv) (hL : 0 < L) (d : Vec4 K) :
    energy (kFF EI L) d - energy (kFFtimo EI GAv L) d =
      36 * EI ^ 2 / (L * (GAv * L ^ 2 + 12 * EI))
        * ((chordRot d L).1 + (chordRot d L).2) ^ 2 := by
  have hphi' : GAv * L ^ 2 + 12 * EI ≠ 0 := by positivity
  simp only [energy, dot4, mulVec4, kFF, kFFtimo, chordRot]
  simp
  field_simp
  ring

/-- **C15** (stiffer): at every displacement the slender member stores at least
the energy of the shear-flexible one. -/
theorem C15_slender_is_stiffer (EI GAv L : K) (hE : 0 < EI) (hg : 0 < GAv) (hL : 0 < L)
    (d : Vec4 K) : energy (kFFtimo EI GAv L) d ≤ energy (kFF EI L) d := by
  have h := timo_energy EI GAv L hE hg hL d
  have h2 : 0 ≤ 36 * EI ^ 2 / (L * (GAv * L ^ 2 + 12 * EI))
        * ((chordRot d L).1 + (chordRot d L).2) ^ 2 := by positivity
  linarith

/-- **C15** (correction): the shear-flexible stiffness is the slender one minus
`Φ/(1+Φ)` times a fixed matrix that does not involve the shear rigidity. -/
theorem C15_correction (EI GAv L : K) (hE : 0 < EI) (hg : 0 < GAv) (hL : 0 < L) :
    let phi := 12 * EI / (GAv * L ^ 2)
    kFFtimo EI GAv L = kFF EI L - (phi / (1 + phi)) •
      !![12 * EI / L ^ 3, 6 * EI / L ^ 2, -12 * EI / L ^ 3, 6 * EI / L ^ 2;
         6 * EI / L ^ 2, 3 * EI / L, -6 * EI / L ^ 2, 3 * EI / L;
         -12 * EI / L ^ 3, -6 * EI / L ^ 2, 12 * EI / L ^ 3, -6 * EI / L ^ 2;
         6 * EI / L ^ 2, 3 * EI / L, -6 * EI / L ^ 2, 3 * EI / L] := by
  have hphi' : GAv * L ^ 2 + 12 * EI ≠ 0 := by positivity
  ext p q
  fin_cases p <;> fin_cases q <;> simp [kFF, kFFtimo] <;> field_simp <;> ring

end field

/-- **C15** (limit): as the shear rigidity grows without bound the
shear-flexible stiffness tends to the slender one. -/
theorem C15_tendsto_slender (EI L : ℝ) (hE : 0 < EI) (hL : 0 < L) :
    Filter.Tendsto (fun GAv => kFFtimo EI GAv L) Filter.atTop (nhds (kFF EI L)) := by
  have h0 : Filter.Tendsto (fun GAv : ℝ => 12 * EI / (GAv * L ^ 2)) Filter.atTop (nhds 0) := by
    apply Filter.Tendsto.div_atTop tendsto_const_nhds
    exact Filter.tendsto_id.atTop_mul_const (by positivity)
  have h1 : Filter.Tendsto (fun GAv : ℝ => (12 * EI / (GAv * L ^ 2)) /
      (1 + 12 * EI / (GAv * L ^ 2))) Filter.atTop (nhds (0 / (1 + 0))) :=
    h0.div (tendsto_const_nhds.add h0) (by norm_num)
  have h2 := (tendsto_const_nhds (x := kFF EI L)).sub (h1.smul_const
      !![12 * EI / L ^ 3, 6 * EI / L ^ 2, -12 * EI / L ^ 3, 6 * EI / L ^ 2;
         6 * EI / L ^ 2, 3 * EI / L, -6 * EI / L ^ 2, 3 * EI / L;
         -12 * EI / L ^ 3, -6 * EI / L ^ 2, 12 * EI / L ^ 3, -6 * EI / L ^ 2;
         6 * EI / L ^ 2, 3 * EI / L, -6 * EI / L ^ 2, 3 * EI / L])
  simp only [add_zero, div_one, zero_smul, sub_zero] at h2
  refine h2.congr' ?_
  filter_upwards [Filter.eventually_gt_atTop 0] with g hg
  exact (C15_correction EI g L hE hg hL).symm

/-- **C15** (flexibility): the shear-flexible stiffness is the inverse of the
bending-plus-shear flexibility of the member, taken through the chord rotations:
unit end moments give the moment diagrams `1 - x/L` and `-x/L` and the constant
shear `-1/L`; `F` collects their virtual work; the end forces for any
displacement are those whose end moments `M` satisfy `F M = ` chord rotations. -/
theorem C15_inverse_flexibility (EI GAv L : ℝ) (hE : 0 < EI) (hg : 0 < GAv) (hL : 0 < L)
    (d : Vec4 ℝ) :
    let m : Fin 2 → ℝ → ℝ := ![fun x => 1 - x / L, fun x => -x / L]
    let F : Fin 2 → Fin 2 → ℝ := fun i j =>
      (∫ x in (0 : ℝ)..L, m i x * m j x / EI) + ∫ _x in (0 : ℝ)..L, (-1 / L) * (-1 / L) / GAv
    let f := kFFtimo EI GAv L *ᵥ d
    F 0 0 * f 1 + F 0 1 * f 3 = d 1 + (d 0 - d 2) / L ∧
    F 1 0 * f 1 + F 1 1 * f 3 = d 3 + (d 0 - d 2) / L ∧
    f 0 = (f 1 + f 3) / L ∧ f 2 = -(f 1 + f 3) / L := by
  intro m F f
  have hphi' : GAv * L ^ 2 + 12 * EI ≠ 0 := by positivity
  have poly : ∀ a b c : ℝ, ∫ x in (0 : ℝ)..L, (a + b * x + c * x ^ 2) =
      a * L + b * L ^ 2 / 2 + c * L ^ 3 / 3 := by
    intro a b c
    have h : ∀ x ∈ Set.uIcc 0 L, HasDerivAt
        (fun x : ℝ => a * x + b * x ^ 2 / 2 + c * x ^ 3 / 3) (a + b * x + c * x ^ 2) x := by
      intro x _
      have h1 := (hasDerivAt_id x).const_mul a
      have h2 := ((hasDerivAt_pow 2 x).const_mul b).div_const 2
      have h3 := ((hasDerivAt_pow 3 x).const_mul c).div_const 3
      refine ((h1.add h2).add h3).congr_deriv ?_
      simp
      ring
    rw [intervalIntegral.integral_eq_sub_of_hasDerivAt h
      (Continuous.intervalIntegrable (by fun_prop) _ _)]
    ring
  have F00 : F 0 0 = L / (3 * EI) + 1 / (L * GAv) := by
    have e : ∀ x : ℝ, (1 - x / L) * (1 - x / L) / EI
        = 1 / EI + (-2 / (L * EI)) * x + (1 / (L ^ 2 * EI)) * x ^ 2 := by
      intro x; field_simp; ring
    simp only [F, m]
    simp [e, poly]
    field_simp
    ring
  have F01 : F 0 1 = -L / (6 * EI) + 1 / (L * GAv) := by
    have e : ∀ x : ℝ, (1 - x / L) * (-x / L) / EI
        = 0 + (-1 / (L * EI)) * x + (1 / (L ^ 2 * EI)) * x ^ 2 := by
      intro x; field_simp; ring
    simp only [F, m, Matrix.cons_val_zero, Matrix.cons_val_one, e, poly]
    simp
    field_simp
    ring
  have F10 : F 1 0 = -L / (6 * EI) + 1 / (L * GAv) := by
    rw [← F01]
    simp only [F]
    simp only [mul_comm]
  have F11 : F 1 1 = L / (3 * EI) + 1 / (L * GAv) := by
    have e : ∀ x : ℝ, (-x / L) * (-x / L) / EI
        = 0 + 0 * x + (1 / (L ^ 2 * EI)) * x ^ 2 := by
      intro x; field_simp; ring
    simp only [F, m, Matrix.cons_val_zero, Matrix.cons_val_one, e, poly]
    simp
    field_simp
  rw [F00, F01, F10, F11]
  simp only [f, mulVec4, kFFtimo]
  refine ⟨?_, ?_, ?_, ?_⟩ <;> simp <;> field_simp <;> ring

/-- The last theorems at `EI = 6, GAv = 9, L = 2` (so `Φ = 2`) and a unit end
rotation: slender 36 against 12. -/
example : energy (kFFtimo (6 : ℚ) 9 2) ![0, 1, 0, 1] ≤ energy (kFF 6 2) ![0, 1, 0, 1] ∧
    energy (kFF (6 : ℚ) 2) ![0, 1, 0, 1] = 36 ∧ energy (kFFtimo (6 : ℚ) 9 2) ![0, 1, 0, 1] = 12 :=
  ⟨C15_slender_is_stiffer 6 9 2 (by norm_num) (by norm_num) (by norm_num) _,
    by simp only [energy, dot4, mulVec4, kFF]; simp; norm_num,
    by simp only [energy, dot4, mulVec4, kFFtimo]; simp; norm_num⟩

/-! ## C04 -/

section release

variable {K : Type*} [Field K] [LinearOrder K] [IsStrictOrderedRing K]

/-- `c'` are the end forces of a loaded member whose rotations in `rel` are
released, when `c` are its end forces with clamped ends and `kff` its stiffness:
some rotations of the released ends leave no moment there, and any rotations
that do give the end forces `c'`. -/
def IsReleasedForce (kff : Mat4 K) (c c' : CNL K) (rel : List (Fin 4)) : Prop :=
  (∃ th : Vec4 K, (∀ p, p ∉ rel → th p = 0) ∧ ∀ r ∈ rel, (c.vec + kff *ᵥ th) r = 0) ∧
  ∀ th : Vec4 K, (∀ p, p ∉ rel → th p = 0) → (∀ r ∈ rel, (c.vec + kff *ᵥ th) r = 0) →
    c'.vec = c.vec + kff *ᵥ th

theorem releasedForce_single (kff : Mat4 K) (c c' : CNL K) (r : Fin 4) (hr : kff r r ≠ 0)
    (h : ∀ p, c'.vec p = c.vec p - kff p r * (c.vec r / kff r r)) :
    IsReleasedForce kff c c' [r] := by
  constructor
  · refine ⟨Pi.single r (-(c.vec r / kff r r)), ?_, ?_⟩
    · intro p hp
      simp at hp
      simp [hp]
    · intro q hq
      simp at hq
      subst hq
      simp [Matrix.mulVec_single]
      field_simp
      ring
  · intro th h1 h2
    have h3 : th = Pi.single r (th r) := by
      ext p
      by_cases hp : p = r
      · subst hp; simp
      · simp [hp, h1 p (by simpa using hp)]
    have h4 := h2 r (by simp)
    rw [h3] at h4 ⊢
    simp [Matrix.mulVec_single] at h4 ⊢
    ext p
    simp [h p]
    have : th r = -(c.vec r / kff r r) := by
      field_simp
      linear_combination h4
    rw [this]
    ring

/-- **C04** for members with one released end: the forces of `get_ref` are those
of the clamped member after the released end has turned until it carries no
moment.  Also for fixed-fixed members (nothing released).  The full claim covers
pinned-pinned members too; there it is false, see `C04_pinned_pinned_violation`. -/
theorem C04_release_by_condensation_partial (ld : Load K) (EI L : K) (hE : 0 < EI) (hL : 0 < L)
    (et : EType) (het : et ≠ .PP) (c : CNL K) (h : ld.getCnl L = .ok (.cnl c)) :
    ∃ c', ld.getRef L et = .ok c' ∧ IsReleasedForce (kFF EI L) c c' et.released := by
  refine ⟨releaseCnl c L et, by simp [Load.getRef, h], ?_⟩
  cases et with
  | PP => exact absurd rfl het
  | FF =>
    refine ⟨⟨0, by simp, by simp [EType.released]⟩, fun th h1 _ => ?_⟩
    have : th = 0 := funext fun p => h1 p (by simp [EType.released])
    subst this
    simp [releaseCnl]
  | FP =>
    refine releasedForce_single _ _ _ 3 (by rw [show kFF EI L 3 3 = 4 * EI / L by simp [kFF]]; positivity) fun p => ?_
    fin_cases p <;> simp [CNL.vec, releaseCnl, kFF] <;> field_simp <;> ring
  | PF =>
    refine releasedForce_single _ _ _ 1 (by rw [show kFF EI L 1 1 = 4 * EI / L by simp [kFF]]; positivity) fun p => ?_
    fin_cases p <;> simp [CNL.vec, releaseCnl, kFF] <;> field_simp <;> ring

theorem releaseRef_release (ref : CNL K) (kff : Mat4 K) (L : K) (et : EType) (het : et ≠ .PP)
    (e1 : kff 1 1 ≠ 0) (e3 : kff 3 3 ≠ 0) :
    ∃ c', releaseRef ref (.ok kff) L et = .ok c' ∧ IsReleasedForce kff ref c' et.released := by
  cases et with
  | PP => exact absurd rfl het
  | FF =>
    refine ⟨ref, rfl, ⟨0, by simp, by simp [EType.released]⟩, fun th h1 _ => ?_⟩
    have : th = 0 := funext fun p => h1 p (by simp [EType.released])
    subst this
    simp
  | FP =>
    refine ⟨_, by simp only [releaseRef, e3, if_false]; rfl,
      releasedForce_single _ _ _ 3 e3 fun p => ?_⟩
    fin_cases p <;> simp [CNL.vec]
  | PF =>
    refine ⟨_, by simp only [releaseRef, e1, if_false]; rfl,
      releasedForce_single _ _ _ 1 e1 fun p => ?_⟩
    fin_cases p <;> simp [CNL.vec]

/-- **C04** for every usable member, slender, shear-flexible or of variable
rigidity (`Beam.get_ref` with `_ref_nonprismatic` and `_ref_timoshenko`): its
released forces are the condensation of its own fixed-fixed forces with its own
fixed-fixed stiffness.  Pinned-pinned excluded as above. -/
theorem C04_member_release_partial (m : Member K) (hm : m.Good) (het : m.et ≠ .PP) (ld : Load K)
    (c : CNL K) (h : m.cnl ld = .ok c) :
    ∃ kff c0 c', ({ m with et := .FF } : Member K).spanK = .ok kff ∧
      ({ m with et := .FF } : Member K).ref ld = .ok c0 ∧ m.ref ld = .ok c' ∧
      IsReleasedForce kff c0 c' m.et.released := by
  obtain ⟨Kth, _, hPD, hk, _, _⟩ := m.spanK_form hm
  have hc : ({ m with et := .FF } : Member K).cnl ld = .ok c := h
  obtain ⟨EI, L, et, GAv⟩ := m
  obtain ⟨hL, hE, hG⟩ := hm
  simp only at hk hc hL hE hG ⊢
  obtain ⟨p0, p1, _⟩ := hPD.det_pos
  have e1 : TtKT Kth L 1 1 ≠ 0 := by rw [TtKT_apply]; simpa using p0.ne'
  have e3 : TtKT Kth L 3 3 ≠ 0 := by rw [TtKT_apply]; simpa using p1.ne'
  refine ⟨TtKT Kth L, ?_⟩
  cases GAv with
  | none =>
    cases EI with
    | const e =>
      have he : (0 : K) < e := hE
      simp only [Member.spanK, Except.ok.injEq] at hk
      refine ⟨releaseCnl c L .FF, releaseCnl c L et, by simp only [Member.spanK, hk],
        by simp only [Member.ref, hc], by simp only [Member.ref, h], ?_⟩
      rw [← hk]
      cases et with
      | PP => exact absurd rfl het
      | FF =>
        refine ⟨⟨0, by simp, by simp [EType.released]⟩, fun th h1 _ => ?_⟩
        have : th = 0 := funext fun p => h1 p (by simp [EType.released])
        subst this
        simp
      | FP =>
        refine releasedForce_single _ _ _ 3
          (by rw [show kFF e L 3 3 = 4 * e / L by simp [kFF]]; positivity) fun p => ?_
        fin_cases p <;> simp [CNL.vec, releaseCnl, kFF] <;> field_simp <;> ring
      | PF =>
        refine releasedForce_single _ _ _ 1
          (by rw [show kFF e L 1 1 = 4 * e / L by simp [kFF]]; positivity) fun p => ?_
        fin_cases p <;> simp [CNL.vec, releaseCnl, kFF] <;> field_simp <;> ring
    | «section» s =>
      have hk' : kNonprismatic s L .FF = .ok (TtKT Kth L) := hk
      obtain ⟨i, hi, _⟩ := (flexibility_PD2 s.nodes hE L hL).inv
      obtain ⟨c', h1, h2⟩ := releaseRef_release (refFF c
          (i 0 0 * (theta0 ld (.section s) none L).1 + i 0 1 * (theta0 ld (.section s) none L).2)
          (i 1 0 * (theta0 ld (.section s) none L).1 + i 1 1 * (theta0 ld (.section s) none L).2) L)
          (TtKT Kth L) L et het e1 e3
      refine ⟨_, c', hk, ?_, ?_, h2⟩
      · simp only [Member.ref, hc, hi, releaseRef]
      · simp only [Member.ref, h, hi, hk', h1]
  | some g =>
    have hg := hG g rfl
    have htimo : ∀ (EI g : Rigidity K), EI.Good → g.Good →
        (kTimoshenko EI g L .FF = .ok (TtKT Kth L)) →
        ∃ i, inv2 (timoFlexibility EI g L) = .ok i := fun EI g h1 h2 _ =>
      let ⟨i, hi, _⟩ := (timoFlexibility_PD2 EI g h1 h2 L hL).inv
      ⟨i, hi⟩
    have hvar : ∀ (EI g : Rigidity K) (i : Matrix (Fin 2) (Fin 2) K),
        ∃ c', releaseRef (refFF c
          (i 0 0 * (theta0 ld EI (some g) L).1 + i 0 1 * (theta0 ld EI (some g) L).2)
          (i 1 0 * (theta0 ld EI (some g) L).1 + i 1 1 * (theta0 ld EI (some g) L).2) L)
          (.ok (TtKT Kth L)) L et = .ok c' ∧ IsReleasedForce (TtKT Kth L) (refFF c
          (i 0 0 * (theta0 ld EI (some g) L).1 + i 0 1 * (theta0 ld EI (some g) L).2)
          (i 1 0 * (theta0 ld EI (some g) L).1 + i 1 1 * (theta0 ld EI (some g) L).2) L)
          c' et.released := fun EI g i => releaseRef_release _ _ L et het e1 e3
    cases EI with
    | const e =>
      cases g with
      | const g =>
        simp only [Member.spanK, condenseFor, Except.ok.injEq] at hk
        obtain ⟨Kth', h1, h2⟩ := kFFtimo_eq e g L hE hg hL
        have hk' : kTimoshenko (.const e) (.const g) L .FF = .ok (TtKT Kth L) := by
          simp only [kTimoshenko, h1, condenseFor, ← h2, hk]
        obtain ⟨c', h3, h4⟩ := releaseRef_release (refTimoFF c e g L) _ L et het e1 e3
        refine ⟨_, c', by simp only [Member.spanK, condenseFor, hk], ?_, ?_, h4⟩
        · simp only [Member.ref, hc, releaseRef]
        · simp only [Member.ref, h, hk', h3]
      | «section» gs =>
        have hk' : kTimoshenko (.const e) (.section gs) L .FF = .ok (TtKT Kth L) := hk
        obtain ⟨i, hi⟩ := htimo _ _ hE hg hk'
        obtain ⟨c', h1, h2⟩ := hvar (.const e) (.section gs) i
        refine ⟨_, c', hk, ?_, ?_, h2⟩
        · simp only [Member.ref, hc, hi, releaseRef]
        · simp only [Member.ref, h, hi, hk', h1]
    | «section» s =>
      have hk' : kTimoshenko (.section s) g L .FF = .ok (TtKT Kth L) := by
        cases g <;> exact hk
      obtain ⟨i, hi⟩ := htimo _ _ hE hg hk'
      obtain ⟨c', h1, h2⟩ := hvar (.section s) g i
      refine ⟨_, c', hk, ?_, ?_, h2⟩
      · cases g <;> simp only [Member.ref, hc, hi, releaseRef]
      · cases g <;> simp only [Member.ref, h, hi, hk', h1]

/-- **C04 fails** for pinned-pinned members: for a point load of 10 at a quarter
of a span of 4 the end forces of `get_ref` are not the condensation of the
clamped ones, both for the slender and for the shear-flexible member. -/
theorem C04_pinned_pinned_violation :
    ∃ (ld : Load ℚ), ld.OnSpan 4 ∧ ∀ GAv ∈ [none, some (.const 1)],
      ∃ kff c0 c', (⟨.const 1, 4, .FF, GAv⟩ : Member ℚ).spanK = .ok kff ∧
      (⟨.const 1, 4, .FF, GAv⟩ : Member ℚ).ref ld = .ok c0 ∧
      (⟨.const 1, 4, .PP, GAv⟩ : Member ℚ).ref ld = .ok c' ∧
      ¬ IsReleasedForce kff c0 c' EType.PP.released := by
  refine ⟨.pl 10 1, by norm_num [Load.OnSpan], ?_⟩
  intro GAv hG
  simp only [List.mem_cons, List.not_mem_nil, or_false] at hG
  rcases hG with rfl | rfl
  · refine ⟨_, _, _, rfl, rfl, rfl, ?_⟩
    rintro ⟨⟨th, h1, h2⟩, h3⟩
    have h4 := h3 th h1 h2
    have a0 := congrFun h4 0
    have z0 := h1 0 (by simp [EType.released])
    have z2 := h1 2 (by simp [EType.released])
    have b1 := h2 1 (by simp [EType.released])
    have b3 := h2 3 (by simp [EType.released])
    simp [CNL.vec, mulVec4, kFF, plCnl, releaseCnl, z0, z2] at a0 b1 b3
    norm_num at a0 b1 b3
    linarith
  · refine ⟨_, _, _, rfl, rfl, rfl, ?_⟩
    rintro ⟨⟨th, h1, h2⟩, h3⟩
    have h4 := h3 th h1 h2
    have a0 := congrFun h4 0
    have z0 := h1 0 (by simp [EType.released])
    have z2 := h1 2 (by simp [EType.released])
    have b1 := h2 1 (by simp [EType.released])
    have b3 := h2 3 (by simp [EType.released])
    simp [CNL.vec, mulVec4, kFFtimo, plCnl, refTimoFF, refFF, z0, z2] at a0 b1 b3
    norm_num at a0 b1 b3
    linarith

/-- The member theorem at a stepped member with a pinned right end. -/
example : ∃ kff c0 c', (exStepped .FF).spanK = .ok kff ∧
      (exStepped .FF).ref (.pl 10 1) = .ok c0 ∧ (exStepped .FP).ref (.pl 10 1) = .ok c' ∧
      IsReleasedForce kff c0 c' [3] :=
  C04_member_release_partial (exStepped .FP) (exStepped_good _) (by decide) (.pl 10 1)
    (plCnl 10 1 2) rfl

example : ∃ c', (Load.pl (10 : ℚ) 1).getRef 4 .PF = .ok c' ∧
    IsReleasedForce (kFF 5 4) (plCnl 10 1 4) c' [1] :=
  C04_release_by_condensation_partial _ 5 4 (by norm_num) (by norm_num) .PF (by decide) _ rfl

end release

end PyCBA
