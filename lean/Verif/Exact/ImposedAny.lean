import Verif.Exact.Imposed
import Verif.Exact.Simpson
import Verif.Exact.WellPosed

set_option linter.unusedSectionVars false
set_option linter.unusedSimpArgs false

/-!
C146: imposed curvatures of any degree.  The fixed-end forces of the code come from Simpson's rule,
so the analysis is not exact beyond degree two; here the distance of the reported displacements and
end forces from the one solution of the continuous problem is bounded for every degree.
-/

namespace PyCBA

open MeasureTheory Set Matrix

/-! ### One span, exactly -/

/-- A load on the span, or an imposed curvature of any degree. -/
def Load.ImposableAny (L : ℝ) (ld : Load ℝ) : Prop :=
  ld.Plain L ∨ ∃ k E, ld = .ic k E

/-- Rotation that an imposed curvature alone gives a span held at its left end. -/
noncomputable def Load.rotFree : Load ℝ → ℝ → ℝ
  | .ic k _, x => ∫ t in (0 : ℝ)..x, polyInc k t
  | _, _ => 0

/-- Deflection that an imposed curvature alone gives a span held at its left end. -/
noncomputable def Load.deflFree : Load ℝ → ℝ → ℝ
  | .ic k _, x => ∫ t in (0 : ℝ)..x, ∫ r in (0 : ℝ)..t, polyInc k r
  | _, _ => 0

/-- Forces that hold back the free shape of an imposed curvature. -/
noncomputable def icExact (k : List ℝ) (e L : ℝ) : CNL ℝ :=
  ⟨12 * e / L ^ 3 * (Load.ic k none).deflFree L - 6 * e / L ^ 2 * (Load.ic k none).rotFree L,
   6 * e / L ^ 2 * (Load.ic k none).deflFree L - 2 * e / L * (Load.ic k none).rotFree L,
   -(12 * e / L ^ 3 * (Load.ic k none).deflFree L - 6 * e / L ^ 2 * (Load.ic k none).rotFree L),
   6 * e / L ^ 2 * (Load.ic k none).deflFree L - 4 * e / L * (Load.ic k none).rotFree L⟩

/-- Fixed-end forces on a member of rigidity `e`. -/
noncomputable def Load.clampedX (e L : ℝ) : Load ℝ → CNL ℝ
  | .ic k _ => icExact k e L
  | ld => ld.clamped L

/-- Sum of the fixed-end forces on a member of rigidity `e`. -/
noncomputable def clampedSumX (e L : ℝ) (own : List (Load ℝ)) : CNL ℝ :=
  ⟨(own.map fun ld => (ld.clampedX e L).Va).sum, (own.map fun ld => (ld.clampedX e L).Ma).sum,
    (own.map fun ld => (ld.clampedX e L).Vb).sum, (own.map fun ld => (ld.clampedX e L).Mb).sum⟩

theorem sum_clampedX (e L : ℝ) (own : List (Load ℝ))
    (f : Load ℝ → ℝ) (p q r s : ℝ)
    (h : ∀ ld ∈ own, f ld = p * (ld.clampedX e L).Va + q * (ld.clampedX e L).Ma
      + r * (ld.clampedX e L).Vb + s * (ld.clampedX e L).Mb) :
    (own.map f).sum = p * (clampedSumX e L own).Va + q * (clampedSumX e L own).Ma
      + r * (clampedSumX e L own).Vb + s * (clampedSumX e L own).Mb := by
  induction own with
  | nil => simp [clampedSumX]
  | cons a l ih =>
    have := ih fun ld hld => h ld (List.mem_cons_of_mem _ hld)
    simp only [clampedSumX, List.map_cons, List.sum_cons] at this ⊢
    rw [this, h a List.mem_cons_self]
    ring

noncomputable def freeRot (own : List (Load ℝ)) (x : ℝ) : ℝ := (own.map fun ld => ld.rotFree x).sum
noncomputable def freeDefl (own : List (Load ℝ)) (x : ℝ) : ℝ := (own.map fun ld => ld.deflFree x).sum

theorem mechOnly_plainX {L : ℝ} {own : List (Load ℝ)} (hown : ∀ ld ∈ own, ld.ImposableAny L) :
    ∀ ld ∈ mechOnly own, ld.Plain L := by
  intro ld hld
  simp only [mechOnly, List.mem_filter] at hld
  rcases hown ld hld.1 with h | ⟨k, E, rfl⟩
  · exact h
  · simp [Load.isMech] at hld

theorem freeRot_deriv {L : ℝ} {own : List (Load ℝ)} (hown : ∀ ld ∈ own, ld.ImposableAny L) (x : ℝ) :
    HasDerivAt (freeRot own) (imposedCurv own x) x := by
  refine hasDerivAt_list_sum own (fun ld y => ld.rotFree y) (fun ld => ld.kappaImp x) x ?_
  intro ld hld
  rcases hown ld hld with h | ⟨k, E, rfl⟩
  · rw [kappaImp_mech ld h.2.1]
    have e : (fun y => ld.rotFree y) = fun _ => (0 : ℝ) := by
      have := h.2.1
      cases ld <;> first | exact this.elim | rfl
    rw [e]
    exact hasDerivAt_const x 0
  · exact ((polyInc_continuous k).integral_hasStrictDerivAt 0 x).hasDerivAt

theorem rotFree_continuous (k : List ℝ) : Continuous fun x : ℝ => ∫ t in (0 : ℝ)..x, polyInc k t :=
  continuous_iff_continuousAt.mpr fun x =>
    ((polyInc_continuous k).integral_hasStrictDerivAt 0 x).hasDerivAt.continuousAt

theorem freeDefl_deriv (own : List (Load ℝ)) (x : ℝ) :
    HasDerivAt (freeDefl own) (freeRot own x) x := by
  refine hasDerivAt_list_sum own (fun ld y => ld.deflFree y) (fun ld => ld.rotFree x) x ?_
  intro ld _
  cases ld with
  | ic k E => exact ((rotFree_continuous k).integral_hasStrictDerivAt 0 x).hasDerivAt
  | _ => exact hasDerivAt_const x 0

theorem free_start (own : List (Load ℝ)) : freeRot own 0 = 0 ∧ freeDefl own 0 = 0 := by
  constructor
  · simp only [freeRot]
    rw [List.map_congr_left (g := fun _ => (0 : ℝ))]
    · simp
    · intro ld _
      cases ld <;> simp [Load.rotFree]
  · simp only [freeDefl]
    rw [List.map_congr_left (g := fun _ => (0 : ℝ))]
    · simp
    · intro ld _
      cases ld <;> simp [Load.deflFree]

/-- Taking off the free shape of the imposed curvatures leaves the elastic line of the loads. -/
theorem imposedSpan_iffX {EI L : ℝ} {own : List (Load ℝ)} (hown : ∀ ld ∈ own, ld.ImposableAny L)
    (F : Vec4 ℝ) (v θ : ℝ → ℝ) :
    ImposedSpan EI L own F v θ ↔
    ElasticSpan EI L (mechOnly own) F (fun x => v x - freeDefl own x)
      (fun x => θ x - freeRot own x) := by
  have cD : Continuous (freeDefl own) :=
    continuous_iff_continuousAt.mpr fun x => (freeDefl_deriv own x).continuousAt
  have cR : Continuous (freeRot own) :=
    continuous_iff_continuousAt.mpr fun x => (freeRot_deriv hown x).continuousAt
  have e1 : ((mechOnly own).map fun ld => ld.total L).sum = (own.map fun ld => ld.total L).sum :=
    sum_mechOnly own _ fun k E => by
      simp [Load.total, Load.intensity, Load.forces]
  have e2 : ((mechOnly own).map fun ld => ld.momentAboutLeft L).sum
      = (own.map fun ld => ld.momentAboutLeft L).sum :=
    sum_mechOnly own _ fun k E => by
      simp [Load.momentAboutLeft, Load.intensity, Load.forces, Load.couples]
  constructor
  · intro h
    refine ⟨fun x hx => (h.slope x hx).sub (freeDefl_deriv own x), fun x hx hc => ?_,
      h.contV.sub cD.continuousOn, h.contT.sub cR.continuousOn, by rw [e1]; exact h.force,
      by rw [e2]; exact h.moment⟩
    refine ((h.curvature x hx ((mechOnly_couples own x).1 hc)).sub
      (freeRot_deriv hown x)).congr_deriv ?_
    rw [cutM_mechOnly]
    ring
  · intro h
    have ev : v = fun x => (v x - freeDefl own x) + freeDefl own x := by ext x; ring
    have et : θ = fun x => (θ x - freeRot own x) + freeRot own x := by ext x; ring
    refine ⟨fun x hx => ?_, fun x hx hc => ?_, ?_, ?_, by rw [← e1]; exact h.force,
      by rw [← e2]; exact h.moment⟩
    · rw [ev]
      exact ((h.slope x hx).add (freeDefl_deriv own x)).congr_deriv (by ring)
    · rw [et]
      refine ((h.curvature x hx ((mechOnly_couples own x).2 hc)).add
        (freeRot_deriv hown x)).congr_deriv ?_
      rw [cutM_mechOnly]
    · rw [ev]
      exact h.contV.add cD.continuousOn
    · rw [et]
      exact h.contT.add cR.continuousOn

/-- The fixed-end forces of an imposed curvature hold back its free shape. -/
theorem icExact_vec {EI L : ℝ} (hL : 0 < L) (k : List ℝ) (E : Option ℝ) :
    (icExact k EI L).vec
      = -(kFF EI L *ᵥ ![0, 0, (Load.ic k E).deflFree L, (Load.ic k E).rotFree L]) := by
  have hL0 := hL.ne'
  have e1 : (Load.ic k E).deflFree L = (Load.ic k none).deflFree L := rfl
  have e2 : (Load.ic k E).rotFree L = (Load.ic k none).rotFree L := rfl
  rw [kFF_mulVec, e1, e2]
  ext p
  fin_cases p <;> simp [CNL.vec, icExact] <;> ring

theorem clampedSumX_vec {EI L : ℝ} (hL : 0 < L) {own : List (Load ℝ)}
    (hown : ∀ ld ∈ own, ld.ImposableAny L) :
    (clampedSumX EI L own).vec = (clampedSum L (mechOnly own)).vec
      - kFF EI L *ᵥ ![0, 0, freeDefl own L, freeRot own L] := by
  induction own with
  | nil =>
    rw [kFF_mulVec]
    ext p
    fin_cases p <;> simp [clampedSumX, clampedSum, mechOnly, freeDefl, freeRot, CNL.vec]
  | cons a l ih =>
    have h1 := ih fun ld hld => hown ld (List.mem_cons_of_mem _ hld)
    have h2 : (clampedSumX EI L (a :: l)).vec
        = (a.clampedX EI L).vec + (clampedSumX EI L l).vec := by
      ext p
      fin_cases p <;> simp [clampedSumX, CNL.vec]
    have h3 : kFF EI L *ᵥ ![0, 0, freeDefl (a :: l) L, freeRot (a :: l) L]
        = kFF EI L *ᵥ ![0, 0, a.deflFree L, a.rotFree L]
          + kFF EI L *ᵥ ![0, 0, freeDefl l L, freeRot l L] := by
      rw [← Matrix.mulVec_add]
      congr 1
      ext p
      fin_cases p <;> simp [freeDefl, freeRot]
    rw [h2, h3, h1]
    rcases hown a List.mem_cons_self with h | ⟨k, E, rfl⟩
    · have hm := h.2.1
      have e0 : kFF EI L *ᵥ ![0, 0, a.deflFree L, a.rotFree L] = 0 := by
        have : (![0, 0, a.deflFree L, a.rotFree L] : Vec4 ℝ) = 0 := by
          ext p
          cases a <;> first | exact hm.elim | (fin_cases p <;> simp [Load.deflFree, Load.rotFree])
        rw [this, Matrix.mulVec_zero]
      have e1 : (clampedSum L (mechOnly (a :: l))).vec
          = (a.clampedX EI L).vec + (clampedSum L (mechOnly l)).vec := by
        ext p
        cases a <;> first | exact hm.elim |
          (fin_cases p <;> simp [clampedSum, CNL.vec, mechOnly, Load.isMech, Load.clampedX])
      rw [e0, e1]
      abel
    · have e1 : clampedSum L (mechOnly (Load.ic k E :: l)) = clampedSum L (mechOnly l) := by
        simp [mechOnly, Load.isMech]
      have e2 : (Load.ic k E).clampedX EI L = icExact k EI L := rfl
      rw [e1, e2, icExact_vec hL k E]
      abel

/-- A span whose end forces satisfy the stiffness equation has an elastic line. -/
theorem imposedSpan_of_stiffnessX {EI L : ℝ} (hE : EI ≠ 0) (hL : 0 < L) {own : List (Load ℝ)}
    (hown : ∀ ld ∈ own, ld.ImposableAny L) (F d : Vec4 ℝ)
    (h : F = kFF EI L *ᵥ d + (clampedSumX EI L own).vec) :
    ∃ v θ : ℝ → ℝ, ImposedSpan EI L own F v θ ∧ v 0 = d 0 ∧ θ 0 = d 1 ∧ v L = d 2 ∧ θ L = d 3 := by
  rw [clampedSumX_vec hL hown] at h
  obtain ⟨v, θ, h1, h2, h3, h4, h5⟩ := elasticSpan_of_stiffness hE hL (mechOnly_plainX hown) F
    (d - ![0, 0, freeDefl own L, freeRot own L]) (by rw [h, Matrix.mulVec_sub]; abel)
  obtain ⟨z1, z2⟩ := free_start own
  refine ⟨fun x => v x + freeDefl own x, fun x => θ x + freeRot own x, ?_, ?_, ?_, ?_, ?_⟩
  · rw [imposedSpan_iffX hown]
    simpa using h1
  · simp [h2, z2]
  · simp [h3, z1]
  · simp [h4]
  · simp [h5]

/-- The elastic line of a span satisfies the stiffness equation. -/
theorem ImposedSpan.stiffnessX {EI L : ℝ} (hE : EI ≠ 0) (hL : 0 < L) {own : List (Load ℝ)}
    (hown : ∀ ld ∈ own, ld.ImposableAny L) {F : Vec4 ℝ} {v θ : ℝ → ℝ} (h : ImposedSpan EI L own F v θ) :
    F = kFF EI L *ᵥ ![v 0, θ 0, v L, θ L] + (clampedSumX EI L own).vec := by
  have h1 := ((imposedSpan_iffX hown F v θ).1 h).stiffness hE hL (mechOnly_plainX hown)
  obtain ⟨z1, z2⟩ := free_start own
  rw [clampedSumX_vec hL hown]
  rw [h1]
  have e : (![v 0 - freeDefl own 0, θ 0 - freeRot own 0, v L - freeDefl own L,
      θ L - freeRot own L] : Vec4 ℝ)
      = ![v 0, θ 0, v L, θ L] - ![0, 0, freeDefl own L, freeRot own L] := by
    ext p
    fin_cases p <;> simp [z1, z2]
  rw [e, Matrix.mulVec_sub]
  abel

/-- Two elastic lines with the same end forces and left end agree. -/
theorem ImposedSpan.uniqueX {EI L : ℝ} (hL : 0 < L) {own : List (Load ℝ)}
    (hown : ∀ ld ∈ own, ld.ImposableAny L) {F : Vec4 ℝ} {v θ v' θ' : ℝ → ℝ}
    (h : ImposedSpan EI L own F v θ) (h' : ImposedSpan EI L own F v' θ')
    (e1 : v 0 = v' 0) (e2 : θ 0 = θ' 0) : ∀ x ∈ Icc 0 L, v x = v' x ∧ θ x = θ' x := by
  intro x hx
  obtain ⟨a1, a2⟩ := ((imposedSpan_iffX hown F v θ).1 h).eq_line hL (mechOnly_plainX hown)
  obtain ⟨b1, b2⟩ := ((imposedSpan_iffX hown F v' θ').1 h').eq_line hL (mechOnly_plainX hown)
  have a1' := a1 x hx
  have a2' := a2 x hx
  have b1' := b1 x hx
  have b2' := b2 x hx
  simp only [e1, e2] at a1' a2'
  rw [← b1'] at a1'
  rw [← b2'] at a2'
  exact ⟨by linarith, by linarith⟩

/-! ### How far the fixed-end forces of the code are from the exact ones -/

theorem deflFree_eq (k : List ℝ) (E : Option ℝ) (L : ℝ) :
    (Load.ic k E).deflFree L
      = L * (∫ x in (0 : ℝ)..L, polyInc k x) - ∫ x in (0 : ℝ)..L, x * polyInc k x := by
  have hc := polyInc_continuous k
  have hc2 : Continuous fun x : ℝ => x * polyInc k x := by fun_prop
  have h : ∀ x ∈ uIcc (0 : ℝ) L, HasDerivAt
      (fun x => x * (∫ t in (0 : ℝ)..x, polyInc k t) - ∫ t in (0 : ℝ)..x, t * polyInc k t)
      (∫ t in (0 : ℝ)..x, polyInc k t) x := by
    intro x _
    refine (((hasDerivAt_id x).mul (hc.integral_hasStrictDerivAt 0 x).hasDerivAt).sub
      (hc2.integral_hasStrictDerivAt 0 x).hasDerivAt).congr_deriv ?_
    simp only [id]
    ring
  have := intervalIntegral.integral_eq_sub_of_hasDerivAt h
    ((rotFree_continuous k).intervalIntegrable _ _)
  simp only [Load.deflFree]
  rw [this]
  simp

/-- The exact fixed-end moments clamp the member. -/
theorem icExact_clamps (k : List ℝ) {EI L : ℝ} (hL : 0 < L) (hE : 0 < EI) :
    ClampsCurvature k EI L (icExact k EI L).Ma (icExact k EI L).Mb := by
  rw [clampsCurvature_iff hL hE]
  have hc := polyInc_continuous k
  have j1 : (∫ x in (0 : ℝ)..L, -x / L * polyInc k x)
      = -(1 / L) * ∫ x in (0 : ℝ)..L, x * polyInc k x := by
    rw [← intervalIntegral.integral_const_mul]
    congr 1; funext x; ring
  have j0 : (∫ x in (0 : ℝ)..L, (1 - x / L) * polyInc k x)
      = (∫ x in (0 : ℝ)..L, polyInc k x) - 1 / L * ∫ x in (0 : ℝ)..L, x * polyInc k x := by
    rw [← intervalIntegral.integral_const_mul, ← intervalIntegral.integral_sub
      (hc.intervalIntegrable _ _) ((by fun_prop : Continuous _).intervalIntegrable _ _)]
    congr 1; funext x; ring
  rw [j0, j1]
  simp only [icExact, deflFree_eq]
  have e : (Load.ic k none).rotFree L = ∫ x in (0 : ℝ)..L, polyInc k x := rfl
  rw [e]
  have hL0 := hL.ne'
  constructor <;> field_simp <;> ring

/-- Bound of the error of the end rotations by all imposed curvatures of a span. -/
noncomputable def curvErr (L : ℝ) (own : List (Load ℝ)) : ℝ :=
  (own.map fun ld => match ld with | .ic k _ => icErr k L | _ => 0).sum

theorem icErr_nonneg (k : List ℝ) {L : ℝ} (hL : 0 < L) : 0 ≤ icErr k L := by
  refine List.sum_nonneg fun y hy => ?_
  obtain ⟨i, _, rfl⟩ := List.mem_map.1 hy
  positivity

theorem clampedSum_err {EI L : ℝ} (hL : 0 < L) (hE : 0 < EI) (own : List (Load ℝ)) :
    |(clampedSumE EI L own).Ma - (clampedSumX EI L own).Ma| ≤ 6 * EI / L * curvErr L own ∧
    |(clampedSumE EI L own).Mb - (clampedSumX EI L own).Mb| ≤ 6 * EI / L * curvErr L own ∧
    |(clampedSumE EI L own).Va - (clampedSumX EI L own).Va| ≤ 12 * EI / L ^ 2 * curvErr L own ∧
    |(clampedSumE EI L own).Vb - (clampedSumX EI L own).Vb| ≤ 12 * EI / L ^ 2 * curvErr L own := by
  have one : ∀ ld : Load ℝ, ∃ ε : ℝ, ε = (match ld with | .ic k _ => icErr k L | _ => 0) ∧
      |(ld.clampedE EI L).Ma - (ld.clampedX EI L).Ma| ≤ 6 * EI / L * ε ∧
      |(ld.clampedE EI L).Mb - (ld.clampedX EI L).Mb| ≤ 6 * EI / L * ε ∧
      |(ld.clampedE EI L).Va - (ld.clampedX EI L).Va| ≤ 12 * EI / L ^ 2 * ε ∧
      |(ld.clampedE EI L).Vb - (ld.clampedX EI L).Vb| ≤ 12 * EI / L ^ 2 * ε := by
    intro ld
    refine ⟨_, rfl, ?_⟩
    cases ld with
    | ic k E =>
      obtain ⟨c, hc, _, h⟩ := C144_fixed_end_moments k EI L hL hE
      have hc' : c = icCnl k EI L := by
        simp only [Load.getCnl] at hc
        cases hc; rfl
      subst hc'
      obtain ⟨h1, h2, h3, h4⟩ := h _ _ (icExact_clamps k hL hE)
      have hL0 := hL.ne'
      have eV : ((icExact k EI L).Ma + (icExact k EI L).Mb) / L = (icExact k EI L).Va := by
        simp only [icExact]; field_simp; ring
      have eW : (icExact k EI L).Vb = -(icExact k EI L).Va := rfl
      refine ⟨h1, h2, ?_, ?_⟩
      · rw [eV] at h3; exact h3
      · rw [eV] at h4
        simp only [Load.clampedE, Load.clampedX]
        rw [eW, sub_neg_eq_add]; exact h4
    | _ => simp [Load.clampedE, Load.clampedX]
  have add : ∀ a b c d x y : ℝ, |a - b| ≤ x → |c - d| ≤ y → |(a + c) - (b + d)| ≤ x + y := by
    intro a b c d x y h1 h2
    have : (a + c) - (b + d) = (a - b) + (c - d) := by ring
    rw [this]
    exact (abs_add_le _ _).trans (add_le_add h1 h2)
  induction own with
  | nil => simp [clampedSumE, clampedSumX, curvErr]
  | cons a l ih =>
    obtain ⟨ε, hε, h1, h2, h3, h4⟩ := one a
    obtain ⟨i1, i2, i3, i4⟩ := ih
    have ec : curvErr L (a :: l) = ε + curvErr L l := by
      rw [hε]; simp only [curvErr, List.map_cons, List.sum_cons]
    rw [ec, mul_add, mul_add]
    simp only [clampedSumE, clampedSumX, List.map_cons, List.sum_cons] at i1 i2 i3 i4 ⊢
    exact ⟨add _ _ _ _ _ _ h1 i1, add _ _ _ _ _ _ h2 i2, add _ _ _ _ _ _ h3 i3, add _ _ _ _ _ _ h4 i4⟩

theorem release_err {EI L : ℝ} (hL : 0 < L) (hE : 0 < EI) {c x : CNL ℝ} {ε : ℝ} (hε : 0 ≤ ε)
    (h1 : |c.Ma - x.Ma| ≤ 6 * EI / L * ε) (h2 : |c.Mb - x.Mb| ≤ 6 * EI / L * ε)
    (h3 : |c.Va - x.Va| ≤ 12 * EI / L ^ 2 * ε) (h4 : |c.Vb - x.Vb| ≤ 12 * EI / L ^ 2 * ε)
    (et : EType) (het : et ≠ .PP) (q : Fin 4) :
    |(releaseCnl c L et).vec q - (releaseCnl x L et).vec q|
      ≤ (9 * EI / L + 21 * EI / L ^ 2) * ε := by
  have hL0 := hL.ne'
  obtain ⟨a1, b1⟩ := abs_le.1 h1
  obtain ⟨a2, b2⟩ := abs_le.1 h2
  obtain ⟨a3, b3⟩ := abs_le.1 h3
  obtain ⟨a4, b4⟩ := abs_le.1 h4
  set p := EI / L * ε with hp
  set r := EI / L ^ 2 * ε with hr
  have p0 : 0 ≤ p := by positivity
  have r0 : 0 ≤ r := by positivity
  have m1 : 6 * EI / L * ε = 6 * p := by rw [hp]; ring
  have m2 : 12 * EI / L ^ 2 * ε = 12 * r := by rw [hr]; ring
  have m3 : (9 * EI / L + 21 * EI / L ^ 2) * ε = 9 * p + 21 * r := by rw [hp, hr]; ring
  have m4 : 1 / L * p = r := by rw [hp, hr]; field_simp
  rw [m1] at a1 b1 a2 b2
  rw [m2] at a3 b3 a4 b4
  rw [m3]
  have iL : 0 < 1 / L := by positivity
  have k1 : |1 / L * (c.Ma - x.Ma)| ≤ 6 * r := by
    rw [abs_mul, abs_of_pos iL, ← m4]
    have := mul_le_mul_of_nonneg_left h1 iL.le
    rw [m1] at this
    linarith
  have k2 : |1 / L * (c.Mb - x.Mb)| ≤ 6 * r := by
    rw [abs_mul, abs_of_pos iL, ← m4]
    have := mul_le_mul_of_nonneg_left h2 iL.le
    rw [m1] at this
    linarith
  obtain ⟨a5, b5⟩ := abs_le.1 k1
  obtain ⟨a6, b6⟩ := abs_le.1 k2
  have z : ∀ y : ℝ, 6 / (4 * L) * y = 3 / 2 * (1 / L * y) := fun y => by field_simp; ring
  rw [abs_le]
  cases et with
  | FF => fin_cases q <;> simp only [CNL.vec, releaseCnl] <;> constructor <;> simp <;> linarith
  | FP =>
    fin_cases q <;> simp only [CNL.vec, releaseCnl] <;> constructor <;> simp <;>
      linarith [z c.Mb, z x.Mb]
  | PF =>
    fin_cases q <;> simp only [CNL.vec, releaseCnl] <;> constructor <;> simp <;>
      linarith [z c.Ma, z x.Ma]
  | PP => exact absurd rfl het

/-! ### The beam -/

/-- Slender prismatic members, none pinned at both ends, under loads that lie on their spans and
imposed curvatures of any degree. -/
structure BeamDef.ImposedAny (b : BeamDef ℝ) (ls : List (SpanLoad ℝ)) : Prop where
  pos : ∀ m ∈ b.members, 0 < m.L
  prismatic : ∀ m ∈ b.members, m.GAv = none ∧ ∃ e, 0 < e ∧ m.EI = .const e
  pins : ∀ m ∈ b.members, m.et ≠ .PP
  loads : ∀ i (hi : i < b.members.length), ∀ l ∈ ls, l.iSpan = (i : ℤ) →
    (l.load.OnSpan b.members[i].L ∧ l.load.IsMechanical) ∨ ∃ k E, l.load = .ic k E

theorem BeamDef.ImposedAny.own {b : BeamDef ℝ} {ls : List (SpanLoad ℝ)} (h : b.ImposedAny ls)
    (hls : b.setLoads = .ok ls) (i : ℕ) (hi : i < b.members.length) :
    ∀ ld ∈ ownLoads i ls, ld.ImposableAny b.members[i].L := by
  intro ld hld
  simp only [ownLoads, List.mem_map, List.mem_filter, decide_eq_true_eq] at hld
  obtain ⟨l, ⟨h1, h2⟩, rfl⟩ := hld
  rcases h.loads i hi l h1 h2 with h3 | h3
  · exact .inl ⟨h3.1, h3.2, b.setLoads_no_mamb hls l h1⟩
  · exact .inr h3

/-- The rigidity of a prismatic member. -/
noncomputable def Rigidity.value : Rigidity ℝ → ℝ
  | .const e => e
  | _ => 0

/-- Exact fixed-end forces of the members. -/
noncomputable def BeamDef.exactRef (b : BeamDef ℝ) (ls : List (SpanLoad ℝ)) (i : ℕ) : Vec4 ℝ :=
  if hi : i < b.members.length then
    (releaseCnl (clampedSumX b.members[i].EI.value b.members[i].L (ownLoads i ls))
      b.members[i].L b.members[i].et).vec
  else 0

theorem refSum_anyDegree {m : Member ℝ} (hL : 0 < m.L) {e : ℝ} (hEI : m.EI = .const e)
    (hG : m.GAv = none) (i : ℕ) (ls : List (SpanLoad ℝ))
    (hown : ∀ ld ∈ ownLoads i ls, ld.ImposableAny m.L) (t : CNL ℝ) (ht : m.refSum i ls = .ok t) :
    t = releaseCnl (clampedSumE e m.L (ownLoads i ls)) m.L m.et := by
  have href : ∀ l ∈ ls, l.iSpan = (i : ℤ) → ∀ c, m.ref l.load = .ok c →
      c = releaseCnl (l.load.clampedE e m.L) m.L m.et := by
    intro l hl hli c hc
    have hp : l.load.ImposableAny m.L := hown _ (by
      simp only [ownLoads, List.mem_map, List.mem_filter, decide_eq_true_eq]
      exact ⟨l, ⟨hl, hli⟩, rfl⟩)
    have hcn : m.cnl l.load = .ok (l.load.clampedE e m.L) := by
      rcases hp with hp | ⟨k, E, hk⟩
      · have h1 := hp.2.1
        have h2 := hp.getCnl hL
        generalize l.load = ld at *
        cases ld <;> first | exact h1.elim | simp only [Member.cnl, h2, Load.clampedE]
      · rw [hk]
        simp only [Member.cnl, hEI, Load.clampedE]
    simp only [Member.ref, hcn, hG, hEI] at hc
    exact (Except.ok.inj hc).symm
  have key : ∀ (φ : CNL ℝ → ℝ) (h0 : φ ⟨0, 0, 0, 0⟩ = 0)
      (hadd : ∀ c t : CNL ℝ, φ ⟨c.Va + t.Va, c.Ma + t.Ma, c.Vb + t.Vb, c.Mb + t.Mb⟩ = φ c + φ t)
      (p q r s : ℝ) (hφ : ∀ c : CNL ℝ, φ (releaseCnl c m.L m.et)
        = p * c.Va + q * c.Ma + r * c.Vb + s * c.Mb),
      φ t = φ (releaseCnl (clampedSumE e m.L (ownLoads i ls)) m.L m.et) := by
    intro φ h0 hadd p q r s hφ
    rw [m.refSum_lin i φ h0 hadd (fun l => φ (releaseCnl (l.load.clampedE e m.L) m.L m.et)) ls
      (fun l hl hli c hc => by rw [href l hl hli c hc]) t ht, hφ,
      ← sum_clampedE e m.L (ownLoads i ls)
        (fun ld => φ (releaseCnl (ld.clampedE e m.L) m.L m.et)) p q r s (fun ld _ => hφ _)]
    simp only [ownLoads, List.map_map, Function.comp_def]
  generalize clampedSumE e m.L (ownLoads i ls) = C at *
  generalize m.et = et at *
  cases et
  · ext
    · exact key CNL.Va rfl (fun _ _ => rfl) 1 0 0 0 (fun c => by simp only [releaseCnl]; ring)
    · exact key CNL.Ma rfl (fun _ _ => rfl) 0 1 0 0 (fun c => by simp only [releaseCnl]; ring)
    · exact key CNL.Vb rfl (fun _ _ => rfl) 0 0 1 0 (fun c => by simp only [releaseCnl]; ring)
    · exact key CNL.Mb rfl (fun _ _ => rfl) 0 0 0 1 (fun c => by simp only [releaseCnl]; ring)
  · ext
    · exact key CNL.Va rfl (fun _ _ => rfl) 1 0 0 (-(6 / (4 * m.L))) (fun c => by simp only [releaseCnl]; ring)
    · exact key CNL.Ma rfl (fun _ _ => rfl) 0 1 0 (-1 / 2) (fun c => by simp only [releaseCnl]; ring)
    · exact key CNL.Vb rfl (fun _ _ => rfl) 0 0 1 (6 / (4 * m.L)) (fun c => by simp only [releaseCnl]; ring)
    · exact key CNL.Mb rfl (fun _ _ => rfl) 0 0 0 0 (fun c => by simp only [releaseCnl]; ring)
  · ext
    · exact key CNL.Va rfl (fun _ _ => rfl) 1 (-(6 / (4 * m.L))) 0 0 (fun c => by simp only [releaseCnl]; ring)
    · exact key CNL.Ma rfl (fun _ _ => rfl) 0 0 0 0 (fun c => by simp only [releaseCnl]; ring)
    · exact key CNL.Vb rfl (fun _ _ => rfl) 0 (6 / (4 * m.L)) 1 0 (fun c => by simp only [releaseCnl]; ring)
    · exact key CNL.Mb rfl (fun _ _ => rfl) 0 (-1 / 2) 0 1 (fun c => by simp only [releaseCnl]; ring)
  · ext
    · exact key CNL.Va rfl (fun _ _ => rfl) 1 (1 / m.L) 0 (1 / m.L) (fun c => by simp only [releaseCnl]; ring)
    · exact key CNL.Ma rfl (fun _ _ => rfl) 0 0 0 0 (fun c => by simp only [releaseCnl]; ring)
    · exact key CNL.Vb rfl (fun _ _ => rfl) 0 (-1 / m.L) 1 (-1 / m.L) (fun c => by simp only [releaseCnl]; ring)
    · exact key CNL.Mb rfl (fun _ _ => rfl) 0 0 0 0 (fun c => by simp only [releaseCnl]; ring)

theorem BeamDef.ImposedAny.endForces {b : BeamDef ℝ} {ls : List (SpanLoad ℝ)} (h : b.ImposedAny ls)
    {s : System ℝ} (hs : b.system = .ok s) (i : ℕ)
    (hi : i < b.members.length) (e : ℝ) (he : b.members[i].EI = .const e) (d : ℕ → ℝ)
    (P : ℕ → Option ℝ) :
    (s.under (b.exactRef ls) P).endForces d i = kOf e b.members[i].L b.members[i].et *ᵥ elemVec d i
      + (releaseCnl (clampedSumX e b.members[i].L (ownLoads i ls)) b.members[i].L
          b.members[i].et).vec := by
  obtain ⟨_, hk, _, _⟩ := BeamDef.system_ok hs
  have hG := (h.prismatic _ (List.getElem_mem hi)).1
  have h1 := hk i hi
  rw [spanK_kOf he hG] at h1
  simp only [System.endForces, System.under, ← Except.ok.inj h1, BeamDef.exactRef, dif_pos hi, he,
    Rigidity.value]

theorem nodeSum_under {b : BeamDef ℝ} {s : System ℝ} (hs : b.system = .ok s) (R : ℕ → Vec4 ℝ)
    (P : ℕ → Option ℝ) (d : ℕ → ℝ) (j : ℕ) (hj : j ≤ b.members.length) (c : Fin 2) :
    nodeSum b d ((s.under R P).endForces d) j c = (s.under R P).residual d (2 * j + c) := by
  obtain ⟨hn, _, _, hr, _⟩ := BeamDef.system_ok hs
  have hn' : (s.under R P).n = b.members.length := hn
  have hr' : ∀ p, (s.under R P).r p = b.restraints.getD p 0 := fun p => by
    simp only [System.under, hr]
  rw [(s.under R P).residual_node d j (by omega) c, nodeSum, hn']
  congr 1
  simp only [System.spring, hr']
  rcases lt_or_ge 0 (b.restraints.getD (2 * j + c) 0) with h | h
  · rw [if_pos h, max_eq_left h.le]
  · rw [if_neg (not_lt.mpr h), max_eq_right h]

/-- A solution of the stiffness equations gives elastic lines. -/
theorem imposedBeam_of_exact {b : BeamDef ℝ} {ls : List (SpanLoad ℝ)}
    (hls : b.setLoads = .ok ls) (hb : b.ImposedAny ls)
    {s : System ℝ} (h1 : b.system = .ok s) {u : ℕ → ℝ} (hu : (s.under (b.exactRef ls) s.presc).IsSolution u) :
    ∃ v θ : ℕ → ℝ → ℝ, ImposedBeam b ls u ((s.under (b.exactRef ls) s.presc).endForces u) v θ := by
  obtain ⟨hn, hk, _, hr, hp, _, _⟩ := BeamDef.system_ok h1
  obtain ⟨hd, hf⟩ := hu
  have key : ∀ i, ∃ v θ : ℝ → ℝ, ∀ hi : i < b.members.length,
      (∀ e, b.members[i].EI = .const e →
        ImposedSpan e b.members[i].L (ownLoads i ls) ((s.under (b.exactRef ls) s.presc).endForces u i) v θ) ∧
      v 0 = u (2 * i) ∧ v b.members[i].L = u (2 * i + 2) ∧
      (if b.members[i].et.freeLeft then (s.under (b.exactRef ls) s.presc).endForces u i 1 = 0 else θ 0 = u (2 * i + 1)) ∧
      (if b.members[i].et.freeRight then (s.under (b.exactRef ls) s.presc).endForces u i 3 = 0
        else θ b.members[i].L = u (2 * i + 3)) := by
    intro i
    by_cases hi : i < b.members.length
    · obtain ⟨_, e, he, hEI⟩ := hb.prismatic _ (List.getElem_mem hi)
      have hL := hb.pos _ (List.getElem_mem hi)
      have hF := hb.endForces h1 i hi e hEI u s.presc
      obtain ⟨t1, t3, g1, g2, g3⟩ :=
        (release_iff he hL _ _ (fun h => absurd h (hb.pins _ (List.getElem_mem hi))) _ _).1 hF
      obtain ⟨v, θ, k1, k2, k3, k4, k5⟩ :=
        imposedSpan_of_stiffnessX he.ne' hL (hb.own hls i hi) _ _ g1
      refine ⟨v, θ, fun _ => ⟨fun e' he' => ?_, ?_, ?_, ?_, ?_⟩⟩
      · rw [hEI] at he'
        cases he'
        exact k1
      · rw [k2]; rfl
      · rw [k4]; rfl
      · rw [k3]; exact g2
      · rw [k5]; exact g3
    · exact ⟨0, 0, fun h => absurd h hi⟩
  choose v θ hvθ using key
  refine ⟨v, θ, ⟨fun i hi => (hvθ i hi).1, fun i hi => (hvθ i hi).2.1, fun i hi => (hvθ i hi).2.2.1,
    fun i hi => (hvθ i hi).2.2.2.1, fun i hi => (hvθ i hi).2.2.2.2, ?_, ?_, ?_⟩⟩
  · intro p hpN w hw
    exact hd p (by simp only [System.N, System.under, hn]; exact hpN) w (by simp only [System.constr, System.under, hp, hw])
  · intro p hpN hw hneg
    exact hd p (by simp only [System.N, System.under, hn]; exact hpN) 0 (by
      simp only [System.constr, System.under, hp, hw, hr, if_pos hneg])
  · intro j hj c hw hpos
    have hc := c.isLt
    rw [nodeSum_under h1 _ _ _ j hj c]
    exact hf _ (by simp only [System.N, System.under, hn]; omega) (by
      simp only [System.constr, System.under, hp, hw, hr, if_neg (not_lt.mpr hpos)])

/-- Elastic lines give a solution of the stiffness equations, with its end forces. -/
theorem ImposedBeam.exact {b : BeamDef ℝ} {ls : List (SpanLoad ℝ)}
    (hls : b.setLoads = .ok ls) (hb : b.ImposedAny ls)
    {s : System ℝ} (hs : b.system = .ok s) {u : ℕ → ℝ} {F : ℕ → Vec4 ℝ} {v θ : ℕ → ℝ → ℝ}
    (h : ImposedBeam b ls u F v θ) :
    (∀ i < b.members.length, F i = (s.under (b.exactRef ls) s.presc).endForces u i) ∧ (s.under (b.exactRef ls) s.presc).IsSolution u := by
  obtain ⟨hn, hk, _, hr, hp, _, _⟩ := BeamDef.system_ok hs
  have hN : (s.under (b.exactRef ls) s.presc).N = 2 * b.members.length + 2 := by simp only [System.N, System.under, hn]
  have hF : ∀ i < b.members.length, F i = (s.under (b.exactRef ls) s.presc).endForces u i := by
    intro i hi
    obtain ⟨_, e, he, hEI⟩ := hb.prismatic _ (List.getElem_mem hi)
    have hL := hb.pos _ (List.getElem_mem hi)
    rw [hb.endForces hs i hi e hEI u s.presc,
      release_iff he hL _ _ (fun h => absurd h (hb.pins _ (List.getElem_mem hi)))]
    have h1 := (h.span i hi e hEI).stiffnessX he.ne' hL (hb.own hls i hi)
    refine ⟨θ i 0, θ i b.members[i].L, ?_, h.rotLeft i hi, h.rotRight i hi⟩
    rw [h.left i hi, h.right i hi] at h1
    exact h1
  refine ⟨hF, fun p hpN w hw => ?_, fun p hpN hc => ?_⟩
  · simp only [System.constr, System.under, hp, hr] at hw
    rcases hq : b.presc.getD p none with _ | w'
    · rw [hq] at hw
      simp only at hw
      split_ifs at hw with hneg
      cases hw
      exact h.rigid p (by omega) hq hneg
    · rw [hq] at hw
      cases hw
      exact h.prescribed p (by omega) w hq
  · simp only [System.constr, System.under, hp, hr] at hc
    rcases hq : b.presc.getD p none with _ | w'
    · rw [hq] at hc
      simp only at hc
      split_ifs at hc with hneg
      have e : 2 * (p / 2) + ((⟨p % 2, Nat.mod_lt _ (by norm_num)⟩ : Fin 2) : ℕ) = p := by
        simp only; omega
      have := h.free (p / 2) (by omega) ⟨p % 2, Nat.mod_lt _ (by norm_num)⟩ (by rw [e]; exact hq)
        (by rw [e]; exact not_lt.mp hneg)
      have e2 := nodeSum_under hs (b.exactRef ls) s.presc u (p / 2) (by omega) ⟨p % 2, Nat.mod_lt _ (by norm_num)⟩
      rw [e] at e2
      rw [← e2, ← this]
      simp only [nodeSum]
      congr 2
      · split_ifs with h0
        · rw [hF (p / 2 - 1) (by omega)]
        · rfl
      · split_ifs with h0
        · rw [hF (p / 2) h0]
        · rfl
    · rw [hq] at hc
      cases hc

/-- Two solutions of the continuous problem of a beam that is not a mechanism agree. -/
theorem imposedBeam_unique_any {b : BeamDef ℝ} {ls : List (SpanLoad ℝ)} (hls : b.setLoads = .ok ls)
    (hb : b.ImposedAny ls) {s : System ℝ} (hs : b.system = .ok s)
    (hns : s.Nonsingular) {u u' : ℕ → ℝ} {F F' : ℕ → Vec4 ℝ} {v θ v' θ' : ℕ → ℝ → ℝ}
    (h : ImposedBeam b ls u F v θ) (h' : ImposedBeam b ls u' F' v' θ') :
    (∀ p < 2 * b.members.length + 2, u p = u' p) ∧
    (∀ i (hi : i < b.members.length), F i = F' i ∧
      ∀ x ∈ Icc 0 b.members[i].L, v i x = v' i x ∧ θ i x = θ' i x) := by
  obtain ⟨hn, hk, _, hr, hp, _, _⟩ := BeamDef.system_ok hs
  have hN : (s.under (b.exactRef ls) s.presc).N = 2 * b.members.length + 2 := by
    simp only [System.N, System.under, hn]
  obtain ⟨hF, hsol⟩ := h.exact hls hb hs
  obtain ⟨hF', hsol'⟩ := h'.exact hls hb hs
  have hu : ∀ p < 2 * b.members.length + 2, u p = u' p := fun p hp' =>
    System.IsSolution.unique (hns.under (b.exactRef ls) s.presc fun _ _ => rfl) hsol hsol' p (by omega)
  have hFF : ∀ i < b.members.length, F i = F' i := by
    intro i hi
    rw [hF i hi, hF' i hi]
    have : elemVec u i = elemVec u' i := by
      ext a
      exact hu _ (by have := a.isLt; omega)
    simp only [System.endForces, this]
  refine ⟨hu, fun i hi => ⟨hFF i hi, ?_⟩⟩
  obtain ⟨_, e, he, hEI⟩ := hb.prismatic _ (List.getElem_mem hi)
  have hL := hb.pos _ (List.getElem_mem hi)
  have hL0 := hL.ne'
  have hE0 := he.ne'
  have s1 := h.span i hi e hEI
  have s2 := h'.span i hi e hEI
  have f1 := s1.stiffnessX hE0 hL (hb.own hls i hi)
  have f2 := s2.stiffnessX hE0 hL (hb.own hls i hi)
  have ev : v i 0 = v' i 0 := by rw [h.left i hi, h'.left i hi, hu _ (by omega)]
  have evL : v i b.members[i].L = v' i b.members[i].L := by
    rw [h.right i hi, h'.right i hi, hu _ (by omega)]
  have et : θ i 0 = θ' i 0 := by
    rw [hFF i hi] at f1
    rw [f2] at f1
    have g1 := congrFun f1 1
    have g3 := congrFun f1 3
    simp only [kFF_mulVec] at g1 g3
    simp only [Pi.add_apply, Matrix.cons_val] at g1 g3
    rw [ev, evL] at g1 g3
    have g : 6 * e / b.members[i].L * (θ i 0 - θ' i 0) = 0 := by
      linear_combination g3 - 2 * g1
    have g' : 6 * e / b.members[i].L ≠ 0 := by positivity
    have := (mul_eq_zero.1 g).resolve_left g'
    linarith
  rw [hFF i hi] at s1
  exact s1.uniqueX hL (hb.own hls i hi) s2 ev et

/-- **C146, partial**: for every beam that is not a mechanism there is one constant `C` such that, whatever
the loads, the imposed curvatures (of any degree) and the prescribed values, the continuous problem
has exactly one solution, and the displacements and member end forces of a completed analysis are
within `C ε` of it, where `ε` bounds `Σ |kᵢ| Lⁱ⁺¹ i (i-1)² (i-2) / 1.44e15` over the imposed
curvatures of every span.  Missing are shear-flexible, tapered and foundation-supported members, and
members pinned at both ends, for which it is false (`C91_pinned_pinned_violation`). -/
theorem C146_any_degree_partial (b₀ : BeamDef ℝ) (s₀ : System ℝ) (h₀ : b₀.system = .ok s₀)
    (hns : s₀.Nonsingular) :
    ∃ C : ℝ, 0 < C ∧ ∀ (LM : List (Row ℝ)) (P : List (Option ℝ)),
      P.map Option.isSome = b₀.presc.map Option.isSome →
      ∀ (b : BeamDef ℝ), b = ⟨b₀.members, b₀.restraints, P, LM⟩ →
      ∀ (ls : List (SpanLoad ℝ)), b.setLoads = .ok ls → b.ImposedAny ls →
      ∀ (stable : System ℝ → Bool) (solve : Solver ℝ), solve.Sound → ∀ res : Result ℝ,
      b.analyze stable solve = .ok res →
      ∃ (u : ℕ → ℝ) (F : ℕ → Vec4 ℝ) (v θ : ℕ → ℝ → ℝ), ImposedBeam b ls u F v θ ∧
        (∀ u' F' v' θ', ImposedBeam b ls u' F' v' θ' →
          (∀ p < 2 * b.members.length + 2, u' p = u p) ∧
          ∀ i (hi : i < b.members.length), F' i = F i ∧
            ∀ x ∈ Icc 0 b.members[i].L, v' i x = v i x ∧ θ' i x = θ i x) ∧
        ∀ ε : ℝ, 0 ≤ ε →
          (∀ i (hi : i < b.members.length), curvErr b.members[i].L (ownLoads i ls) ≤ ε) →
          (∀ p < 2 * b.members.length + 2, |res.d p - u p| ≤ C * ε) ∧
          ∀ i < b.members.length, ∀ q, |res.fmbr i q - F i q| ≤ C * ε := by
  obtain ⟨C, hC, hw⟩ := s₀.wellPosed hns
  obtain ⟨hn₀, _, _, hr₀, hp₀, _, _⟩ := BeamDef.system_ok h₀
  set D : ℝ := (b₀.members.map fun m => |9 * m.EI.value / m.L + 21 * m.EI.value / m.L ^ 2|).sum with hD
  have hD0 : 0 ≤ D := List.sum_nonneg fun y hy => by
    obtain ⟨m, _, rfl⟩ := List.mem_map.1 hy
    exact abs_nonneg _
  refine ⟨C * (D + 1), by positivity, ?_⟩
  intro LM P hP b hb ls hls himp stable solve hso res ha
  have hbm : b.members = b₀.members := by rw [hb]
  have hbr : b.restraints = b₀.restraints := by rw [hb]
  have hbp : b.presc = P := by rw [hb]
  obtain ⟨s, h1, h2⟩ := BeamDef.analyze_ok ha
  obtain ⟨hn, _, ⟨l1, hl1, href⟩, hr, hp, _, _⟩ := BeamDef.system_ok h1
  rw [hls] at hl1; cases hl1
  have es : s = s₀.under s.ref s.presc := BeamDef.system_under (b := b₀) (b' := b) hbm hbr h₀ h1
  obtain ⟨a1, _, _, a4, _⟩ := System.analyze_ok hso h2
  have hsome : ∀ p, (s.presc p).isSome = (s₀.presc p).isSome := by
    intro p
    rw [hp₀, hp, hbp]
    have := congrArg (fun l => l.getD p false) hP
    have e : ∀ l : List (Option ℝ), (l.map Option.isSome).getD p false = (l.getD p none).isSome := by
      intro l
      rw [List.getD_eq_getElem?_getD, List.getD_eq_getElem?_getD, List.getElem?_map]
      cases l[p]? <;> rfl
    simp only [e] at this
    exact this
  have hns1 : s.Nonsingular := by
    rw [es]; exact hns.under _ _ fun p _ => hsome p
  obtain ⟨u, hu⟩ := System.exists_solution (hns1.under (b.exactRef ls) s.presc fun _ _ => rfl)
  obtain ⟨v, θ, hE⟩ := imposedBeam_of_exact hls himp h1 hu
  refine ⟨u, _, v, θ, hE, fun u' F' v' θ' h' => imposedBeam_unique_any hls himp h1 hns1 h' hE, ?_⟩
  intro ε hε hc
  have hx : s.under (b.exactRef ls) s.presc = s₀.under (b.exactRef ls) s.presc := by
    conv_lhs => rw [es]
    rfl
  rw [hx] at hu ⊢
  have hd : (s₀.under s.ref s.presc).IsSolution res.d := by rw [← es]; exact a1
  obtain ⟨w1, w2⟩ := hw s.ref (b.exactRef ls) s.presc s.presc (fun p _ => hsome p)
    (fun p _ => hsome p) res.d u hd hu ((D + 1) * ε) (by positivity)
    (fun i hi q => by
      rw [hn₀, ← hbm] at hi
      obtain ⟨c, g1, g2⟩ := href i hi
      obtain ⟨hG, e, he, hEI⟩ := himp.prismatic _ (List.getElem_mem hi)
      have hL := himp.pos _ (List.getElem_mem hi)
      rw [refSum_anyDegree hL hEI hG i ls (himp.own hls i hi) c g1] at g2
      rw [g2, BeamDef.exactRef, dif_pos hi, hEI]
      simp only [Rigidity.value]
      obtain ⟨t1, t2, t3, t4⟩ := clampedSum_err hL he (ownLoads i ls)
      have hq : 0 ≤ 6 * e / b.members[i].L := by positivity
      have hq2 : 0 ≤ 12 * e / b.members[i].L ^ 2 := by positivity
      have le1 := mul_le_mul_of_nonneg_left (hc i hi) hq
      have le2 := mul_le_mul_of_nonneg_left (hc i hi) hq2
      refine (release_err hL he hε (t1.trans le1) (t2.trans le1) (t3.trans le2) (t4.trans le2) _
        (himp.pins _ (List.getElem_mem hi)) q).trans ?_
      refine mul_le_mul_of_nonneg_right ?_ hε
      have hmem : |9 * e / b.members[i].L + 21 * e / b.members[i].L ^ 2| ∈
          b₀.members.map fun m => |9 * m.EI.value / m.L + 21 * m.EI.value / m.L ^ 2| := by
        rw [← hbm]
        exact List.mem_map.2 ⟨b.members[i], List.getElem_mem hi, by rw [hEI]; rfl⟩
      have := List.single_le_sum (fun y hy => by
        obtain ⟨m, _, rfl⟩ := List.mem_map.1 hy
        exact abs_nonneg _) _ hmem
      rw [← hD] at this
      linarith [le_abs_self (9 * e / b.members[i].L + 21 * e / b.members[i].L ^ 2)])
    (fun p _ v v' hv hv' => by
      rw [hv] at hv'
      cases hv'
      simp only [sub_self, abs_zero]
      positivity)
  rw [← es, ← a4] at w2
  have hN : s₀.N = 2 * b.members.length + 2 := by simp only [System.N, hn₀, hbm]
  rw [hN] at w1
  rw [hn₀, ← hbm] at w2
  rw [mul_assoc]
  exact ⟨w1, w2⟩

/-! ### A concrete case -/

/-- Two spans with a cubic curvature on the first and a uniform load on the second. -/
noncomputable def exCubic : BeamDef ℝ :=
  ⟨exTwoSpan.members, exTwoSpan.restraints, exTwoSpan.presc, [⟨1, 6, [0, 0, 0, 4]⟩, ⟨2, 1, [3]⟩]⟩

theorem exCubic_loads : exCubic.setLoads = .ok [⟨0, .ic [0, 0, 0, 4] none⟩, ⟨1, .udl 3⟩] := by
  simp [BeamDef.setLoads, exCubic, exTwoSpan, parseLM, parseRow]

theorem exCubic_any : exCubic.ImposedAny [⟨0, .ic [0, 0, 0, 4] none⟩, ⟨1, .udl 3⟩] := by
  refine ⟨by simp [exCubic, exTwoSpan], ?_, by simp [exCubic, exTwoSpan], ?_⟩
  · intro m hm
    simp only [exCubic, exTwoSpan, List.mem_cons, List.not_mem_nil, or_false] at hm
    rcases hm with rfl | rfl <;> exact ⟨rfl, 6, by norm_num, rfl⟩
  · intro i hi l hl hli
    simp only [List.mem_cons, List.not_mem_nil, or_false] at hl
    rcases hl with rfl | rfl
    · exact .inr ⟨_, _, rfl⟩
    · exact .inl ⟨trivial, trivial⟩

/-- C146 at this beam: the analysis completes, and its displacements and end forces are within
`C · 5.4e-13` of the solution of the continuous problem. -/
example : ∃ (C : ℝ) (solve : Solver ℝ) (res : Result ℝ) (u : ℕ → ℝ) (F : ℕ → Vec4 ℝ)
    (v θ : ℕ → ℝ → ℝ), 0 < C ∧ solve.Sound ∧
    exCubic.analyze (fun _ => true) solve = .ok res ∧
    ImposedBeam exCubic [⟨0, .ic [0, 0, 0, 4] none⟩, ⟨1, .udl 3⟩] u F v θ ∧
    |res.d 3 - u 3| ≤ C * (54 / 10 ^ 14) ∧ |res.fmbr 0 3 - F 0 3| ≤ C * (54 / 10 ^ 14) := by
  obtain ⟨s, hs⟩ : ∃ s, exCubic.system = .ok s := by
    rw [BeamDef.system, exCubic_loads]
    simp [exCubic, exTwoSpan, mapE, Member.spanK, Member.refSum, Member.ref, Member.cnl, Load.getCnl]
  have hns := C77_adequate_supports exCubic (by
    intro m hm
    simp only [exCubic, exTwoSpan, List.mem_cons, List.not_mem_nil, or_false] at hm
    rcases hm with rfl | rfl <;> simp [Member.Good, Rigidity.Good]) s hs 0 1 (by simp)
    (by simp [exCubic, exTwoSpan]) (by simp [exCubic, exTwoSpan])
    (Or.inl (by simp [exCubic, exTwoSpan]))
  obtain ⟨_, _, _, _, hp, _, _⟩ := BeamDef.system_ok hs
  obtain ⟨solve, hsd, res, hres⟩ := BeamDef.completes hs hns (by
    simp only [System.validate, hp]
    have : ∀ i : ℕ, exCubic.presc.getD i none = none := by
      intro i
      rcases i with _ | _ | _ | _ | _ | _ | i <;> simp [exCubic, exTwoSpan]
    simp only [this]
    simp)
  obtain ⟨C, hC, h⟩ := C146_any_degree_partial exCubic s hs hns
  obtain ⟨u, F, v, θ, hE, _, hb⟩ := h exCubic.LM exCubic.presc rfl exCubic rfl _ exCubic_loads
    exCubic_any _ solve hsd res hres
  obtain ⟨h1, h2⟩ := hb (54 / 10 ^ 14) (by norm_num) (by
    intro i hi
    have hi2 : i < 2 := by simpa [exCubic, exTwoSpan] using hi
    interval_cases i
    · norm_num [curvErr, ownLoads, icErr, List.range_succ, exCubic, exTwoSpan]
    · norm_num [curvErr, ownLoads, icErr, List.range_succ, exCubic, exTwoSpan])
  exact ⟨C, solve, res, u, F, v, θ, hC, hsd, hres, hE, h1 3 (by simp [exCubic, exTwoSpan]),
    h2 0 (by simp [exCubic, exTwoSpan]) 3⟩

end PyCBA
