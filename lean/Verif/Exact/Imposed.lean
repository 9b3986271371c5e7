import Verif.Exact.Props
import Verif.Stiffness.Timo

set_option linter.unusedSectionVars false
set_option linter.unusedSimpArgs false

/-!
C124: imposed curvatures (thermal gradients, shrinkage, creep).  A completed analysis of a
slender prismatic beam under loads and imposed curvatures of degree at most two is the
solution of the continuous beam problem in which the curvature is that of the bending moment
plus the imposed one, and the only one; imposed curvatures that a shape compatible with the
supports can take up cause no forces.
-/

namespace PyCBA

open MeasureTheory Set Matrix

/-! ### The continuous problem -/

/-- Curvature imposed on a span at `x`. -/
noncomputable def imposedCurv (own : List (Load ℝ)) (x : ℝ) : ℝ := (own.map fun ld => ld.kappaImp x).sum

/-- The elastic line of a slender span under loads and imposed curvatures. -/
structure ImposedSpan (EI L : ℝ) (own : List (Load ℝ)) (F : Vec4 ℝ) (v θ : ℝ → ℝ) : Prop where
  slope : ∀ x ∈ Ioo 0 L, HasDerivAt v (θ x) x
  curvature : ∀ x ∈ Ioo 0 L, (∀ ld ∈ own, ∀ p ∈ ld.couplesAt, p.2 ≠ x) →
    HasDerivAt θ (cutM L own F x / EI + imposedCurv own x) x
  contV : ContinuousOn v (Icc 0 L)
  contT : ContinuousOn θ (Icc 0 L)
  force : F 0 + F 2 = (own.map fun ld => ld.total L).sum
  moment : F 1 + F 3 + F 2 * L = (own.map fun ld => ld.momentAboutLeft L).sum

/-- The solution of the continuous beam problem with imposed curvatures: as `ElasticBeam`. -/
structure ImposedBeam (b : BeamDef ℝ) (ls : List (SpanLoad ℝ)) (u : ℕ → ℝ) (F : ℕ → Vec4 ℝ)
    (v θ : ℕ → ℝ → ℝ) : Prop where
  span : ∀ i (hi : i < b.members.length), ∀ e, b.members[i].EI = .const e →
    ImposedSpan e b.members[i].L (ownLoads i ls) (F i) (v i) (θ i)
  left : ∀ i < b.members.length, v i 0 = u (2 * i)
  right : ∀ i (hi : i < b.members.length), v i b.members[i].L = u (2 * i + 2)
  rotLeft : ∀ i (hi : i < b.members.length),
    if b.members[i].et.freeLeft then F i 1 = 0 else θ i 0 = u (2 * i + 1)
  rotRight : ∀ i (hi : i < b.members.length),
    if b.members[i].et.freeRight then F i 3 = 0 else θ i b.members[i].L = u (2 * i + 3)
  prescribed : ∀ p < 2 * b.members.length + 2, ∀ w, b.presc.getD p none = some w → u p = w
  rigid : ∀ p < 2 * b.members.length + 2, b.presc.getD p none = none →
    b.restraints.getD p 0 < 0 → u p = 0
  free : ∀ j ≤ b.members.length, ∀ c : Fin 2, b.presc.getD (2 * j + c) none = none →
    0 ≤ b.restraints.getD (2 * j + c) 0 → nodeSum b u F j c = 0

/-! ### One span -/

/-- A load on the span, or an imposed curvature of degree at most two. -/
def Load.Imposable (L : ℝ) (ld : Load ℝ) : Prop :=
  ld.Plain L ∨ ∃ k E, ld = .ic k E ∧ k.length ≤ 3

/-- Fixed-end forces on a member of rigidity `e`. -/
noncomputable def Load.clampedE (e L : ℝ) : Load ℝ → CNL ℝ
  | .ic k _ => icCnl k e L
  | ld => ld.clamped L

/-- Sum of the fixed-end forces on a member of rigidity `e`. -/
noncomputable def clampedSumE (e L : ℝ) (own : List (Load ℝ)) : CNL ℝ :=
  ⟨(own.map fun ld => (ld.clampedE e L).Va).sum, (own.map fun ld => (ld.clampedE e L).Ma).sum,
    (own.map fun ld => (ld.clampedE e L).Vb).sum, (own.map fun ld => (ld.clampedE e L).Mb).sum⟩

theorem sum_clampedE (e L : ℝ) (own : List (Load ℝ))
    (f : Load ℝ → ℝ) (p q r s : ℝ)
    (h : ∀ ld ∈ own, f ld = p * (ld.clampedE e L).Va + q * (ld.clampedE e L).Ma
      + r * (ld.clampedE e L).Vb + s * (ld.clampedE e L).Mb) :
    (own.map f).sum = p * (clampedSumE e L own).Va + q * (clampedSumE e L own).Ma
      + r * (clampedSumE e L own).Vb + s * (clampedSumE e L own).Mb := by
  induction own with
  | nil => simp [clampedSumE]
  | cons a l ih =>
    have := ih fun ld hld => h ld (List.mem_cons_of_mem _ hld)
    simp only [clampedSumE, List.map_cons, List.sum_cons] at this ⊢
    rw [this, h a List.mem_cons_self]
    ring

/-- Rotation that an imposed curvature alone gives a span held at its left end. -/
noncomputable def Load.rotImp : Load ℝ → ℝ → ℝ
  | .ic k _, x => k.getD 0 0 * x + k.getD 1 0 / 2 * x ^ 2 + k.getD 2 0 / 3 * x ^ 3
  | _, _ => 0

/-- Deflection that an imposed curvature alone gives a span held at its left end. -/
noncomputable def Load.deflImp : Load ℝ → ℝ → ℝ
  | .ic k _, x => k.getD 0 0 / 2 * x ^ 2 + k.getD 1 0 / 6 * x ^ 3 + k.getD 2 0 / 12 * x ^ 4
  | _, _ => 0

noncomputable def imposedRot (own : List (Load ℝ)) (x : ℝ) : ℝ := (own.map fun ld => ld.rotImp x).sum
noncomputable def imposedDefl (own : List (Load ℝ)) (x : ℝ) : ℝ := (own.map fun ld => ld.deflImp x).sum

/-- Is this a load, not an imposed curvature? -/
def Load.isMech : Load ℝ → Bool
  | .ic _ _ => false
  | _ => true

/-- The loads among loads and imposed curvatures. -/
def mechOnly (own : List (Load ℝ)) : List (Load ℝ) := own.filter fun ld => ld.isMech

theorem sum_mechOnly (own : List (Load ℝ)) (f : Load ℝ → ℝ) (h : ∀ k E, f (.ic k E) = 0) :
    ((mechOnly own).map f).sum = (own.map f).sum := by
  induction own with
  | nil => rfl
  | cons a l ih =>
    simp only [mechOnly] at ih
    simp only [mechOnly, List.filter_cons, List.map_cons, List.sum_cons]
    cases a with
    | ic k E => rw [if_neg (by simp [Load.isMech]), ih, h, zero_add]
    | _ => rw [if_pos (by rfl), List.map_cons, List.sum_cons, ih]

theorem mechOnly_plain {L : ℝ} {own : List (Load ℝ)} (hown : ∀ ld ∈ own, ld.Imposable L) :
    ∀ ld ∈ mechOnly own, ld.Plain L := by
  intro ld hld
  simp only [mechOnly, List.mem_filter] at hld
  rcases hown ld hld.1 with h | ⟨k, E, rfl, _⟩
  · exact h
  · simp [Load.isMech] at hld

theorem mechOnly_couples (own : List (Load ℝ)) (x : ℝ) :
    (∀ ld ∈ mechOnly own, ∀ p ∈ ld.couplesAt, p.2 ≠ x) ↔ ∀ ld ∈ own, ∀ p ∈ ld.couplesAt, p.2 ≠ x := by
  constructor
  · intro h ld hld p hp
    refine h ld ?_ p hp
    simp only [mechOnly, List.mem_filter]
    refine ⟨hld, ?_⟩
    cases ld <;> simp [Load.couplesAt, Load.isMech] at hp ⊢
  · intro h ld hld
    exact h ld (List.mem_of_mem_filter hld)

theorem cutM_mechOnly (L : ℝ) (own : List (Load ℝ)) (F : Vec4 ℝ) (x : ℝ) :
    cutM L (mechOnly own) F x = cutM L own F x := by
  simp only [cutM]
  rw [sum_mechOnly own (fun ld => ld.momentLeft L x) fun k E => by
    simp [Load.momentLeft, Load.intensity, Load.forces, Load.couplesAt]]

theorem imposedRot_deriv {L : ℝ} {own : List (Load ℝ)} (hown : ∀ ld ∈ own, ld.Imposable L) (x : ℝ) :
    HasDerivAt (imposedRot own) (imposedCurv own x) x := by
  refine hasDerivAt_list_sum own (fun ld y => ld.rotImp y) (fun ld => ld.kappaImp x) x ?_
  intro ld hld
  rcases hown ld hld with h | ⟨k, E, rfl, hk⟩
  · rw [kappaImp_mech ld h.2.1]
    have e : (fun y => ld.rotImp y) = fun _ => (0 : ℝ) := by
      have := h.2.1
      cases ld <;> first | exact this.elim | rfl
    rw [e]
    exact hasDerivAt_const x 0
  · exact polyInc_hasDeriv k hk x

theorem imposedDefl_deriv (own : List (Load ℝ)) (x : ℝ) :
    HasDerivAt (imposedDefl own) (imposedRot own x) x := by
  refine hasDerivAt_list_sum own (fun ld y => ld.deflImp y) (fun ld => ld.rotImp x) x ?_
  intro ld _
  cases ld with
  | ic k E =>
    refine ((((hasDerivAt_pow 2 x).const_mul (k.getD 0 0 / 2)).add
      ((hasDerivAt_pow 3 x).const_mul (k.getD 1 0 / 6))).add
      ((hasDerivAt_pow 4 x).const_mul (k.getD 2 0 / 12))).congr_deriv ?_
    simp only [Load.rotImp, Nat.cast_ofNat, Nat.add_one_sub_one, pow_one]
    ring
  | _ => exact hasDerivAt_const x 0

theorem imposed_start (own : List (Load ℝ)) : imposedRot own 0 = 0 ∧ imposedDefl own 0 = 0 := by
  constructor
  · simp only [imposedRot]
    rw [List.map_congr_left (g := fun _ => (0 : ℝ))]
    · simp
    · intro ld _
      cases ld <;> simp [Load.rotImp]
  · simp only [imposedDefl]
    rw [List.map_congr_left (g := fun _ => (0 : ℝ))]
    · simp
    · intro ld _
      cases ld <;> simp [Load.deflImp]

/-- Taking off the free shape of the imposed curvatures leaves the elastic line of the loads. -/
theorem imposedSpan_iff {EI L : ℝ} {own : List (Load ℝ)} (hown : ∀ ld ∈ own, ld.Imposable L)
    (F : Vec4 ℝ) (v θ : ℝ → ℝ) :
    ImposedSpan EI L own F v θ ↔
    ElasticSpan EI L (mechOnly own) F (fun x => v x - imposedDefl own x)
      (fun x => θ x - imposedRot own x) := by
  have cD : Continuous (imposedDefl own) :=
    continuous_iff_continuousAt.mpr fun x => (imposedDefl_deriv own x).continuousAt
  have cR : Continuous (imposedRot own) :=
    continuous_iff_continuousAt.mpr fun x => (imposedRot_deriv hown x).continuousAt
  have e1 : ((mechOnly own).map fun ld => ld.total L).sum = (own.map fun ld => ld.total L).sum :=
    sum_mechOnly own _ fun k E => by
      simp [Load.total, Load.intensity, Load.forces]
  have e2 : ((mechOnly own).map fun ld => ld.momentAboutLeft L).sum
      = (own.map fun ld => ld.momentAboutLeft L).sum :=
    sum_mechOnly own _ fun k E => by
      simp [Load.momentAboutLeft, Load.intensity, Load.forces, Load.couples]
  constructor
  · intro h
    refine ⟨fun x hx => (h.slope x hx).sub (imposedDefl_deriv own x), fun x hx hc => ?_,
      h.contV.sub cD.continuousOn, h.contT.sub cR.continuousOn, by rw [e1]; exact h.force,
      by rw [e2]; exact h.moment⟩
    refine ((h.curvature x hx ((mechOnly_couples own x).1 hc)).sub
      (imposedRot_deriv hown x)).congr_deriv ?_
    rw [cutM_mechOnly]
    ring
  · intro h
    have ev : v = fun x => (v x - imposedDefl own x) + imposedDefl own x := by ext x; ring
    have et : θ = fun x => (θ x - imposedRot own x) + imposedRot own x := by ext x; ring
    refine ⟨fun x hx => ?_, fun x hx hc => ?_, ?_, ?_, by rw [← e1]; exact h.force,
      by rw [← e2]; exact h.moment⟩
    · rw [ev]
      exact ((h.slope x hx).add (imposedDefl_deriv own x)).congr_deriv (by ring)
    · rw [et]
      refine ((h.curvature x hx ((mechOnly_couples own x).2 hc)).add
        (imposedRot_deriv hown x)).congr_deriv ?_
      rw [cutM_mechOnly]
    · rw [ev]
      exact h.contV.add cD.continuousOn
    · rw [et]
      exact h.contT.add cR.continuousOn

/-- The fixed-end forces of an imposed curvature hold back its free shape. -/
theorem icCnl_vec {EI L : ℝ} (hL : 0 < L) (k : List ℝ) (hk : k.length ≤ 3) (E : Option ℝ) :
    (icCnl k EI L).vec
      = -(kFF EI L *ᵥ ![0, 0, (Load.ic k E).deflImp L, (Load.ic k E).rotImp L]) := by
  have hL0 := hL.ne'
  obtain ⟨ea, eb⟩ := icEndMoments_quadratic k hk EI L hL0
  rw [kFF_mulVec]
  ext p
  fin_cases p <;> simp [CNL.vec, icCnl, ea, eb, Load.deflImp, Load.rotImp] <;> field_simp <;> ring

theorem clampedSumE_vec {EI L : ℝ} (hL : 0 < L) {own : List (Load ℝ)}
    (hown : ∀ ld ∈ own, ld.Imposable L) :
    (clampedSumE EI L own).vec = (clampedSum L (mechOnly own)).vec
      - kFF EI L *ᵥ ![0, 0, imposedDefl own L, imposedRot own L] := by
  induction own with
  | nil =>
    rw [kFF_mulVec]
    ext p
    fin_cases p <;> simp [clampedSumE, clampedSum, mechOnly, imposedDefl, imposedRot, CNL.vec]
  | cons a l ih =>
    have h1 := ih fun ld hld => hown ld (List.mem_cons_of_mem _ hld)
    have h2 : (clampedSumE EI L (a :: l)).vec
        = (a.clampedE EI L).vec + (clampedSumE EI L l).vec := by
      ext p
      fin_cases p <;> simp [clampedSumE, CNL.vec]
    have h3 : kFF EI L *ᵥ ![0, 0, imposedDefl (a :: l) L, imposedRot (a :: l) L]
        = kFF EI L *ᵥ ![0, 0, a.deflImp L, a.rotImp L]
          + kFF EI L *ᵥ ![0, 0, imposedDefl l L, imposedRot l L] := by
      rw [← Matrix.mulVec_add]
      congr 1
      ext p
      fin_cases p <;> simp [imposedDefl, imposedRot]
    rw [h2, h3, h1]
    rcases hown a List.mem_cons_self with h | ⟨k, E, rfl, hk⟩
    · have hm := h.2.1
      have e0 : kFF EI L *ᵥ ![0, 0, a.deflImp L, a.rotImp L] = 0 := by
        have : (![0, 0, a.deflImp L, a.rotImp L] : Vec4 ℝ) = 0 := by
          ext p
          cases a <;> first | exact hm.elim | (fin_cases p <;> simp [Load.deflImp, Load.rotImp])
        rw [this, Matrix.mulVec_zero]
      have e1 : (clampedSum L (mechOnly (a :: l))).vec
          = (a.clampedE EI L).vec + (clampedSum L (mechOnly l)).vec := by
        ext p
        cases a <;> first | exact hm.elim |
          (fin_cases p <;> simp [clampedSum, CNL.vec, mechOnly, Load.isMech, Load.clampedE])
      rw [e0, e1]
      abel
    · have e1 : clampedSum L (mechOnly (Load.ic k E :: l)) = clampedSum L (mechOnly l) := by
        simp [mechOnly, Load.isMech]
      have e2 : (Load.ic k E).clampedE EI L = icCnl k EI L := rfl
      rw [e1, e2, icCnl_vec hL k hk E]
      abel

/-- A span whose end forces satisfy the stiffness equation has an elastic line. -/
theorem imposedSpan_of_stiffness {EI L : ℝ} (hE : EI ≠ 0) (hL : 0 < L) {own : List (Load ℝ)}
    (hown : ∀ ld ∈ own, ld.Imposable L) (F d : Vec4 ℝ)
    (h : F = kFF EI L *ᵥ d + (clampedSumE EI L own).vec) :
    ∃ v θ : ℝ → ℝ, ImposedSpan EI L own F v θ ∧ v 0 = d 0 ∧ θ 0 = d 1 ∧ v L = d 2 ∧ θ L = d 3 := by
  rw [clampedSumE_vec hL hown] at h
  obtain ⟨v, θ, h1, h2, h3, h4, h5⟩ := elasticSpan_of_stiffness hE hL (mechOnly_plain hown) F
    (d - ![0, 0, imposedDefl own L, imposedRot own L]) (by rw [h, Matrix.mulVec_sub]; abel)
  obtain ⟨z1, z2⟩ := imposed_start own
  refine ⟨fun x => v x + imposedDefl own x, fun x => θ x + imposedRot own x, ?_, ?_, ?_, ?_, ?_⟩
  · rw [imposedSpan_iff hown]
    simpa using h1
  · simp [h2, z2]
  · simp [h3, z1]
  · simp [h4]
  · simp [h5]

/-- The elastic line of a span satisfies the stiffness equation. -/
theorem ImposedSpan.stiffness {EI L : ℝ} (hE : EI ≠ 0) (hL : 0 < L) {own : List (Load ℝ)}
    (hown : ∀ ld ∈ own, ld.Imposable L) {F : Vec4 ℝ} {v θ : ℝ → ℝ} (h : ImposedSpan EI L own F v θ) :
    F = kFF EI L *ᵥ ![v 0, θ 0, v L, θ L] + (clampedSumE EI L own).vec := by
  have h1 := ((imposedSpan_iff hown F v θ).1 h).stiffness hE hL (mechOnly_plain hown)
  obtain ⟨z1, z2⟩ := imposed_start own
  rw [clampedSumE_vec hL hown]
  rw [h1]
  have e : (![v 0 - imposedDefl own 0, θ 0 - imposedRot own 0, v L - imposedDefl own L,
      θ L - imposedRot own L] : Vec4 ℝ)
      = ![v 0, θ 0, v L, θ L] - ![0, 0, imposedDefl own L, imposedRot own L] := by
    ext p
    fin_cases p <;> simp [z1, z2]
  rw [e, Matrix.mulVec_sub]
  abel

/-- Two elastic lines with the same end forces and left end agree. -/
theorem ImposedSpan.unique {EI L : ℝ} (hL : 0 < L) {own : List (Load ℝ)}
    (hown : ∀ ld ∈ own, ld.Imposable L) {F : Vec4 ℝ} {v θ v' θ' : ℝ → ℝ}
    (h : ImposedSpan EI L own F v θ) (h' : ImposedSpan EI L own F v' θ')
    (e1 : v 0 = v' 0) (e2 : θ 0 = θ' 0) : ∀ x ∈ Icc 0 L, v x = v' x ∧ θ x = θ' x := by
  intro x hx
  obtain ⟨a1, a2⟩ := ((imposedSpan_iff hown F v θ).1 h).eq_line hL (mechOnly_plain hown)
  obtain ⟨b1, b2⟩ := ((imposedSpan_iff hown F v' θ').1 h').eq_line hL (mechOnly_plain hown)
  have a1' := a1 x hx
  have a2' := a2 x hx
  have b1' := b1 x hx
  have b2' := b2 x hx
  simp only [e1, e2] at a1' a2'
  rw [← b1'] at a1'
  rw [← b2'] at a2'
  exact ⟨by linarith, by linarith⟩

/-! ### The beam -/

/-- Slender prismatic members under loads that lie on their spans and imposed curvatures of
degree at most two. -/
structure BeamDef.Imposed (b : BeamDef ℝ) (ls : List (SpanLoad ℝ)) : Prop where
  pos : ∀ m ∈ b.members, 0 < m.L
  prismatic : ∀ m ∈ b.members, m.GAv = none ∧ ∃ e, 0 < e ∧ m.EI = .const e
  loads : ∀ i (hi : i < b.members.length), ∀ l ∈ ls, l.iSpan = (i : ℤ) →
    (l.load.OnSpan b.members[i].L ∧ l.load.IsMechanical) ∨ ∃ k E, l.load = .ic k E ∧ k.length ≤ 3

theorem BeamDef.Imposed.own {b : BeamDef ℝ} {ls : List (SpanLoad ℝ)} (h : b.Imposed ls)
    (hls : b.setLoads = .ok ls) (i : ℕ) (hi : i < b.members.length) :
    ∀ ld ∈ ownLoads i ls, ld.Imposable b.members[i].L := by
  intro ld hld
  simp only [ownLoads, List.mem_map, List.mem_filter, decide_eq_true_eq] at hld
  obtain ⟨l, ⟨h1, h2⟩, rfl⟩ := hld
  rcases h.loads i hi l h1 h2 with h3 | h3
  · exact .inl ⟨h3.1, h3.2, b.setLoads_no_mamb hls l h1⟩
  · exact .inr h3

/-- The fixed-end moments of what acts on every pinned-pinned member cancel. -/
def BeamDef.ImposedPins (b : BeamDef ℝ) (ls : List (SpanLoad ℝ)) : Prop :=
  ∀ i (hi : i < b.members.length), b.members[i].et = .PP → ∀ e, b.members[i].EI = .const e →
    (clampedSumE e b.members[i].L (ownLoads i ls)).Ma
      + (clampedSumE e b.members[i].L (ownLoads i ls)).Mb = 0

theorem BeamDef.imposedPins_of {b : BeamDef ℝ} (h : ∀ m ∈ b.members, m.et ≠ .PP)
    (ls : List (SpanLoad ℝ)) : b.ImposedPins ls :=
  fun _ hi hp => absurd hp (h _ (List.getElem_mem hi))

theorem refSum_clampedE {m : Member ℝ} (hL : 0 < m.L) {e : ℝ} (hEI : m.EI = .const e)
    (hG : m.GAv = none) (i : ℕ) (ls : List (SpanLoad ℝ))
    (hown : ∀ ld ∈ ownLoads i ls, ld.Imposable m.L) (t : CNL ℝ) (ht : m.refSum i ls = .ok t) :
    t = releaseCnl (clampedSumE e m.L (ownLoads i ls)) m.L m.et := by
  have href : ∀ l ∈ ls, l.iSpan = (i : ℤ) → ∀ c, m.ref l.load = .ok c →
      c = releaseCnl (l.load.clampedE e m.L) m.L m.et := by
    intro l hl hli c hc
    have hp : l.load.Imposable m.L := hown _ (by
      simp only [ownLoads, List.mem_map, List.mem_filter, decide_eq_true_eq]
      exact ⟨l, ⟨hl, hli⟩, rfl⟩)
    have hcn : m.cnl l.load = .ok (l.load.clampedE e m.L) := by
      rcases hp with hp | ⟨k, E, hk, _⟩
      · have h1 := hp.2.1
        have h2 := hp.getCnl hL
        generalize l.load = ld at *
        cases ld <;> first | exact h1.elim | simp only [Member.cnl, h2, Load.clampedE]
      · rw [hk]
        simp only [Member.cnl, hEI, Load.clampedE]
    simp only [Member.ref, hcn, hG, hEI] at hc
    exact (Except.ok.inj hc).symm
  have key : ∀ (φ : CNL ℝ → ℝ) (h0 : φ ⟨0, 0, 0, 0⟩ = 0)
      (hadd : ∀ c t : CNL ℝ, φ ⟨c.Va + t.Va, c.Ma + t.Ma, c.Vb + t.Vb, c.Mb + t.Mb⟩ = φ c + φ t)
      (p q r s : ℝ) (hφ : ∀ c : CNL ℝ, φ (releaseCnl c m.L m.et)
        = p * c.Va + q * c.Ma + r * c.Vb + s * c.Mb),
      φ t = φ (releaseCnl (clampedSumE e m.L (ownLoads i ls)) m.L m.et) := by
    intro φ h0 hadd p q r s hφ
    rw [m.refSum_lin i φ h0 hadd (fun l => φ (releaseCnl (l.load.clampedE e m.L) m.L m.et)) ls
      (fun l hl hli c hc => by rw [href l hl hli c hc]) t ht, hφ,
      ← sum_clampedE e m.L (ownLoads i ls)
        (fun ld => φ (releaseCnl (ld.clampedE e m.L) m.L m.et)) p q r s (fun ld _ => hφ _)]
    simp only [ownLoads, List.map_map, Function.comp_def]
  generalize clampedSumE e m.L (ownLoads i ls) = C at *
  generalize m.et = et at *
  cases et
  · ext
    · exact key CNL.Va rfl (fun _ _ => rfl) 1 0 0 0 (fun c => by simp only [releaseCnl]; ring)
    · exact key CNL.Ma rfl (fun _ _ => rfl) 0 1 0 0 (fun c => by simp only [releaseCnl]; ring)
    · exact key CNL.Vb rfl (fun _ _ => rfl) 0 0 1 0 (fun c => by simp only [releaseCnl]; ring)
    · exact key CNL.Mb rfl (fun _ _ => rfl) 0 0 0 1 (fun c => by simp only [releaseCnl]; ring)
  · ext
    · exact key CNL.Va rfl (fun _ _ => rfl) 1 0 0 (-(6 / (4 * m.L))) (fun c => by simp only [releaseCnl]; ring)
    · exact key CNL.Ma rfl (fun _ _ => rfl) 0 1 0 (-1 / 2) (fun c => by simp only [releaseCnl]; ring)
    · exact key CNL.Vb rfl (fun _ _ => rfl) 0 0 1 (6 / (4 * m.L)) (fun c => by simp only [releaseCnl]; ring)
    · exact key CNL.Mb rfl (fun _ _ => rfl) 0 0 0 0 (fun c => by simp only [releaseCnl]; ring)
  · ext
    · exact key CNL.Va rfl (fun _ _ => rfl) 1 (-(6 / (4 * m.L))) 0 0 (fun c => by simp only [releaseCnl]; ring)
    · exact key CNL.Ma rfl (fun _ _ => rfl) 0 0 0 0 (fun c => by simp only [releaseCnl]; ring)
    · exact key CNL.Vb rfl (fun _ _ => rfl) 0 (6 / (4 * m.L)) 1 0 (fun c => by simp only [releaseCnl]; ring)
    · exact key CNL.Mb rfl (fun _ _ => rfl) 0 (-1 / 2) 0 1 (fun c => by simp only [releaseCnl]; ring)
  · ext
    · exact key CNL.Va rfl (fun _ _ => rfl) 1 (1 / m.L) 0 (1 / m.L) (fun c => by simp only [releaseCnl]; ring)
    · exact key CNL.Ma rfl (fun _ _ => rfl) 0 0 0 0 (fun c => by simp only [releaseCnl]; ring)
    · exact key CNL.Vb rfl (fun _ _ => rfl) 0 (-1 / m.L) 1 (-1 / m.L) (fun c => by simp only [releaseCnl]; ring)
    · exact key CNL.Mb rfl (fun _ _ => rfl) 0 0 0 0 (fun c => by simp only [releaseCnl]; ring)

theorem BeamDef.Imposed.endForces {b : BeamDef ℝ} {ls : List (SpanLoad ℝ)} (h : b.Imposed ls)
    (hls : b.setLoads = .ok ls) {s : System ℝ} (hs : b.system = .ok s) (i : ℕ)
    (hi : i < b.members.length) (e : ℝ) (he : b.members[i].EI = .const e) (d : ℕ → ℝ) :
    s.endForces d i = kOf e b.members[i].L b.members[i].et *ᵥ elemVec d i
      + (releaseCnl (clampedSumE e b.members[i].L (ownLoads i ls)) b.members[i].L
          b.members[i].et).vec := by
  obtain ⟨_, hk, ⟨ls', hls', href⟩, _⟩ := BeamDef.system_ok hs
  rw [hls] at hls'
  cases hls'
  have hG := (h.prismatic _ (List.getElem_mem hi)).1
  have h1 := hk i hi
  rw [spanK_kOf he hG] at h1
  obtain ⟨c, hc1, hc2⟩ := href i hi
  rw [refSum_clampedE (h.pos _ (List.getElem_mem hi)) he hG i ls (h.own hls i hi) c hc1] at hc2
  simp only [System.endForces, ← Except.ok.inj h1, hc2]

/-- A solution of the stiffness equations gives elastic lines. -/
theorem imposedBeam_of_solution {b : BeamDef ℝ} {ls : List (SpanLoad ℝ)}
    (hls : b.setLoads = .ok ls) (hb : b.Imposed ls) (hpp : b.ImposedPins ls)
    {s : System ℝ} (h1 : b.system = .ok s) {u : ℕ → ℝ} (hu : s.IsSolution u) :
    ∃ v θ : ℕ → ℝ → ℝ, ImposedBeam b ls u (s.endForces u) v θ := by
  obtain ⟨hn, hk, _, hr, hp, _, _⟩ := BeamDef.system_ok h1
  obtain ⟨hd, hf⟩ := hu
  have key : ∀ i, ∃ v θ : ℝ → ℝ, ∀ hi : i < b.members.length,
      (∀ e, b.members[i].EI = .const e →
        ImposedSpan e b.members[i].L (ownLoads i ls) (s.endForces u i) v θ) ∧
      v 0 = u (2 * i) ∧ v b.members[i].L = u (2 * i + 2) ∧
      (if b.members[i].et.freeLeft then s.endForces u i 1 = 0 else θ 0 = u (2 * i + 1)) ∧
      (if b.members[i].et.freeRight then s.endForces u i 3 = 0
        else θ b.members[i].L = u (2 * i + 3)) := by
    intro i
    by_cases hi : i < b.members.length
    · obtain ⟨_, e, he, hEI⟩ := hb.prismatic _ (List.getElem_mem hi)
      have hL := hb.pos _ (List.getElem_mem hi)
      have hF := hb.endForces hls h1 i hi e hEI u
      obtain ⟨t1, t3, g1, g2, g3⟩ :=
        (release_iff he hL _ _ (fun h => hpp i hi h e hEI) _ _).1 hF
      obtain ⟨v, θ, k1, k2, k3, k4, k5⟩ :=
        imposedSpan_of_stiffness he.ne' hL (hb.own hls i hi) _ _ g1
      refine ⟨v, θ, fun _ => ⟨fun e' he' => ?_, ?_, ?_, ?_, ?_⟩⟩
      · rw [hEI] at he'
        cases he'
        exact k1
      · rw [k2]; rfl
      · rw [k4]; rfl
      · rw [k3]; exact g2
      · rw [k5]; exact g3
    · exact ⟨0, 0, fun h => absurd h hi⟩
  choose v θ hvθ using key
  refine ⟨v, θ, ⟨fun i hi => (hvθ i hi).1, fun i hi => (hvθ i hi).2.1, fun i hi => (hvθ i hi).2.2.1,
    fun i hi => (hvθ i hi).2.2.2.1, fun i hi => (hvθ i hi).2.2.2.2, ?_, ?_, ?_⟩⟩
  · intro p hpN w hw
    exact hd p (by simp only [System.N, hn]; exact hpN) w (by simp only [System.constr, hp, hw])
  · intro p hpN hw hneg
    exact hd p (by simp only [System.N, hn]; exact hpN) 0 (by
      simp only [System.constr, hp, hw, hr, if_pos hneg])
  · intro j hj c hw hpos
    have hc := c.isLt
    rw [nodeSum_residual h1 _ j hj c]
    exact hf _ (by simp only [System.N, hn]; omega) (by
      simp only [System.constr, hp, hw, hr, if_neg (not_lt.mpr hpos)])

/-- Elastic lines give a solution of the stiffness equations, with its end forces. -/
theorem ImposedBeam.solution {b : BeamDef ℝ} {ls : List (SpanLoad ℝ)}
    (hls : b.setLoads = .ok ls) (hb : b.Imposed ls) (hpp : b.ImposedPins ls)
    {s : System ℝ} (hs : b.system = .ok s) {u : ℕ → ℝ} {F : ℕ → Vec4 ℝ} {v θ : ℕ → ℝ → ℝ}
    (h : ImposedBeam b ls u F v θ) :
    (∀ i < b.members.length, F i = s.endForces u i) ∧ s.IsSolution u := by
  obtain ⟨hn, hk, _, hr, hp, _, _⟩ := BeamDef.system_ok hs
  have hN : s.N = 2 * b.members.length + 2 := by simp only [System.N, hn]
  have hF : ∀ i < b.members.length, F i = s.endForces u i := by
    intro i hi
    obtain ⟨_, e, he, hEI⟩ := hb.prismatic _ (List.getElem_mem hi)
    have hL := hb.pos _ (List.getElem_mem hi)
    rw [hb.endForces hls hs i hi e hEI u,
      release_iff he hL _ _ (fun h => hpp i hi h e hEI)]
    have h1 := (h.span i hi e hEI).stiffness he.ne' hL (hb.own hls i hi)
    refine ⟨θ i 0, θ i b.members[i].L, ?_, h.rotLeft i hi, h.rotRight i hi⟩
    rw [h.left i hi, h.right i hi] at h1
    exact h1
  refine ⟨hF, fun p hpN w hw => ?_, fun p hpN hc => ?_⟩
  · simp only [System.constr, hp, hr] at hw
    rcases hq : b.presc.getD p none with _ | w'
    · rw [hq] at hw
      simp only at hw
      split_ifs at hw with hneg
      cases hw
      exact h.rigid p (by omega) hq hneg
    · rw [hq] at hw
      cases hw
      exact h.prescribed p (by omega) w hq
  · simp only [System.constr, hp, hr] at hc
    rcases hq : b.presc.getD p none with _ | w'
    · rw [hq] at hc
      simp only at hc
      split_ifs at hc with hneg
      have e : 2 * (p / 2) + ((⟨p % 2, Nat.mod_lt _ (by norm_num)⟩ : Fin 2) : ℕ) = p := by
        simp only; omega
      have := h.free (p / 2) (by omega) ⟨p % 2, Nat.mod_lt _ (by norm_num)⟩ (by rw [e]; exact hq)
        (by rw [e]; exact not_lt.mp hneg)
      have e2 := nodeSum_residual hs u (p / 2) (by omega) ⟨p % 2, Nat.mod_lt _ (by norm_num)⟩
      rw [e] at e2
      rw [← e2, ← this]
      simp only [nodeSum]
      congr 2
      · split_ifs with h0
        · rw [hF (p / 2 - 1) (by omega)]
        · rfl
      · split_ifs with h0
        · rw [hF (p / 2) h0]
        · rfl
    · rw [hq] at hc
      cases hc

/-- **C124, partial**: a completed analysis of a beam of slender prismatic members under loads
and imposed curvatures of degree at most two is a solution of the continuous beam problem: there
are elastic lines that fit the reported nodal displacements and member end forces.  Missing are
curvatures of higher degree, whose integrals are approximated by Simpson's rule; pinned-pinned
members with unbalanced fixed-end moments, for which it is false
(`C91_pinned_pinned_violation`); shear-flexible, tapered and foundation-supported members. -/
theorem C124_exact_partial (b : BeamDef ℝ) (ls : List (SpanLoad ℝ)) (hls : b.setLoads = .ok ls)
    (hb : b.Imposed ls) (hpp : b.ImposedPins ls) (stable : System ℝ → Bool)
    (solve : Solver ℝ) (hs : solve.Sound) (res : Result ℝ)
    (h : b.analyze stable solve = .ok res) :
    ∃ v θ : ℕ → ℝ → ℝ, ImposedBeam b ls res.d res.fmbr v θ := by
  obtain ⟨s, h1, h2⟩ := BeamDef.analyze_ok h
  obtain ⟨hd, _, _, hfm, _⟩ := System.analyze_ok hs h2
  rw [hfm]
  exact imposedBeam_of_solution hls hb hpp h1 hd

/-- **C124**: the continuous problem of a beam that is not a mechanism has at most one
solution. -/
theorem C124_unique (b : BeamDef ℝ) (ls : List (SpanLoad ℝ)) (hls : b.setLoads = .ok ls)
    (hb : b.Imposed ls) (hpp : b.ImposedPins ls) (s : System ℝ) (hs : b.system = .ok s)
    (hns : s.Nonsingular) (u u' : ℕ → ℝ) (F F' : ℕ → Vec4 ℝ) (v θ v' θ' : ℕ → ℝ → ℝ)
    (h : ImposedBeam b ls u F v θ) (h' : ImposedBeam b ls u' F' v' θ') :
    (∀ p < 2 * b.members.length + 2, u p = u' p) ∧
    (∀ i (hi : i < b.members.length), F i = F' i ∧
      ∀ x ∈ Icc 0 b.members[i].L, v i x = v' i x ∧ θ i x = θ' i x) := by
  obtain ⟨hn, hk, _, hr, hp, _, _⟩ := BeamDef.system_ok hs
  have hN : s.N = 2 * b.members.length + 2 := by simp only [System.N, hn]
  obtain ⟨hF, hsol⟩ := h.solution hls hb hpp hs
  obtain ⟨hF', hsol'⟩ := h'.solution hls hb hpp hs
  have hu : ∀ p < 2 * b.members.length + 2, u p = u' p := fun p hp' =>
    System.IsSolution.unique hns hsol hsol' p (by omega)
  have hFF : ∀ i < b.members.length, F i = F' i := by
    intro i hi
    rw [hF i hi, hF' i hi]
    have : elemVec u i = elemVec u' i := by
      ext a
      exact hu _ (by have := a.isLt; omega)
    simp only [System.endForces, this]
  refine ⟨hu, fun i hi => ⟨hFF i hi, ?_⟩⟩
  obtain ⟨_, e, he, hEI⟩ := hb.prismatic _ (List.getElem_mem hi)
  have hL := hb.pos _ (List.getElem_mem hi)
  have hL0 := hL.ne'
  have hE0 := he.ne'
  have s1 := h.span i hi e hEI
  have s2 := h'.span i hi e hEI
  have f1 := s1.stiffness hE0 hL (hb.own hls i hi)
  have f2 := s2.stiffness hE0 hL (hb.own hls i hi)
  have ev : v i 0 = v' i 0 := by rw [h.left i hi, h'.left i hi, hu _ (by omega)]
  have evL : v i b.members[i].L = v' i b.members[i].L := by
    rw [h.right i hi, h'.right i hi, hu _ (by omega)]
  have et : θ i 0 = θ' i 0 := by
    rw [hFF i hi] at f1
    rw [f2] at f1
    have g1 := congrFun f1 1
    have g3 := congrFun f1 3
    simp only [kFF_mulVec] at g1 g3
    simp only [Pi.add_apply, Matrix.cons_val] at g1 g3
    rw [ev, evL] at g1 g3
    have g : 6 * e / b.members[i].L * (θ i 0 - θ' i 0) = 0 := by
      linear_combination g3 - 2 * g1
    have g' : 6 * e / b.members[i].L ≠ 0 := by positivity
    have := (mul_eq_zero.1 g).resolve_left g'
    linarith
  rw [hFF i hi] at s1
  exact s1.unique hL (hb.own hls i hi) s2 ev et

/-! ### Curvatures that cause no forces -/

/-- A shape that has the imposed curvatures everywhere and fits the supports: continuous over
the supports, with the prescribed displacements, none at rigid supports and at springs. -/
structure FreeShape (b : BeamDef ℝ) (ls : List (SpanLoad ℝ)) (u : ℕ → ℝ) (v θ : ℕ → ℝ → ℝ) :
    Prop where
  slope : ∀ i (hi : i < b.members.length), ∀ x ∈ Ioo 0 b.members[i].L, HasDerivAt (v i) (θ i x) x
  curvature : ∀ i (hi : i < b.members.length), ∀ x ∈ Ioo 0 b.members[i].L,
    HasDerivAt (θ i) (imposedCurv (ownLoads i ls) x) x
  contV : ∀ i (hi : i < b.members.length), ContinuousOn (v i) (Icc 0 b.members[i].L)
  contT : ∀ i (hi : i < b.members.length), ContinuousOn (θ i) (Icc 0 b.members[i].L)
  left : ∀ i < b.members.length, v i 0 = u (2 * i)
  right : ∀ i (hi : i < b.members.length), v i b.members[i].L = u (2 * i + 2)
  rotLeft : ∀ i (hi : i < b.members.length), ¬ b.members[i].et.freeLeft → θ i 0 = u (2 * i + 1)
  rotRight : ∀ i (hi : i < b.members.length), ¬ b.members[i].et.freeRight →
    θ i b.members[i].L = u (2 * i + 3)
  prescribed : ∀ p < 2 * b.members.length + 2, ∀ w, b.presc.getD p none = some w → u p = w
  held : ∀ p < 2 * b.members.length + 2, b.presc.getD p none = none →
    b.restraints.getD p 0 ≠ 0 → u p = 0

/-- **C124**: if the beam carries imposed curvatures only, and a shape with these curvatures fits
the supports, then the analysis reports that shape's nodal displacements, and no forces at the
member ends. -/
theorem C124_compatible (b : BeamDef ℝ) (ls : List (SpanLoad ℝ)) (hls : b.setLoads = .ok ls)
    (hb : b.Imposed ls) (hpp : b.ImposedPins ls)
    (honly : ∀ l ∈ ls, ∃ k E, l.load = .ic k E)
    (s : System ℝ) (hsys : b.system = .ok s) (hns : s.Nonsingular)
    (u : ℕ → ℝ) (v θ : ℕ → ℝ → ℝ) (hv : FreeShape b ls u v θ)
    (stable : System ℝ → Bool) (solve : Solver ℝ) (hs : solve.Sound) (res : Result ℝ)
    (h : b.analyze stable solve = .ok res) :
    (∀ p < 2 * b.members.length + 2, res.d p = u p) ∧
    (∀ i < b.members.length, res.fmbr i = 0) := by
  have hown : ∀ i, ∀ ld ∈ ownLoads i ls, ∃ k E, ld = .ic k E := by
    intro i ld hld
    simp only [ownLoads, List.mem_map, List.mem_filter, decide_eq_true_eq] at hld
    obtain ⟨l, ⟨h1, _⟩, rfl⟩ := hld
    exact honly l h1
  have hz : ∀ i (f : Load ℝ → ℝ), (∀ k E, f (.ic k E) = 0) → ((ownLoads i ls).map f).sum = 0 := by
    intro i f hf
    apply List.sum_eq_zero
    intro y hy
    obtain ⟨ld, hld, rfl⟩ := List.mem_map.1 hy
    obtain ⟨k, E, rfl⟩ := hown i ld hld
    exact hf k E
  have hI : ImposedBeam b ls u (fun _ => 0) v θ := by
    refine ⟨fun i hi e he => ⟨hv.slope i hi, fun x hx _ => ?_, hv.contV i hi, hv.contT i hi, ?_, ?_⟩,
      hv.left, hv.right, fun i hi => ?_, fun i hi => ?_, hv.prescribed,
      fun p hp hq hr => hv.held p hp hq hr.ne, fun j hj c hq hr => ?_⟩
    · refine (hv.curvature i hi x hx).congr_deriv ?_
      simp only [cutM]
      rw [hz i _ fun k E => by
        simp [Load.momentLeft, Load.intensity, Load.forces, Load.couplesAt]]
      simp
    · rw [hz i _ fun k E => by simp [Load.total, Load.intensity, Load.forces]]
      simp
    · rw [hz i _ fun k E => by
        simp [Load.momentAboutLeft, Load.intensity, Load.forces, Load.couples]]
      simp
    · by_cases hf : b.members[i].et.freeLeft
      · rw [if_pos hf]; rfl
      · rw [if_neg hf]; exact hv.rotLeft i hi hf
    · by_cases hf : b.members[i].et.freeRight
      · rw [if_pos hf]; rfl
      · rw [if_neg hf]; exact hv.rotRight i hi hf
    · simp only [nodeSum, Pi.zero_apply, ite_self, zero_add]
      rcases hr.lt_or_eq with hr | hr
      · rw [hv.held _ (by have := c.isLt; omega) hq hr.ne', mul_zero]
      · rw [← hr]; simp
  obtain ⟨v', θ', hE⟩ := C124_exact_partial b ls hls hb hpp stable solve hs res h
  obtain ⟨h1, h2⟩ := C124_unique b ls hls hb hpp s hsys hns _ _ _ _ _ _ _ _ hE hI
  exact ⟨h1, fun i hi => (h2 i hi).1⟩

/-- **C124**: under the same hypotheses no support reports a reaction. -/
theorem C124_no_reactions (b : BeamDef ℝ) (ls : List (SpanLoad ℝ)) (hls : b.setLoads = .ok ls)
    (hb : b.Imposed ls) (hpp : b.ImposedPins ls)
    (honly : ∀ l ∈ ls, ∃ k E, l.load = .ic k E)
    (s : System ℝ) (hsys : b.system = .ok s) (hns : s.Nonsingular)
    (u : ℕ → ℝ) (v θ : ℕ → ℝ → ℝ) (hv : FreeShape b ls u v θ)
    (hsp : ∀ p < 2 * b.members.length + 2, 0 < b.restraints.getD p 0 → u p = 0)
    (stable : System ℝ → Bool) (solve : Solver ℝ) (hs : solve.Sound) (res : Result ℝ)
    (h : b.analyze stable solve = .ok res) (p : ℕ) (hp : p < 2 * b.members.length + 2) (R : ℝ)
    (hR : (p, R) ∈ b.reported res) : R = 0 := by
  obtain ⟨h1, h2⟩ := C124_compatible b ls hls hb hpp honly s hsys hns u v θ hv stable solve hs res h
  rcases C91_reactions b stable solve hs res h p R hR with ⟨hr, rfl⟩ | ⟨hr, rfl⟩
  · simp only [nodeSum]
    have e1 : (if 0 < p / 2 then res.fmbr (p / 2 - 1) ⟨2 + p % 2, by omega⟩ else 0) = 0 := by
      split_ifs
      · rw [h2 _ (by omega)]; rfl
      · rfl
    have e2 : (if p / 2 < b.members.length then res.fmbr (p / 2) ⟨p % 2, by omega⟩ else 0) = 0 := by
      split_ifs with h'
      · rw [h2 _ h']; rfl
      · rfl
    have e3 : 2 * (p / 2) + p % 2 = p := by omega
    rw [e1, e2, e3, max_eq_right hr.le]
    simp
  · rw [h1 p hp, hsp p hp hr]
    simp

end PyCBA
