import Verif.Exact.Report
import Verif.Stiffness.Timo

set_option linter.unusedSectionVars false
set_option linter.unusedSimpArgs false

/-!
C117: a completed analysis of a beam of slender and shear-flexible prismatic members is the
solution of the continuous problem of shear-flexible beams, and the only one.
-/

namespace PyCBA

open MeasureTheory Set Matrix

/-! ### The continuous problem -/

/-- The elastic line of a span whose sections also shear: deflection `v` (upward), rotation
of the sections `ψ`, end forces `F` in equilibrium with the loads.  `g` is the shear
flexibility, zero for a slender span: `v' = ψ - g V` away from point forces. -/
structure ShearSpan (EI g L : ℝ) (own : List (Load ℝ)) (F : Vec4 ℝ) (v ψ : ℝ → ℝ) : Prop where
  slope : ∀ x ∈ Ioo 0 L, (∀ ld ∈ own, ∀ p ∈ ld.forces, p.2 ≠ x) →
    HasDerivAt v (ψ x - g * cutV L own F x) x
  curvature : ∀ x ∈ Ioo 0 L, (∀ ld ∈ own, ∀ p ∈ ld.couplesAt, p.2 ≠ x) →
    HasDerivAt ψ (cutM L own F x / EI) x
  contV : ContinuousOn v (Icc 0 L)
  contT : ContinuousOn ψ (Icc 0 L)
  force : F 0 + F 2 = (own.map fun ld => ld.total L).sum
  moment : F 1 + F 3 + F 2 * L = (own.map fun ld => ld.momentAboutLeft L).sum

/-- The shear flexibility of a prismatic member. -/
noncomputable def Member.shearFlex (m : Member ℝ) : ℝ :=
  match m.GAv with
  | some (.const g) => 1 / g
  | _ => 0

/-- The solution of the continuous problem of a beam of slender and shear-flexible members:
nodal displacements `u`, member end forces `F` and lines `v`, `ψ`. -/
structure ShearBeam (b : BeamDef ℝ) (ls : List (SpanLoad ℝ)) (u : ℕ → ℝ) (F : ℕ → Vec4 ℝ)
    (v ψ : ℕ → ℝ → ℝ) : Prop where
  span : ∀ i (hi : i < b.members.length), ∀ e, b.members[i].EI = .const e →
    ShearSpan e b.members[i].shearFlex b.members[i].L (ownLoads i ls) (F i) (v i) (ψ i)
  left : ∀ i < b.members.length, v i 0 = u (2 * i)
  right : ∀ i (hi : i < b.members.length), v i b.members[i].L = u (2 * i + 2)
  rotLeft : ∀ i (hi : i < b.members.length),
    if b.members[i].et.freeLeft then F i 1 = 0 else ψ i 0 = u (2 * i + 1)
  rotRight : ∀ i (hi : i < b.members.length),
    if b.members[i].et.freeRight then F i 3 = 0 else ψ i b.members[i].L = u (2 * i + 3)
  prescribed : ∀ p < 2 * b.members.length + 2, ∀ w, b.presc.getD p none = some w → u p = w
  rigid : ∀ p < 2 * b.members.length + 2, b.presc.getD p none = none →
    b.restraints.getD p 0 < 0 → u p = 0
  free : ∀ j ≤ b.members.length, ∀ c : Fin 2, b.presc.getD (2 * j + c) none = none →
    0 ≤ b.restraints.getD (2 * j + c) 0 → nodeSum b u F j c = 0

/-- Slender or shear-flexible prismatic members, and mechanical loads that lie on their
spans. -/
structure BeamDef.Uniform (b : BeamDef ℝ) (ls : List (SpanLoad ℝ)) : Prop where
  pos : ∀ m ∈ b.members, 0 < m.L
  prismatic : ∀ m ∈ b.members, (∃ e, 0 < e ∧ m.EI = .const e) ∧
    (m.GAv = none ∨ ∃ g, 0 < g ∧ m.GAv = some (.const g))
  loads : ∀ i (hi : i < b.members.length), ∀ l ∈ ls, l.iSpan = (i : ℤ) →
    l.load.OnSpan b.members[i].L ∧ l.load.IsMechanical

/-- No couple acts on a shear-flexible member. -/
def BeamDef.NoShearCouples (b : BeamDef ℝ) (ls : List (SpanLoad ℝ)) : Prop :=
  ∀ i (hi : i < b.members.length), b.members[i].GAv ≠ none → ∀ l ∈ ls, l.iSpan = (i : ℤ) →
    ∀ m a, l.load ≠ .ml m a

theorem BeamDef.Slender.uniform {b : BeamDef ℝ} {ls : List (SpanLoad ℝ)} (h : b.Slender ls) :
    b.Uniform ls ∧ b.NoShearCouples ls :=
  ⟨⟨h.pos, fun m hm => ⟨(h.prismatic m hm).2, .inl (h.prismatic m hm).1⟩, h.loads⟩,
    fun _ hi hg => absurd (h.prismatic _ (List.getElem_mem hi)).1 hg⟩

theorem BeamDef.Uniform.own {b : BeamDef ℝ} {ls : List (SpanLoad ℝ)} (h : b.Uniform ls)
    (hls : b.setLoads = .ok ls) (i : ℕ) (hi : i < b.members.length) :
    ∀ ld ∈ ownLoads i ls, ld.Plain b.members[i].L := by
  intro ld hld
  simp only [ownLoads, List.mem_map, List.mem_filter, decide_eq_true_eq] at hld
  obtain ⟨l, ⟨h1, h2⟩, rfl⟩ := hld
  exact ⟨(h.loads i hi l h1 h2).1, (h.loads i hi l h1 h2).2, b.setLoads_no_mamb hls l h1⟩

theorem BeamDef.Uniform.good {b : BeamDef ℝ} {ls : List (SpanLoad ℝ)} (h : b.Uniform ls)
    {m : Member ℝ} (hm : m ∈ b.members) : m.Good := by
  obtain ⟨⟨e, he, hEI⟩, hG⟩ := h.prismatic m hm
  refine ⟨h.pos m hm, by rw [hEI]; exact he, fun g hg => ?_⟩
  rcases hG with hG | ⟨g', hg', hG⟩
  · rw [hG] at hg; cases hg
  · rw [hG] at hg; cases hg; exact hg'

/-! ### Bending moment without the jumps of couples -/

/-- The moment of a load, without couples, as far as it counts in the bending moment. -/
noncomputable def Load.smoothM (L : ℝ) (ld : Load ℝ) (x : ℝ) : ℝ :=
  match ld with
  | .ml _ _ => 0
  | ld => (ld.ss L x).M - (ld.ss L 0).V * x

theorem Load.smoothM_ml (L m a x : ℝ) : (Load.ml m a).smoothM L x = 0 := rfl

theorem Load.smoothM_eq (L : ℝ) (ld : Load ℝ) (x : ℝ) (h : ∀ m a, ld ≠ .ml m a) :
    ld.smoothM L x = (ld.ss L x).M - (ld.ss L 0).V * x := by
  cases ld <;> first | rfl | exact absurd rfl (h _ _)

/-- The bending moment without the jumps of the couples. -/
noncomputable def smoothN (L : ℝ) (own : List (Load ℝ)) (F : Vec4 ℝ) (x : ℝ) : ℝ :=
  -F 1 + F 0 * x + (own.map fun ld => ld.smoothM L x).sum

/-- The sum of the couples of the loads. -/
noncomputable def coupleSum (own : List (Load ℝ)) : ℝ :=
  (own.map fun ld => (ld.couplesAt.map Prod.fst).sum).sum

theorem smoothN_continuous {L : ℝ} {own : List (Load ℝ)} (hown : ∀ ld ∈ own, ld.Plain L)
    (F : Vec4 ℝ) : Continuous (smoothN L own F) := by
  have := continuous_list_sum own (fun ld y => ld.smoothM L y) (by
    intro ld hld
    by_cases h : ∃ m a, ld = .ml m a
    · obtain ⟨m, a, rfl⟩ := h
      simpa only [Load.smoothM_ml] using continuous_const
    · push Not at h
      simp only [Load.smoothM_eq L ld _ h]
      have := ss_M_continuous ld L (hown ld hld).2.1 h
      fun_prop)
  unfold smoothN
  fun_prop

theorem smoothN_deriv {L : ℝ} (hL : 0 < L) {own : List (Load ℝ)} (hown : ∀ ld ∈ own, ld.Plain L)
    (F : Vec4 ℝ) (x : ℝ) (hx : x ∈ Icc 0 L) (hf : ∀ ld ∈ own, ∀ p ∈ ld.forces, p.2 ≠ x) :
    HasDerivAt (smoothN L own F) (cutV L own F x) x := by
  have h1 := hasDerivAt_list_sum own (fun ld y => ld.smoothM L y)
    (fun ld => -ld.forceLeft L x) x (by
      intro ld hld
      have hp := hown ld hld
      by_cases h : ∃ m a, ld = .ml m a
      · obtain ⟨m, a, rfl⟩ := h
        simp only [Load.smoothM_ml]
        refine (hasDerivAt_const x (0 : ℝ)).congr_deriv ?_
        simp [Load.forceLeft, Load.intensity, Load.forces]
      · push Not at h
        simp only [Load.smoothM_eq L ld _ h]
        have hpa : x ∉ ld.pointActions := by
          have := hf ld hld
          cases ld <;> simp [Load.pointActions, Load.forces] at this ⊢
          · exact fun e => this e.symm
          · exact absurd rfl (h _ _)
        have hd := (C09_shear_moment_diagrams ld L hL hp.1 hp.2.1).2.1 x hpa
        refine (hd.sub ((hasDerivAt_id x).const_mul _)).congr_deriv ?_
        rw [(ld.cut L hL hp.1 hp.2.1 hp.2.2 x hx).1]
        ring)
  refine ((((hasDerivAt_id x).const_mul (F 0)).const_add (-F 1)).add h1).congr_deriv ?_
  rw [cutV]
  have : (own.map fun ld => -ld.forceLeft L x).sum = -(own.map fun ld => ld.forceLeft L x).sum := by
    rw [← neg_one_mul, mul_comm, ← list_sum_mul]
    congr 1
    apply List.map_congr_left
    intro ld _
    ring
  rw [this]
  ring

theorem Load.smoothM_ends {L : ℝ} (hL : 0 < L) {ld : Load ℝ} (h : ld.Plain L) :
    ld.smoothM L 0 = 0 ∧
    ld.smoothM L L = ld.momentAboutLeft L - ld.total L * L + (ld.couplesAt.map Prod.fst).sum := by
  have hst := (h.start hL).1
  obtain ⟨b1, b2⟩ := h.balance hL
  have e : ld.momentAboutLeft L - ld.total L * L = -((ld.ss L 0).V * L) := by
    rw [hst, ← b1, ← b2]
    field_simp
    ring
  by_cases hm : ∃ m a, ld = .ml m a
  · obtain ⟨m, a, rfl⟩ := hm
    refine ⟨rfl, ?_⟩
    rw [e]
    simp only [Load.smoothM_ml, Load.ss, Load.stn, mlStn, Load.couplesAt, Option.getD_some]
    simp
    field_simp
    try ring
  · push Not at hm
    have hEC : ¬ ld.EndCouple L := by
      cases ld <;> simp [Load.EndCouple]
      exact absurd rfl (hm _ _)
    have hem : ld.endMoments = (0, 0) := by
      cases ld <;> simp [Load.endMoments]
      exact absurd rfl (h.2.2 _ _)
    obtain ⟨_, _, _, em⟩ := C09_shear_moment_diagrams ld L hL h.1 h.2.1
    obtain ⟨e0, eL⟩ := em hEC
    rw [hem] at e0 eL
    have hc : ld.couplesAt = [] := by
      cases ld <;> first | rfl | exact absurd rfl (hm _ _)
    rw [Load.smoothM_eq L ld _ hm, Load.smoothM_eq L ld _ hm, e, e0, eL, hc]
    simp

theorem smoothN_ends {L : ℝ} (hL : 0 < L) {own : List (Load ℝ)} (hown : ∀ ld ∈ own, ld.Plain L)
    (F : Vec4 ℝ) (force : F 0 + F 2 = (own.map fun ld => ld.total L).sum)
    (moment : F 1 + F 3 + F 2 * L = (own.map fun ld => ld.momentAboutLeft L).sum) :
    smoothN L own F 0 = -F 1 ∧ smoothN L own F L = F 3 + coupleSum own := by
  have h0 : (own.map fun ld => ld.smoothM L 0).sum = 0 := by
    rw [List.map_congr_left (g := fun _ => (0 : ℝ))]
    · simp
    · exact fun ld hld => (Load.smoothM_ends hL (hown ld hld)).1
  have hLs : (own.map fun ld => ld.smoothM L L).sum
      = (own.map fun ld => ld.momentAboutLeft L).sum - (own.map fun ld => ld.total L).sum * L
        + coupleSum own := by
    clear force moment h0
    induction own with
    | nil => simp [coupleSum]
    | cons a l ih =>
      have := ih fun ld h => hown ld (List.mem_cons_of_mem _ h)
      simp only [coupleSum, List.map_cons, List.sum_cons] at this ⊢
      rw [this, (Load.smoothM_ends hL (hown a (by simp))).2]
      ring
  rw [smoothN, smoothN, h0, hLs, ← force, ← moment]
  constructor <;> ring

/-! ### Reduction to slender spans -/

theorem hasDerivAt_of_off_countable {f g : ℝ → ℝ} {L : ℝ} {s : Set ℝ} (hs : s.Countable)
    (hf : ContinuousOn f (Icc 0 L)) (hg : ContinuousOn g (Icc 0 L))
    (hd : ∀ x ∈ Ioo 0 L, x ∉ s → HasDerivAt f (g x) x) :
    ∀ x ∈ Ioo 0 L, HasDerivAt f (g x) x := by
  intro x hx
  have hint : ∀ y ∈ Ioo 0 L, f y = f 0 + ∫ t in (0 : ℝ)..y, g t := by
    intro y hy
    have hsub : Icc 0 y ⊆ Icc 0 L := Icc_subset_Icc_right hy.2.le
    have := integral_eq_of_hasDerivAt_off_countable_of_le f g hy.1.le hs (hf.mono hsub)
      (fun t ht => hd t ⟨ht.1.1, ht.1.2.trans hy.2⟩ ht.2)
      ((hg.mono hsub).intervalIntegrable_of_Icc hy.1.le)
    linarith
  have h1 : HasDerivAt (fun y => ∫ t in (0 : ℝ)..y, g t) (g x) x :=
    intervalIntegral.integral_hasDerivAt_right
      ((hg.mono (Icc_subset_Icc_right hx.2.le)).intervalIntegrable_of_Icc hx.1.le)
      ((hg.mono Ioo_subset_Icc_self).stronglyMeasurableAtFilter isOpen_Ioo x hx)
      ((hg.mono Ioo_subset_Icc_self).continuousAt (isOpen_Ioo.mem_nhds hx))
  exact (h1.const_add (f 0)).congr_of_eventuallyEq
    (Filter.eventually_of_mem (isOpen_Ioo.mem_nhds hx) hint)

theorem forces_countable (own : List (Load ℝ)) :
    {x : ℝ | ¬ ∀ ld ∈ own, ∀ p ∈ ld.forces, p.2 ≠ x}.Countable := by
  have : {x : ℝ | ¬ ∀ ld ∈ own, ∀ p ∈ ld.forces, p.2 ≠ x}
      ⊆ {x | x ∈ (own.flatMap fun ld => ld.forces.map Prod.snd)} := by
    intro x hx
    simp only [mem_ofPred_eq, not_forall, not_not] at hx
    obtain ⟨ld, h1, p, h2, h3⟩ := hx
    simp only [mem_ofPred_eq, List.mem_flatMap, List.mem_map]
    exact ⟨ld, h1, p, h2, h3⟩
  exact (List.finite_toSet _).countable.mono this

/-- The bending part of the deflection of a shear-flexible span is an elastic line. -/
theorem ShearSpan.bending {EI g L : ℝ} (hL : 0 < L) {own : List (Load ℝ)}
    (hown : ∀ ld ∈ own, ld.Plain L) {F : Vec4 ℝ} {v ψ : ℝ → ℝ} (h : ShearSpan EI g L own F v ψ) :
    ElasticSpan EI L own F (fun x => v x + g * smoothN L own F x) ψ := by
  have hN := smoothN_continuous hown F
  have hc : ContinuousOn (fun x => v x + g * smoothN L own F x) (Icc 0 L) :=
    h.contV.add (continuous_const.mul hN).continuousOn
  refine ⟨hasDerivAt_of_off_countable (forces_countable own) hc h.contT fun x hx hxs => ?_,
    h.curvature, hc, h.contT, h.force, h.moment⟩
  have hf : ∀ ld ∈ own, ∀ p ∈ ld.forces, p.2 ≠ x := not_not.1 hxs
  refine ((h.slope x hx hf).add ((smoothN_deriv hL hown F x (Ioo_subset_Icc_self hx)
    hf).const_mul g)).congr_deriv ?_
  ring

/-- Conversely, subtracting the shear part from an elastic line gives the line of the
shear-flexible span. -/
theorem ElasticSpan.shear {EI L : ℝ} (hL : 0 < L) {own : List (Load ℝ)}
    (hown : ∀ ld ∈ own, ld.Plain L) {F : Vec4 ℝ} {v ψ : ℝ → ℝ} (h : ElasticSpan EI L own F v ψ)
    (g : ℝ) : ShearSpan EI g L own F (fun x => v x - g * smoothN L own F x) ψ :=
  ⟨fun x hx hf => (h.slope x hx).sub
      ((smoothN_deriv hL hown F x (Ioo_subset_Icc_self hx) hf).const_mul g),
    h.curvature, h.contV.sub (continuous_const.mul (smoothN_continuous hown F)).continuousOn,
    h.contT, h.force, h.moment⟩

/-- A slender span is a span of shear flexibility zero. -/
theorem shearSpan_slender {EI L : ℝ} (hL : 0 < L) {own : List (Load ℝ)}
    (hown : ∀ ld ∈ own, ld.Plain L) {F : Vec4 ℝ} {v ψ : ℝ → ℝ} :
    ShearSpan EI 0 L own F v ψ ↔ ElasticSpan EI L own F v ψ :=
  ⟨fun h => by simpa using h.bending hL hown, fun h => by simpa using h.shear hL hown 0⟩

/-- The end displacements and end forces of a shear-flexible span. -/
theorem ShearSpan.stiffness {EI g L : ℝ} (hE : EI ≠ 0) (hL : 0 < L) {own : List (Load ℝ)}
    (hown : ∀ ld ∈ own, ld.Plain L) {F : Vec4 ℝ} {v ψ : ℝ → ℝ} (h : ShearSpan EI g L own F v ψ) :
    F = kFF EI L *ᵥ ![v 0 - g * F 1, ψ 0, v L + g * (F 3 + coupleSum own), ψ L]
      + (clampedSum L own).vec := by
  obtain ⟨e0, eL⟩ := smoothN_ends hL hown F h.force h.moment
  have := (h.bending hL hown).stiffness hE hL hown
  rw [e0, eL, show v 0 + g * -F 1 = v 0 - g * F 1 by ring] at this
  exact this

theorem shearSpan_of_stiffness {EI g L : ℝ} (hE : EI ≠ 0) (hL : 0 < L) {own : List (Load ℝ)}
    (hown : ∀ ld ∈ own, ld.Plain L) (F d : Vec4 ℝ)
    (h : F = kFF EI L *ᵥ ![d 0 - g * F 1, d 1, d 2 + g * (F 3 + coupleSum own), d 3]
      + (clampedSum L own).vec) :
    ∃ v ψ : ℝ → ℝ, ShearSpan EI g L own F v ψ ∧ v 0 = d 0 ∧ ψ 0 = d 1 ∧ v L = d 2 ∧ ψ L = d 3 := by
  obtain ⟨v, ψ, h1, h2, h3, h4, h5⟩ := elasticSpan_of_stiffness hE hL hown F _ h
  obtain ⟨e0, eL⟩ := smoothN_ends hL hown F h1.force h1.moment
  refine ⟨_, ψ, h1.shear hL hown g, ?_, h3, ?_, h5⟩
  · rw [h2, e0]
    simp
  · rw [h4, eL]
    simp

/-! ### Members with releases -/

/-- What the forces of a released member mean in terms of the clamped member. -/
theorem released_iff {kff kr : Mat4 ℝ} {c c' : CNL ℝ} {rel : List (Fin 4)}
    (hk : IsReleaseOf kff kr rel) (hc : IsReleasedForce kff c c' rel) (F d : Vec4 ℝ) :
    F = kr *ᵥ d + c'.vec ↔
    ∃ d' : Vec4 ℝ, (∀ p, p ∉ rel → d' p = d p) ∧ (∀ r ∈ rel, F r = 0) ∧
      F = kff *ᵥ d' + c.vec := by
  obtain ⟨th, t1, t2⟩ := hc.1
  have ht := hc.2 th t1 t2
  constructor
  · rintro rfl
    obtain ⟨d', e1, e2⟩ := hk.1 d
    have hd := hk.2 d d' e1 e2
    refine ⟨d' + th, fun p hp => by simp [e1 p hp, t1 p hp], fun r hr => ?_, ?_⟩
    · rw [hd, ht, Pi.add_apply, e2 r hr, t2 r hr, add_zero]
    · rw [hd, ht, Matrix.mulVec_add]
      abel
  · rintro ⟨d', e1, e2, e3⟩
    have hd := hk.2 d (d' - th) (fun p hp => by simp [e1 p hp, t1 p hp]) (fun r hr => by
      have a := e2 r hr
      have b := t2 r hr
      rw [e3] at a
      rw [Matrix.mulVec_sub]
      simp only [Pi.add_apply, Pi.sub_apply] at a b ⊢
      linarith)
    rw [hd, ht, e3, Matrix.mulVec_sub]
    abel

theorem IsReleasedForce.add {kff : Mat4 ℝ} {c c' e e' : CNL ℝ} {rel : List (Fin 4)}
    (h : IsReleasedForce kff c c' rel) (h' : IsReleasedForce kff e e' rel) :
    IsReleasedForce kff ⟨c.Va + e.Va, c.Ma + e.Ma, c.Vb + e.Vb, c.Mb + e.Mb⟩
      ⟨c'.Va + e'.Va, c'.Ma + e'.Ma, c'.Vb + e'.Vb, c'.Mb + e'.Mb⟩ rel := by
  have hv : ∀ a b : CNL ℝ, CNL.vec ⟨a.Va + b.Va, a.Ma + b.Ma, a.Vb + b.Vb, a.Mb + b.Mb⟩
      = a.vec + b.vec := by
    intro a b
    ext p
    fin_cases p <;> rfl
  obtain ⟨⟨t, t1, t2⟩, t3⟩ := h
  obtain ⟨⟨s, s1, s2⟩, s3⟩ := h'
  rw [IsReleasedForce, hv, hv]
  refine ⟨⟨t + s, fun p hp => by simp [t1 p hp, s1 p hp], fun r hr => ?_⟩, fun th q1 q2 => ?_⟩
  · have a := t2 r hr
    have b := s2 r hr
    rw [Matrix.mulVec_add]
    simp only [Pi.add_apply] at a b ⊢
    linarith
  · have e1 := t3 (th - s) (fun p hp => by simp [q1 p hp, s1 p hp]) (fun r hr => by
      have a := q2 r hr
      have b := s2 r hr
      rw [Matrix.mulVec_sub]
      simp only [Pi.add_apply, Pi.sub_apply] at a b ⊢
      linarith)
    rw [e1, s3 s s1 s2, Matrix.mulVec_sub]
    abel

theorem IsReleaseOf.force_zero {kff kr : Mat4 ℝ} {rel : List (Fin 4)} (h : IsReleaseOf kff kr rel) :
    IsReleasedForce kff ⟨0, 0, 0, 0⟩ ⟨0, 0, 0, 0⟩ rel := by
  have hz : CNL.vec (⟨0, 0, 0, 0⟩ : CNL ℝ) = 0 := by
    ext p
    fin_cases p <;> rfl
  rw [IsReleasedForce, hz]
  refine ⟨⟨0, by simp, by simp⟩, fun th h1 h2 => ?_⟩
  have := h.2 0 th (by simpa using h1) (by simpa using h2)
  rw [← this]
  simp

/-- The sum of the released forces of the loads of a member is the release of the sum of
their clamped forces. -/
theorem refSum_released {m : Member ℝ} {kff kr : Mat4 ℝ} (hk : IsReleaseOf kff kr m.et.released)
    (i : ℕ) (f : Load ℝ → CNL ℝ) (ls : List (SpanLoad ℝ))
    (hf : ∀ l ∈ ls, l.iSpan = (i : ℤ) → ∀ c', m.ref l.load = .ok c' →
      IsReleasedForce kff (f l.load) c' m.et.released) (t : CNL ℝ) (ht : m.refSum i ls = .ok t) :
    IsReleasedForce kff ⟨((ownLoads i ls).map fun ld => (f ld).Va).sum,
      ((ownLoads i ls).map fun ld => (f ld).Ma).sum,
      ((ownLoads i ls).map fun ld => (f ld).Vb).sum,
      ((ownLoads i ls).map fun ld => (f ld).Mb).sum⟩ t m.et.released := by
  induction ls generalizing t with
  | nil =>
    cases ht
    simpa [ownLoads] using hk.force_zero
  | cons l ls ih =>
    have ih' := ih fun l' hl' => hf l' (List.mem_cons_of_mem _ hl')
    simp only [Member.refSum] at ht
    by_cases hl : l.iSpan = (i : ℤ)
    · rw [if_pos hl] at ht
      cases hr : m.ref l.load with
      | error e => rw [hr] at ht; cases ht
      | ok c =>
        rw [hr] at ht
        simp only at ht
        cases hs : m.refSum i ls with
        | error e => rw [hs] at ht; cases ht
        | ok t' =>
          rw [hs] at ht
          simp only [Except.ok.injEq] at ht
          subst ht
          have := (hf l (by simp) hl c hr).add (ih' t' hs)
          simpa [ownLoads, hl] using this
    · rw [if_neg hl] at ht
      have := ih' t ht
      simpa [ownLoads, hl] using this

/-- The stiffness equation of a clamped shear-flexible member is that of a slender one whose
end deflections are the bending parts. -/
theorem timo_iff {e g L : ℝ} (he : 0 < e) (hg : 0 < g) (hL : 0 < L) (C : CNL ℝ) (F d : Vec4 ℝ) :
    F = kFFtimo e g L *ᵥ d + (refTimoFF C e g L).vec ↔
    F = kFF e L *ᵥ ![d 0 - 1 / g * F 1, d 1, d 2 + 1 / g * F 3, d 3] + C.vec := by
  have hp : g * L ^ 2 + 12 * e ≠ 0 := by positivity
  have hp' : 1 + 12 * e / (g * L ^ 2) ≠ 0 := by positivity
  have key : ∀ F : Vec4 ℝ, F = kFFtimo e g L *ᵥ d + (refTimoFF C e g L).vec →
      F = kFF e L *ᵥ ![d 0 - 1 / g * F 1, d 1, d 2 + 1 / g * F 3, d 3] + C.vec := by
    intro F hF
    have h1 := congrFun hF 1
    have h3 := congrFun hF 3
    have h0 := congrFun hF 0
    have h2 := congrFun hF 2
    rw [kFF_mulVec]
    rw [Pi.add_apply, mulVec4] at h0 h1 h2 h3
    simp [kFFtimo, refTimoFF, refFF, CNL.vec] at h0 h1 h2 h3
    have hS : F 1 + F 3 = (g * L ^ 2 / (g * L ^ 2 + 12 * e)) *
        (C.Ma + C.Mb + 12 * e / L ^ 2 * (d 0 - d 2) + 6 * e / L * (d 1 + d 3)) := by
      rw [h1, h3]
      field_simp
      ring
    ext p
    fin_cases p
    · simp [CNL.vec]
      rw [h0]
      have : d 0 - g⁻¹ * F 1 - (d 2 + g⁻¹ * F 3) = d 0 - d 2 - (F 1 + F 3) / g := by
        field_simp
        ring
      rw [this, hS]
      field_simp
      ring
    · simp [CNL.vec]
      rw [h1]
      have : d 0 - g⁻¹ * F 1 - (d 2 + g⁻¹ * F 3) = d 0 - d 2 - (F 1 + F 3) / g := by
        field_simp
        ring
      rw [← h1, this, hS, h1]
      field_simp
      ring
    · simp [CNL.vec]
      rw [h2]
      have : d 0 - g⁻¹ * F 1 - (d 2 + g⁻¹ * F 3) = d 0 - d 2 - (F 1 + F 3) / g := by
        field_simp
        ring
      rw [this, hS]
      field_simp
      ring
    · simp [CNL.vec]
      have : d 0 - g⁻¹ * F 1 - (d 2 + g⁻¹ * F 3) = d 0 - d 2 - (F 1 + F 3) / g := by
        field_simp
        ring
      rw [this, hS, h3]
      field_simp
      ring
  refine ⟨key F, fun hF => ?_⟩
  have hG := key (kFFtimo e g L *ᵥ d + (refTimoFF C e g L).vec) rfl
  generalize kFFtimo e g L *ᵥ d + (refTimoFF C e g L).vec = G at hG ⊢
  rw [kFF_mulVec] at hF hG
  have a1 := congrFun hF 1
  have a3 := congrFun hF 3
  have b1 := congrFun hG 1
  have b3 := congrFun hG 3
  simp [CNL.vec] at a1 a3 b1 b3
  have hs : (F 1 + F 3 - (G 1 + G 3)) * (1 + 12 * e / (g * L ^ 2)) = 0 := by
    have e1 : 12 * e / (g * L ^ 2) = 2 * (6 * e / L ^ 2) * g⁻¹ := by
      field_simp
      try ring
    rw [e1]
    linear_combination a1 + a3 - b1 - b3
  have hs' : F 1 + F 3 = G 1 + G 3 := by
    have := (mul_eq_zero.1 hs).resolve_right hp'
    linarith
  have c1 : d 0 - g⁻¹ * F 1 - (d 2 + g⁻¹ * F 3) = d 0 - g⁻¹ * G 1 - (d 2 + g⁻¹ * G 3) := by
    linear_combination -(g⁻¹) * hs'
  rw [hF, hG]
  congr 1
  ext p
  fin_cases p <;> simp [c1]

/-! ### The beam -/

theorem timo_sum (e g L : ℝ) (own : List (Load ℝ)) :
    (⟨(own.map fun ld => (refTimoFF (ld.clamped L) e g L).Va).sum,
      (own.map fun ld => (refTimoFF (ld.clamped L) e g L).Ma).sum,
      (own.map fun ld => (refTimoFF (ld.clamped L) e g L).Vb).sum,
      (own.map fun ld => (refTimoFF (ld.clamped L) e g L).Mb).sum⟩ : CNL ℝ)
      = refTimoFF (clampedSum L own) e g L := by
  induction own with
  | nil => simp [clampedSum, refTimoFF, refFF]
  | cons a l ih =>
    have h0 := congrArg CNL.Va ih
    have h1 := congrArg CNL.Ma ih
    have h2 := congrArg CNL.Vb ih
    have h3 := congrArg CNL.Mb ih
    simp only [List.map_cons, List.sum_cons, clampedSum] at h0 h1 h2 h3 ⊢
    rw [h0, h1, h2, h3]
    ext <;> simp only [refTimoFF, refFF] <;> ring

/-- The forces of a member of a completed analysis, as forces of the clamped slender member
whose end deflections are the bending parts. -/
theorem BeamDef.Uniform.endForces {b : BeamDef ℝ} {ls : List (SpanLoad ℝ)} (h : b.Uniform ls)
    (hls : b.setLoads = .ok ls) {s : System ℝ} (hs : b.system = .ok s) (i : ℕ)
    (hi : i < b.members.length) (hpp : b.members[i].et ≠ .PP) (e : ℝ)
    (he : b.members[i].EI = .const e) (d : ℕ → ℝ) (F : Vec4 ℝ) :
    F = s.endForces d i ↔ ∃ d' : Vec4 ℝ,
      (∀ p, p ∉ b.members[i].et.released → d' p = elemVec d i p) ∧
      (∀ r ∈ b.members[i].et.released, F r = 0) ∧
      F = kFF e b.members[i].L *ᵥ ![d' 0 - b.members[i].shearFlex * F 1, d' 1,
          d' 2 + b.members[i].shearFlex * F 3, d' 3]
        + (clampedSum b.members[i].L (ownLoads i ls)).vec := by
  obtain ⟨_, hk, ⟨ls', hls', href⟩, _⟩ := BeamDef.system_ok hs
  rw [hls] at hls'
  cases hls'
  have hmem := List.getElem_mem hi
  have hgood := h.good hmem
  have hown := h.own hls i hi
  have hG := (h.prismatic _ hmem).2
  have h1 := hk i hi
  obtain ⟨c, hc1, hc2⟩ := href i hi
  generalize b.members[i] = m at *
  have hL := hgood.1
  have hepos : 0 < e := by have := hgood.2.1; rw [he] at this; exact this
  obtain ⟨kff, kr, f1, f2, f3, _⟩ := C14_release_is_condensation m hgood
  have hkr : s.kb i = kr := by
    rw [f2] at h1
    exact (Except.ok.inj h1).symm
  have hF : s.endForces d i = kr *ᵥ elemVec d i + c.vec := by
    simp only [System.endForces, hkr, hc2]
  have hcl : ∀ l ∈ ls, l.iSpan = (i : ℤ) → m.cnl l.load = .ok (l.load.clamped m.L) := by
    intro l hl hli
    have hp : l.load.Plain m.L := hown _ (by
      simp only [ownLoads, List.mem_map, List.mem_filter, decide_eq_true_eq]
      exact ⟨l, ⟨hl, hli⟩, rfl⟩)
    exact Member.cnl_mech m l.load hp.2.1 (hp.getCnl hL)
  have hrel : ∀ l ∈ ls, l.iSpan = (i : ℤ) → ∀ c', m.ref l.load = .ok c' → ∃ c0,
      ({ m with et := .FF } : Member ℝ).ref l.load = .ok c0 ∧
      IsReleasedForce kff c0 c' m.et.released := by
    intro l hl hli c' hc'
    obtain ⟨kff', c0, c'', g1, g2, g3, g4⟩ := C04_member_release_partial m hgood hpp l.load _
      (hcl l hl hli)
    rw [f1] at g1
    rw [hc'] at g3
    cases g1
    cases g3
    exact ⟨c0, g2, g4⟩
  rw [hF]
  rcases hG with hG | ⟨g, hg, hG⟩
  · have hsum := refSum_released f3 i (fun ld => ld.clamped m.L) ls (by
      intro l hl hli c' hc'
      obtain ⟨c0, g2, g4⟩ := hrel l hl hli c' hc'
      have g5 := hcl l hl hli
      have : ({ m with et := .FF } : Member ℝ).cnl l.load = .ok (l.load.clamped m.L) := g5
      rw [hG, he] at this
      simp only [Member.ref, hG, he, this, releaseCnl, sub_zero, Except.ok.injEq] at g2
      rw [← g2] at g4
      exact g4) c hc1
    rw [released_iff f3 hsum]
    have hkff : kff = kFF e m.L := by
      simp only [Member.spanK, hG, he] at f1
      exact (Except.ok.inj f1).symm
    have hsf : m.shearFlex = 0 := by simp only [Member.shearFlex, hG]
    simp only [hsf, zero_mul, sub_zero, add_zero, hkff]
    refine exists_congr fun d' => ?_
    have : (![d' 0, d' 1, d' 2, d' 3] : Vec4 ℝ) = d' := by
      ext p
      fin_cases p <;> rfl
    rw [this]
    rfl
  · have hsum := refSum_released f3 i (fun ld => refTimoFF (ld.clamped m.L) e g m.L) ls (by
      intro l hl hli c' hc'
      obtain ⟨c0, g2, g4⟩ := hrel l hl hli c' hc'
      have g5 := hcl l hl hli
      have : ({ m with et := .FF } : Member ℝ).cnl l.load = .ok (l.load.clamped m.L) := g5
      rw [hG, he] at this
      simp only [Member.ref, hG, he, this, releaseRef, Except.ok.injEq] at g2
      rw [← g2] at g4
      exact g4) c hc1
    rw [timo_sum] at hsum
    rw [released_iff f3 hsum]
    have hkff : kff = kFFtimo e g m.L := by
      simp only [Member.spanK, hG, he, condenseFor] at f1
      exact (Except.ok.inj f1).symm
    have hsf : m.shearFlex = 1 / g := by simp only [Member.shearFlex, hG]
    simp only [hsf, hkff]
    exact exists_congr fun d' => by rw [timo_iff hepos hg hL]

/-- What the results of a beam must satisfy for a line to fit them: on each pinned-pinned
member the clamped end moments of the loads balance, and on each other shear-flexible member
the couples do. -/
def BeamDef.ShearBalanced (b : BeamDef ℝ) (ls : List (SpanLoad ℝ)) : Prop :=
  ∀ i (hi : i < b.members.length),
    (b.members[i].et = .PP → (clampedSum b.members[i].L (ownLoads i ls)).Ma
      + (clampedSum b.members[i].L (ownLoads i ls)).Mb = 0) ∧
    (b.members[i].et ≠ .PP → b.members[i].GAv ≠ none → coupleSum (ownLoads i ls) = 0)

theorem BeamDef.shearBalanced_of {b : BeamDef ℝ} {ls : List (SpanLoad ℝ)}
    (h : b.NoShearCouples ls) (hpp : ∀ m ∈ b.members, m.et ≠ .PP) : b.ShearBalanced ls := by
  intro i hi
  refine ⟨fun h' => absurd h' (hpp _ (List.getElem_mem hi)), fun _ hG => ?_⟩
  rw [coupleSum, List.map_congr_left (g := fun _ => (0 : ℝ))]
  · simp
  · intro ld hld
    simp only [ownLoads, List.mem_map, List.mem_filter, decide_eq_true_eq] at hld
    obtain ⟨l, ⟨h1, h2⟩, rfl⟩ := hld
    have := h i hi hG l h1 h2
    generalize l.load = ld at *
    cases ld <;> first | rfl | exact absurd rfl (this _ _)

/-- The end forces of a pinned-pinned member do not depend on its displacements. -/
theorem BeamDef.Uniform.pinnedForces {b : BeamDef ℝ} {ls : List (SpanLoad ℝ)} (h : b.Uniform ls)
    (hls : b.setLoads = .ok ls) {s : System ℝ} (hs : b.system = .ok s) (i : ℕ)
    (hi : i < b.members.length) (hpp : b.members[i].et = .PP) :
    ∃ r : ℝ, 0 < r ∧ ∀ d : ℕ → ℝ, s.endForces d i =
      ![(clampedSum b.members[i].L (ownLoads i ls)).Va
          + (2 * r - 1) * (((clampedSum b.members[i].L (ownLoads i ls)).Ma
            + (clampedSum b.members[i].L (ownLoads i ls)).Mb) / b.members[i].L), 0,
        (clampedSum b.members[i].L (ownLoads i ls)).Vb
          - (2 * r - 1) * (((clampedSum b.members[i].L (ownLoads i ls)).Ma
            + (clampedSum b.members[i].L (ownLoads i ls)).Mb) / b.members[i].L), 0] := by
  obtain ⟨_, hk, ⟨ls', hls', href⟩, _⟩ := BeamDef.system_ok hs
  rw [hls] at hls'
  cases hls'
  have hmem := List.getElem_mem hi
  have hgood := h.good hmem
  have hown := h.own hls i hi
  obtain ⟨⟨e, he, hEI⟩, hG⟩ := h.prismatic _ hmem
  have h1 := hk i hi
  obtain ⟨c, hc1, hc2⟩ := href i hi
  generalize b.members[i] = m at *
  have hL := hgood.1
  have hL0 := hL.ne'
  have hcl : ∀ l ∈ ls, l.iSpan = (i : ℤ) → m.cnl l.load = .ok (l.load.clamped m.L) := by
    intro l hl hli
    have hp : l.load.Plain m.L := hown _ (by
      simp only [ownLoads, List.mem_map, List.mem_filter, decide_eq_true_eq]
      exact ⟨l, ⟨hl, hli⟩, rfl⟩)
    exact Member.cnl_mech m l.load hp.2.1 (hp.getCnl hL)
  obtain ⟨r, hr, hkz, href'⟩ : ∃ r : ℝ, 0 < r ∧ (∀ d, s.kb i *ᵥ d = 0) ∧
      ∀ l ∈ ls, l.iSpan = (i : ℤ) → ∀ c', m.ref l.load = .ok c' →
        c' = ⟨(l.load.clamped m.L).Va + (2 * r - 1) * (((l.load.clamped m.L).Ma
            + (l.load.clamped m.L).Mb) / m.L), 0,
          (l.load.clamped m.L).Vb - (2 * r - 1) * (((l.load.clamped m.L).Ma
            + (l.load.clamped m.L).Mb) / m.L), 0⟩ := by
    rcases hG with hG | ⟨g, hg, hG⟩
    · refine ⟨1, one_pos, fun d => ?_, fun l hl hli c' hc' => ?_⟩
      · simp only [Member.spanK, hG, hEI, hpp, Except.ok.injEq] at h1
        rw [← h1]
        ext p
        fin_cases p <;> simp [kOf, kPP, Matrix.mulVec, dotProduct, Fin.sum_univ_four]
      · have g5 := hcl l hl hli
        simp only [Member.ref, hG, hEI, hpp] at hc' g5
        simp only [g5, releaseCnl, sub_zero, Except.ok.injEq] at hc'
        rw [← hc']
        ext <;> simp <;> ring
    · have hd0 : 0 < g * m.L ^ 2 + 12 * e := by positivity
      refine ⟨g * m.L ^ 2 / (g * m.L ^ 2 + 12 * e), by positivity, fun d => ?_,
        fun l hl hli c' hc' => ?_⟩
      · obtain ⟨kff, kr, f1, f2, f3, _⟩ := C14_release_is_condensation m hgood
        have hkr : s.kb i = kr := by
          rw [f2] at h1
          exact (Except.ok.inj h1).symm
        have hkff : kff = kFFtimo e g m.L := by
          simp only [Member.spanK, hG, hEI, condenseFor] at f1
          exact (Except.ok.inj f1).symm
        obtain ⟨d', e1, e2⟩ := f3.1 d
        rw [hkr, f3.2 d d' e1 e2]
        have z1 := e2 1 (by simp [hpp, EType.released])
        have z3 := e2 3 (by simp [hpp, EType.released])
        have y0 : ∀ (y : Vec4 ℝ), (kFFtimo e g m.L *ᵥ y) 0
            = ((kFFtimo e g m.L *ᵥ y) 1 + (kFFtimo e g m.L *ᵥ y) 3) / m.L ∧
            (kFFtimo e g m.L *ᵥ y) 2
            = -((kFFtimo e g m.L *ᵥ y) 1 + (kFFtimo e g m.L *ᵥ y) 3) / m.L := by
          intro y
          simp only [mulVec4]
          simp [kFFtimo]
          constructor <;> field_simp <;> ring
        rw [hkff] at z1 z3 ⊢
        ext p
        fin_cases p
        · have := (y0 d').1
          rw [z1, z3] at this
          simpa using this
        · exact z1
        · have := (y0 d').2
          rw [z1, z3] at this
          simpa using this
        · exact z3
      · have g5 := hcl l hl hli
        simp only [Member.ref, hG, hEI, hpp] at hc' g5
        simp only [g5, releaseRef, Except.ok.injEq] at hc'
        rw [← hc']
        ext <;> simp only [refTimoFF, refFF] <;> field_simp <;> ring
  have hown' : ∀ f : Load ℝ → ℝ,
      ((ls.filter fun l => l.iSpan = (i : ℤ)).map fun l => f l.load) = (ownLoads i ls).map f := by
    intro f
    simp [ownLoads, List.map_map, Function.comp_def]
  have lin : ∀ (φ : CNL ℝ → ℝ) (_ : φ ⟨0, 0, 0, 0⟩ = 0)
      (_ : ∀ c t : CNL ℝ, φ ⟨c.Va + t.Va, c.Ma + t.Ma, c.Vb + t.Vb, c.Mb + t.Mb⟩ = φ c + φ t)
      (p q w z : ℝ) (_ : ∀ C : CNL ℝ, φ ⟨C.Va + (2 * r - 1) * ((C.Ma + C.Mb) / m.L), 0,
        C.Vb - (2 * r - 1) * ((C.Ma + C.Mb) / m.L), 0⟩
          = p * C.Va + q * C.Ma + w * C.Vb + z * C.Mb),
      φ c = p * (clampedSum m.L (ownLoads i ls)).Va + q * (clampedSum m.L (ownLoads i ls)).Ma
        + w * (clampedSum m.L (ownLoads i ls)).Vb + z * (clampedSum m.L (ownLoads i ls)).Mb := by
    intro φ h0 hadd p q w z hφ
    rw [m.refSum_lin i φ h0 hadd (fun l => p * (l.load.clamped m.L).Va
      + q * (l.load.clamped m.L).Ma + w * (l.load.clamped m.L).Vb
      + z * (l.load.clamped m.L).Mb) ls (fun l hl hli c' hc' => by
        rw [href' l hl hli c' hc', hφ]) c hc1,
      hown' (fun ld => p * (ld.clamped m.L).Va + q * (ld.clamped m.L).Ma
        + w * (ld.clamped m.L).Vb + z * (ld.clamped m.L).Mb)]
    exact sum_clamped m.L _ _ p q w z fun _ _ => rfl
  refine ⟨r, hr, fun d => ?_⟩
  have hF : s.endForces d i = s.kb i *ᵥ elemVec d i + c.vec := by
    simp only [System.endForces, hc2]
  rw [hF, hkz, zero_add]
  have a0 := lin (fun c => c.Va) rfl (fun _ _ => rfl) 1 ((2 * r - 1) / m.L) 0 ((2 * r - 1) / m.L)
    (fun C => by simp only; ring)
  have a1 := lin (fun c => c.Ma) rfl (fun _ _ => rfl) 0 0 0 0 (fun C => by simp)
  have a2 := lin (fun c => c.Vb) rfl (fun _ _ => rfl) 0 (-(2 * r - 1) / m.L) 1
    (-(2 * r - 1) / m.L) (fun C => by simp only; ring)
  have a3 := lin (fun c => c.Mb) rfl (fun _ _ => rfl) 0 0 0 0 (fun C => by simp)
  ext p
  fin_cases p <;> simp [CNL.vec, a0, a1, a2, a3] <;> ring

/-- The forces of a member of a balanced beam, as forces of the clamped slender member
whose end deflections are the bending parts of those of the member. -/
theorem BeamDef.Uniform.memberForces {b : BeamDef ℝ} {ls : List (SpanLoad ℝ)} (h : b.Uniform ls)
    (hls : b.setLoads = .ok ls) (hc : b.ShearBalanced ls) {s : System ℝ} (hs : b.system = .ok s)
    (i : ℕ) (hi : i < b.members.length) (e : ℝ) (he : b.members[i].EI = .const e) (d : ℕ → ℝ)
    (F : Vec4 ℝ) :
    F = s.endForces d i ↔ ∃ d' : Vec4 ℝ,
      (∀ p, p ∉ b.members[i].et.released → d' p = elemVec d i p) ∧
      (∀ r ∈ b.members[i].et.released, F r = 0) ∧
      F = kFF e b.members[i].L *ᵥ ![d' 0 - b.members[i].shearFlex * F 1, d' 1,
          d' 2 + b.members[i].shearFlex * (F 3 + coupleSum (ownLoads i ls)), d' 3]
        + (clampedSum b.members[i].L (ownLoads i ls)).vec := by
  by_cases hpp : b.members[i].et = .PP
  · obtain ⟨⟨e', he', hEI⟩, _⟩ := h.prismatic _ (List.getElem_mem hi)
    rw [he] at hEI
    cases hEI
    obtain ⟨r, _, hF⟩ := h.pinnedForces hls hs i hi hpp
    have hbal := (hc i hi).1 hpp
    have key := release_iff he' (h.pos _ (List.getElem_mem hi)) .PP
      (clampedSum b.members[i].L (ownLoads i ls)) (fun _ => hbal) F
      ![elemVec d i 0, 0, elemVec d i 2 + b.members[i].shearFlex * coupleSum (ownLoads i ls), 0]
    have e1 : s.endForces d i = kOf e b.members[i].L .PP *ᵥ ![elemVec d i 0, 0,
        elemVec d i 2 + b.members[i].shearFlex * coupleSum (ownLoads i ls), 0]
        + (releaseCnl (clampedSum b.members[i].L (ownLoads i ls)) b.members[i].L .PP).vec := by
      rw [hF d, hbal]
      ext p
      fin_cases p <;>
        simp [kOf, kPP, Matrix.mulVec, dotProduct, Fin.sum_univ_four, releaseCnl, CNL.vec, hbal]
    rw [e1, key, hpp]
    simp only [EType.freeLeft, EType.freeRight, if_true, EType.released]
    constructor
    · rintro ⟨t1, t3, g, g1, g3⟩
      refine ⟨![elemVec d i 0, t1, elemVec d i 2, t3], fun p hp => ?_, fun q hq => ?_, ?_⟩
      · fin_cases p
        · rfl
        · exact absurd hp (by simp)
        · rfl
        · exact absurd hp (by simp)
      · simp only [List.mem_cons, List.not_mem_nil, or_false] at hq
        rcases hq with rfl | rfl
        · exact g1
        · exact g3
      · rw [g1, g3]
        simpa using g
    · rintro ⟨d', g1, g2, g3⟩
      have z1 := g2 1 (by simp)
      have z3 := g2 3 (by simp)
      refine ⟨d' 1, d' 3, ?_, z1, z3⟩
      rw [z1, z3, g1 0 (by simp), g1 2 (by simp)] at g3
      simpa using g3
  · rw [h.endForces hls hs i hi hpp e he d F]
    have h0 : b.members[i].shearFlex * coupleSum (ownLoads i ls) = 0 := by
      by_cases hG : b.members[i].GAv = none
      · simp only [Member.shearFlex, hG, zero_mul]
      · rw [(hc i hi).2 hpp hG, mul_zero]
    simp only [mul_add, h0, add_zero]

theorem released_left (et : EType) : (1 : Fin 4) ∈ et.released ↔ et.freeLeft = true := by
  cases et <;> simp [EType.released, EType.freeLeft]

theorem released_right (et : EType) : (3 : Fin 4) ∈ et.released ↔ et.freeRight = true := by
  cases et <;> simp [EType.released, EType.freeRight]

theorem released_defl (et : EType) : (0 : Fin 4) ∉ et.released ∧ (2 : Fin 4) ∉ et.released := by
  cases et <;> simp [EType.released]

/-- A solution of the stiffness equations gives the lines of the continuous problem. -/
theorem shearBeam_of_solution {b : BeamDef ℝ} {ls : List (SpanLoad ℝ)}
    (hls : b.setLoads = .ok ls) (hb : b.Uniform ls) (hc : b.ShearBalanced ls)
    {s : System ℝ} (h1 : b.system = .ok s) {u : ℕ → ℝ} (hu : s.IsSolution u) :
    ∃ v ψ : ℕ → ℝ → ℝ, ShearBeam b ls u (s.endForces u) v ψ := by
  obtain ⟨hn, hk, _, hr, hp, _, _⟩ := BeamDef.system_ok h1
  obtain ⟨hd, hf⟩ := hu
  have key : ∀ i, ∃ v ψ : ℝ → ℝ, ∀ hi : i < b.members.length,
      (∀ e, b.members[i].EI = .const e →
        ShearSpan e b.members[i].shearFlex b.members[i].L (ownLoads i ls) (s.endForces u i) v ψ) ∧
      v 0 = u (2 * i) ∧ v b.members[i].L = u (2 * i + 2) ∧
      (if b.members[i].et.freeLeft then s.endForces u i 1 = 0 else ψ 0 = u (2 * i + 1)) ∧
      (if b.members[i].et.freeRight then s.endForces u i 3 = 0
        else ψ b.members[i].L = u (2 * i + 3)) := by
    intro i
    by_cases hi : i < b.members.length
    · obtain ⟨⟨e, he, hEI⟩, _⟩ := hb.prismatic _ (List.getElem_mem hi)
      have hL := hb.pos _ (List.getElem_mem hi)
      obtain ⟨d', g1, g2, g3⟩ := (hb.memberForces hls hc h1 i hi e hEI u
        (s.endForces u i)).1 rfl
      obtain ⟨v, ψ, k1, k2, k3, k4, k5⟩ := shearSpan_of_stiffness (g := b.members[i].shearFlex)
        he.ne' hL (hb.own hls i hi) _ d' g3
      refine ⟨v, ψ, fun _ => ⟨fun e' he' => ?_, ?_, ?_, ?_, ?_⟩⟩
      · rw [hEI] at he'
        cases he'
        exact k1
      · rw [k2, g1 0 (released_defl _).1]; rfl
      · rw [k4, g1 2 (released_defl _).2]; rfl
      · split_ifs with hfree
        · exact g2 1 ((released_left _).2 hfree)
        · rw [k3, g1 1 fun h => hfree ((released_left _).1 h)]; rfl
      · split_ifs with hfree
        · exact g2 3 ((released_right _).2 hfree)
        · rw [k5, g1 3 fun h => hfree ((released_right _).1 h)]; rfl
    · exact ⟨0, 0, fun h => absurd h hi⟩
  choose v ψ hvψ using key
  refine ⟨v, ψ, ⟨fun i hi => (hvψ i hi).1, fun i hi => (hvψ i hi).2.1, fun i hi => (hvψ i hi).2.2.1,
    fun i hi => (hvψ i hi).2.2.2.1, fun i hi => (hvψ i hi).2.2.2.2, ?_, ?_, ?_⟩⟩
  · intro p hpN w hw
    exact hd p (by simp only [System.N, hn]; exact hpN) w (by simp only [System.constr, hp, hw])
  · intro p hpN hw hneg
    exact hd p (by simp only [System.N, hn]; exact hpN) 0 (by
      simp only [System.constr, hp, hw, hr, if_pos hneg])
  · intro j hj c hw hpos
    have hc := c.isLt
    rw [nodeSum_residual h1 _ j hj c]
    exact hf _ (by simp only [System.N, hn]; omega) (by
      simp only [System.constr, hp, hw, hr, if_neg (not_lt.mpr hpos)])

/-- Lines of the continuous problem give a solution of the stiffness equations, with its end
forces. -/
theorem ShearBeam.solution {b : BeamDef ℝ} {ls : List (SpanLoad ℝ)}
    (hls : b.setLoads = .ok ls) (hb : b.Uniform ls) (hc : b.ShearBalanced ls)
    {s : System ℝ} (hs : b.system = .ok s) {u : ℕ → ℝ} {F : ℕ → Vec4 ℝ} {v ψ : ℕ → ℝ → ℝ}
    (h : ShearBeam b ls u F v ψ) :
    (∀ i < b.members.length, F i = s.endForces u i) ∧ s.IsSolution u := by
  obtain ⟨hn, hk, _, hr, hp, _, _⟩ := BeamDef.system_ok hs
  have hN : s.N = 2 * b.members.length + 2 := by simp only [System.N, hn]
  have hF : ∀ i < b.members.length, F i = s.endForces u i := by
    intro i hi
    obtain ⟨⟨e, he, hEI⟩, _⟩ := hb.prismatic _ (List.getElem_mem hi)
    have hL := hb.pos _ (List.getElem_mem hi)
    rw [hb.memberForces hls hc hs i hi e hEI u]
    have h1 := (h.span i hi e hEI).stiffness he.ne' hL (hb.own hls i hi)
    have hl := h.rotLeft i hi
    have hr := h.rotRight i hi
    refine ⟨![v i 0, ψ i 0, v i b.members[i].L, ψ i b.members[i].L], fun p hp => ?_,
      fun r hr' => ?_, h1⟩
    · fin_cases p
      · exact h.left i hi
      · rw [if_neg (fun hh => hp ((released_left _).2 hh))] at hl
        exact hl
      · exact h.right i hi
      · rw [if_neg (fun hh => hp ((released_right _).2 hh))] at hr
        exact hr
    · fin_cases r
      · exact absurd hr' (released_defl _).1
      · rw [if_pos ((released_left _).1 hr')] at hl
        exact hl
      · exact absurd hr' (released_defl _).2
      · rw [if_pos ((released_right _).1 hr')] at hr
        exact hr
  refine ⟨hF, fun p hpN w hw => ?_, fun p hpN hc => ?_⟩
  · simp only [System.constr, hp, hr] at hw
    rcases hq : b.presc.getD p none with _ | w'
    · rw [hq] at hw
      simp only at hw
      split_ifs at hw with hneg
      cases hw
      exact h.rigid p (by omega) hq hneg
    · rw [hq] at hw
      cases hw
      exact h.prescribed p (by omega) w hq
  · simp only [System.constr, hp, hr] at hc
    rcases hq : b.presc.getD p none with _ | w'
    · rw [hq] at hc
      simp only at hc
      split_ifs at hc with hneg
      have e : 2 * (p / 2) + ((⟨p % 2, Nat.mod_lt _ (by norm_num)⟩ : Fin 2) : ℕ) = p := by
        simp only; omega
      have := h.free (p / 2) (by omega) ⟨p % 2, Nat.mod_lt _ (by norm_num)⟩ (by rw [e]; exact hq)
        (by rw [e]; exact not_lt.mp hneg)
      have e2 := nodeSum_residual hs u (p / 2) (by omega) ⟨p % 2, Nat.mod_lt _ (by norm_num)⟩
      rw [e] at e2
      rw [← e2, ← this]
      simp only [nodeSum]
      congr 2
      · split_ifs with h0
        · rw [hF (p / 2 - 1) (by omega)]
        · rfl
      · split_ifs with h0
        · rw [hF (p / 2) h0]
        · rfl
    · rw [hq] at hc
      cases hc

/-- **C117, partial**: a completed analysis of a beam of slender and shear-flexible prismatic
members is a solution of the continuous problem of shear-flexible beams: there are lines that
fit the reported nodal displacements and member end forces.  What is missing are
members on which the loads do not balance, for which it is false (`C117_exact_iff`), and
tapered members. -/
theorem C117_exact_partial (b : BeamDef ℝ) (ls : List (SpanLoad ℝ)) (hls : b.setLoads = .ok ls)
    (hb : b.Uniform ls) (hc : b.ShearBalanced ls)
    (stable : System ℝ → Bool) (solve : Solver ℝ) (hs : solve.Sound) (res : Result ℝ)
    (h : b.analyze stable solve = .ok res) :
    ∃ v ψ : ℕ → ℝ → ℝ, ShearBeam b ls res.d res.fmbr v ψ := by
  obtain ⟨s, h1, h2⟩ := BeamDef.analyze_ok h
  obtain ⟨hd, _, _, hfm, _⟩ := System.analyze_ok hs h2
  rw [hfm]
  exact shearBeam_of_solution hls hb hc h1 hd

/-- **C117**: the continuous problem of a beam that is not a mechanism has at most one
solution. -/
theorem C117_unique (b : BeamDef ℝ) (ls : List (SpanLoad ℝ)) (hls : b.setLoads = .ok ls)
    (hb : b.Uniform ls) (hc : b.ShearBalanced ls)
    (s : System ℝ) (hs : b.system = .ok s)
    (hns : s.Nonsingular) (u u' : ℕ → ℝ) (F F' : ℕ → Vec4 ℝ) (v ψ v' ψ' : ℕ → ℝ → ℝ)
    (h : ShearBeam b ls u F v ψ) (h' : ShearBeam b ls u' F' v' ψ') :
    (∀ p < 2 * b.members.length + 2, u p = u' p) ∧
    (∀ i (hi : i < b.members.length), F i = F' i ∧
      ∀ x ∈ Icc 0 b.members[i].L, v i x = v' i x ∧ ψ i x = ψ' i x) := by
  obtain ⟨hn, hk, _, hr, hp, _, _⟩ := BeamDef.system_ok hs
  have hN : s.N = 2 * b.members.length + 2 := by simp only [System.N, hn]
  obtain ⟨hF, hsol⟩ := h.solution hls hb hc hs
  obtain ⟨hF', hsol'⟩ := h'.solution hls hb hc hs
  have hu : ∀ p < 2 * b.members.length + 2, u p = u' p := fun p hp' =>
    System.IsSolution.unique hns hsol hsol' p (by omega)
  have hFF : ∀ i < b.members.length, F i = F' i := by
    intro i hi
    rw [hF i hi, hF' i hi]
    have : elemVec u i = elemVec u' i := by
      ext a
      exact hu _ (by have := a.isLt; omega)
    simp only [System.endForces, this]
  refine ⟨hu, fun i hi => ⟨hFF i hi, ?_⟩⟩
  obtain ⟨⟨e, he, hEI⟩, _⟩ := hb.prismatic _ (List.getElem_mem hi)
  have hL := hb.pos _ (List.getElem_mem hi)
  have hL0 := hL.ne'
  have hE0 := he.ne'
  have s1 := h.span i hi e hEI
  have s2 := h'.span i hi e hEI
  have f1 := s1.stiffness hE0 hL (hb.own hls i hi)
  have f2 := s2.stiffness hE0 hL (hb.own hls i hi)
  obtain ⟨l1, l2⟩ := (s1.bending hL (hb.own hls i hi)).eq_line hL (hb.own hls i hi)
  obtain ⟨l3, l4⟩ := (s2.bending hL (hb.own hls i hi)).eq_line hL (hb.own hls i hi)
  have ev : v i 0 = v' i 0 := by rw [h.left i hi, h'.left i hi, hu _ (by omega)]
  have evL : v i b.members[i].L = v' i b.members[i].L := by
    rw [h.right i hi, h'.right i hi, hu _ (by omega)]
  rw [← hFF i hi] at f2 l3 l4
  have et : ψ i 0 = ψ' i 0 := by
    have f3 := f1.symm.trans f2
    rw [ev, evL] at f3
    generalize F i = G at f3
    have g1 := congrFun f3 1
    have g3 := congrFun f3 3
    simp only [kFF_mulVec] at g1 g3
    simp only [Pi.add_apply, Matrix.cons_val] at g1 g3
    have g : 6 * e / b.members[i].L * (ψ i 0 - ψ' i 0) = 0 := by
      linear_combination 2 * g1 - g3
    have g' : 6 * e / b.members[i].L ≠ 0 := by positivity
    have := (mul_eq_zero.1 g).resolve_left g'
    linarith
  intro x hx
  have a1 := l1 x hx
  have a2 := l2 x hx
  have a3 := l3 x hx
  have a4 := l4 x hx
  rw [et] at a1 a2
  rw [ev] at a2
  exact ⟨by linarith, by rw [a1, a3]⟩

/-- **C117**: a beam of slender and shear-flexible members without releases, with a rigid
vertical support and either a second one or a clamp, has exactly one solution of the
continuous problem, so what the analysis reports is the exact solution. -/
theorem C117_well_posed (b : BeamDef ℝ) (ls : List (SpanLoad ℝ)) (hls : b.setLoads = .ok ls)
    (hb : b.Uniform ls) (hc : b.ShearBalanced ls) (hff : ∀ m ∈ b.members, m.et = .FF)
    (s : System ℝ) (hs : b.system = .ok s) (i j : ℕ) (hil : i ≤ b.members.length)
    (hj : j ≤ b.members.length) (hi : b.restraints.getD (2 * i) 0 < 0)
    (hsup : (i < j ∧ b.restraints.getD (2 * j) 0 < 0) ∨ b.restraints.getD (2 * j + 1) 0 < 0) :
    (∃ u F v ψ, ShearBeam b ls u F v ψ) ∧
    ∀ u u' F F' v v' ψ ψ', ShearBeam b ls u F v ψ → ShearBeam b ls u' F' v' ψ' →
      (∀ p < 2 * b.members.length + 2, u p = u' p) ∧
      (∀ i (hi : i < b.members.length), F i = F' i ∧
        ∀ x ∈ Icc 0 b.members[i].L, v i x = v' i x ∧ ψ i x = ψ' i x) := by
  have hns := C77_adequate_supports b (fun m hm => ⟨hb.good hm, hff m hm⟩) s hs i j hil hj hi hsup
  obtain ⟨d, hd⟩ := System.exists_solution hns
  obtain ⟨v, ψ, h⟩ := shearBeam_of_solution hls hb hc hs hd
  exact ⟨⟨_, _, v, ψ, h⟩, fun u u' F F' v v' ψ ψ' h h' =>
    C117_unique b ls hls hb hc s hs hns u u' F F' v ψ v' ψ' h h'⟩

/-- **C117, violated** by couples on shear-flexible members: if their sum does not vanish, no
line fits the reported displacements and forces of the member. -/
theorem C117_couple_violation (b : BeamDef ℝ) (ls : List (SpanLoad ℝ))
    (hls : b.setLoads = .ok ls) (hb : b.Uniform ls) (stable : System ℝ → Bool)
    (solve : Solver ℝ) (hs : solve.Sound) (res : Result ℝ)
    (h : b.analyze stable solve = .ok res) (i : ℕ) (hi : i < b.members.length)
    (hpp : b.members[i].et ≠ .PP) (hG : b.members[i].GAv ≠ none)
    (hM : coupleSum (ownLoads i ls) ≠ 0) :
    ¬ ∃ v ψ : ℕ → ℝ → ℝ, ShearBeam b ls res.d res.fmbr v ψ := by
  rintro ⟨v, ψ, hE⟩
  obtain ⟨s, h1, h2⟩ := BeamDef.analyze_ok h
  obtain ⟨_, _, _, hfm, _⟩ := System.analyze_ok hs h2
  obtain ⟨⟨e, he, hEI⟩, hG'⟩ := hb.prismatic _ (List.getElem_mem hi)
  obtain ⟨g, hg, hGg⟩ := hG'.resolve_left hG
  have hL := hb.pos _ (List.getElem_mem hi)
  have hL0 := hL.ne'
  have he0 := he.ne'
  have hsf : b.members[i].shearFlex ≠ 0 := by
    simp only [Member.shearFlex, hGg]
    positivity
  obtain ⟨d', g1, g2, g3⟩ := (hb.endForces hls h1 i hi hpp e hEI res.d (s.endForces res.d i)).1 rfl
  have h3 := (hE.span i hi e hEI).stiffness he0 hL (hb.own hls i hi)
  have hl := hE.rotLeft i hi
  have hr := hE.rotRight i hi
  have hv0 : v i 0 = d' 0 := by rw [hE.left i hi, g1 0 (released_defl _).1]; rfl
  have hvL : v i b.members[i].L = d' 2 := by rw [hE.right i hi, g1 2 (released_defl _).2]; rfl
  rw [hfm] at h3
  rw [hv0, hvL] at h3
  have h4 := h3.symm.trans g3
  generalize s.endForces res.d i = G at h4
  have k0 := congrFun h4 0
  have k1 := congrFun h4 1
  have k3 := congrFun h4 3
  simp only [kFF_mulVec] at k0 k1 k3
  simp only [Pi.add_apply, Matrix.cons_val] at k0 k1 k3
  set σ := coupleSum (ownLoads i ls) with hσ
  set L := b.members[i].L with hLdef
  have q1 : ψ i 0 - d' 1 = ψ i L - d' 3 := by
    have : 2 * e / L * ((ψ i 0 - d' 1) - (ψ i L - d' 3)) = 0 := by linear_combination k1 - k3
    have := (mul_eq_zero.1 this).resolve_left (by positivity)
    linarith
  have q2 : b.members[i].shearFlex * σ = L * (ψ i 0 - d' 1) := by
    have h6 : 6 * e / L ^ 2 * (L * (ψ i 0 - d' 1) - b.members[i].shearFlex * σ) = 0 := by
      have e1 : 6 * e / L ^ 2 * L = 6 * e / L := by field_simp
      have e2 : 6 * e / L * (ψ i 0 - d' 1) = 4 * e / L * (ψ i 0 - d' 1)
          + 2 * e / L * (ψ i L - d' 3) := by rw [← q1]; ring
      linear_combination (ψ i 0 - d' 1) * e1 + e2 + k1
    have := (mul_eq_zero.1 h6).resolve_left (by positivity)
    linarith
  have q3 : ψ i 0 = d' 1 ∨ ψ i L = d' 3 := by
    by_cases hfl : b.members[i].et.freeLeft = true
    · right
      have hfr : ¬ b.members[i].et.freeRight = true := by
        intro hfr
        apply hpp
        generalize b.members[i].et = et at hfl hfr
        cases et <;> simp [EType.freeLeft, EType.freeRight] at hfl hfr ⊢
      rw [if_neg hfr] at hr
      rw [hr, g1 3 fun hh => hfr ((released_right _).1 hh)]
      rfl
    · left
      rw [if_neg hfl] at hl
      rw [hl, g1 1 fun hh => hfl ((released_left _).1 hh)]
      rfl
  have q4 : ψ i 0 - d' 1 = 0 := by
    rcases q3 with q3 | q3
    · rw [q3, sub_self]
    · rw [q1, q3, sub_self]
  rw [q4, mul_zero] at q2
  exact hM ((mul_eq_zero.1 q2).resolve_left hsf)

/-- **C117, violated** by pinned-pinned members whose clamped end moments do not balance. -/
theorem C117_pinned_violation (b : BeamDef ℝ) (ls : List (SpanLoad ℝ))
    (hls : b.setLoads = .ok ls) (hb : b.Uniform ls) (stable : System ℝ → Bool)
    (solve : Solver ℝ) (hs : solve.Sound) (res : Result ℝ)
    (h : b.analyze stable solve = .ok res) (i : ℕ) (hi : i < b.members.length)
    (hpp : b.members[i].et = .PP)
    (hM : (clampedSum b.members[i].L (ownLoads i ls)).Ma
      + (clampedSum b.members[i].L (ownLoads i ls)).Mb ≠ 0) :
    ¬ ∃ v ψ : ℕ → ℝ → ℝ, ShearBeam b ls res.d res.fmbr v ψ := by
  rintro ⟨v, ψ, hE⟩
  obtain ⟨s, h1, h2⟩ := BeamDef.analyze_ok h
  obtain ⟨_, _, _, hfm, _⟩ := System.analyze_ok hs h2
  obtain ⟨⟨e, he, hEI⟩, _⟩ := hb.prismatic _ (List.getElem_mem hi)
  have hL := hb.pos _ (List.getElem_mem hi)
  have hsp := hE.span i hi e hEI
  obtain ⟨r, hr, hF⟩ := hb.pinnedForces hls h1 i hi hpp
  have h3 := hsp.moment
  rw [hfm, hF res.d] at h3
  have h4 := (clampedSum_balance hL (hb.own hls i hi)).2
  have hL0 := hL.ne'
  simp only [Matrix.cons_val] at h3
  generalize clampedSum b.members[i].L (ownLoads i ls) = C at *
  have h5 : (C.Ma + C.Mb) / b.members[i].L * b.members[i].L = C.Ma + C.Mb := by field_simp
  have : r * (C.Ma + C.Mb) = 0 := by
    have := h3.trans h4
    linear_combination -this / 2 - (2 * r - 1) / 2 * h5
  rcases mul_eq_zero.1 this with h | h
  · exact hr.ne' h
  · exact hM h

/-- **C117**: lines of the continuous problem fit the reported displacements and forces of a
beam of slender and shear-flexible prismatic members exactly if on each pinned-pinned member
the clamped end moments of the loads balance and on each other shear-flexible member the
couples do. -/
theorem C117_exact_iff (b : BeamDef ℝ) (ls : List (SpanLoad ℝ)) (hls : b.setLoads = .ok ls)
    (hb : b.Uniform ls) (stable : System ℝ → Bool) (solve : Solver ℝ) (hs : solve.Sound)
    (res : Result ℝ) (h : b.analyze stable solve = .ok res) :
    (∃ v ψ : ℕ → ℝ → ℝ, ShearBeam b ls res.d res.fmbr v ψ) ↔
    ∀ i (hi : i < b.members.length),
      (b.members[i].et = .PP → (clampedSum b.members[i].L (ownLoads i ls)).Ma
        + (clampedSum b.members[i].L (ownLoads i ls)).Mb = 0) ∧
      (b.members[i].et ≠ .PP → b.members[i].GAv ≠ none → coupleSum (ownLoads i ls) = 0) := by
  constructor
  · intro hE i hi
    constructor
    · intro hpp
      by_contra hM
      exact C117_pinned_violation b ls hls hb stable solve hs res h i hi hpp hM hE
    · intro hpp hG
      by_contra hM
      exact C117_couple_violation b ls hls hb stable solve hs res h i hi hpp hG hM hE
  · exact fun hc => C117_exact_partial b ls hls hb hc stable solve hs res h

/-- **C117**: at every station between the two padding stations of a member the reported
shear and bending moment are those of a free-body cut of the exact solution, the moment
away from applied couples. -/
theorem C117_reported (b : BeamDef ℝ) (ls : List (SpanLoad ℝ)) (hls : b.setLoads = .ok ls)
    (hb : b.Uniform ls) (hc : b.ShearBalanced ls)
    (stable : System ℝ → Bool)
    (solve : Solver ℝ) (hs : solve.Sound) (res : Result ℝ)
    (h : b.analyze stable solve = .ok res) (npts : ℕ) (hn : 0 < npts) (sp : ℕ → List ℝ)
    (rs : List (MRes ℝ)) (hr : b.memberResults res npts sp = .ok rs) (i : ℕ)
    (hi : i < b.members.length) (hi' : i < rs.length) (k : ℕ) (hk : 0 < k)
    (hk' : k + 1 < rs[i].n) :
    rs[i].V k = cutV b.members[i].L (ownLoads i ls) (res.fmbr i) (rs[i].x k - b.nodeX i) ∧
    ((∀ ld ∈ ownLoads i ls, ∀ p ∈ ld.couplesAt, p.2 ≠ rs[i].x k - b.nodeX i) →
      rs[i].M k
        = cutM b.members[i].L (ownLoads i ls) (res.fmbr i) (rs[i].x k - b.nodeX i)) := by
  obtain ⟨v, ψ, hE⟩ := C117_exact_partial b ls hls hb hc stable solve hs res h
  obtain ⟨ls', kk, t, c, hls', _, _, _, m1, m2, m3, m4, m5, m6, hc⟩ :=
    BeamDef.results_member hs h hr i hi hi'
  rw [hls] at hls'
  cases hls'
  obtain ⟨⟨e, he, hEI⟩, _⟩ := hb.prismatic _ (List.getElem_mem hi)
  have hL := hb.pos _ (List.getElem_mem hi)
  have hown := hb.own hls i hi
  obtain ⟨x1, x2, x3, x4, x5, x6⟩ := c.x_spec (by rw [m1]; exact hL) (by rw [m5]; exact hn)
  have hst := ((hE.span i hi e hEI).bending hL hown).start hL hown
  rw [hc] at hk' ⊢
  simp only [MCtx.result] at hk' ⊢
  have hx : c.x k + b.nodeX i - b.nodeX i = c.x k := by ring
  rw [hx]
  have hIs : ¬ c.IsEnd k := by simp only [MCtx.IsEnd]; omega
  have hxI : c.x k ∈ Icc 0 b.members[i].L := by
    rw [m1] at x5
    exact ⟨x2 ▸ x6 0 k (by omega) (by omega), x5 ▸ x6 k (c.n - 1) (by omega) (by omega)⟩
  constructor
  · rw [cutV_eq hL hown _ hxI, MCtx.V, if_neg hIs, m1, m2, m3, hst]
    simp only [ssV_eq, mambStn]
    ring
  · intro hcp
    rw [cutM_eq hL hown _ hxI hcp, MCtx.M, if_neg hIs, m1, m2, m3, hst, list_sum_sub, list_sum_mul]
    simp only [ssM_eq, mambStn]
    ring

/-! ### Concrete cases -/

/-- A shear-flexible span with a point load and a slender one with a couple. -/
noncomputable def exShearBeam : BeamDef ℝ :=
  ⟨[⟨.const 6, 2, .FF, some (.const 3)⟩, ⟨.const 6, 3, .FF, none⟩], [-1, 0, -1, 0, -1, 0],
    [none, none, none, none, none, none], [⟨1, 2, [9, 1]⟩, ⟨2, 4, [5, 1]⟩]⟩

theorem exShearBeam_loads : exShearBeam.setLoads = .ok [⟨0, .pl 9 1⟩, ⟨1, .ml 5 1⟩] := by
  simp [BeamDef.setLoads, exShearBeam, parseLM, parseRow]

theorem exShearBeam_uniform : exShearBeam.Uniform [⟨0, .pl 9 1⟩, ⟨1, .ml 5 1⟩] := by
  refine ⟨?_, ?_, ?_⟩
  · simp [exShearBeam]
  · intro m hm
    simp only [exShearBeam, List.mem_cons, List.not_mem_nil, or_false] at hm
    rcases hm with rfl | rfl
    · exact ⟨⟨6, by norm_num, rfl⟩, .inr ⟨3, by norm_num, rfl⟩⟩
    · exact ⟨⟨6, by norm_num, rfl⟩, .inl rfl⟩
  · intro i hi l hl hli
    simp only [exShearBeam, List.length_cons, List.length_nil, List.mem_cons, List.not_mem_nil,
      or_false] at hi hl
    rcases hl with rfl | rfl
    · have : i = 0 := by simp only at hli; omega
      subst this
      simp [exShearBeam, Load.OnSpan, Load.IsMechanical]
    · have : i = 1 := by simp only at hli; omega
      subst this
      simp [exShearBeam, Load.OnSpan, Load.IsMechanical]

theorem exShearBeam_couples : exShearBeam.NoShearCouples [⟨0, .pl 9 1⟩, ⟨1, .ml 5 1⟩] := by
  intro i hi hG l hl hli m a
  simp only [exShearBeam, List.length_cons, List.length_nil, List.mem_cons, List.not_mem_nil,
    or_false] at hi hl
  rcases hl with rfl | rfl
  · simp
  · have : i = 1 := by simp only at hli; omega
    subst this
    simp [exShearBeam] at hG

/-- C117 at two spans: the analysis completes, its lines solve the continuous problem, and
that problem has no other solution. -/
theorem exShearBeam_analysed : ∃ (solve : Solver ℝ) (res : Result ℝ) (v ψ : ℕ → ℝ → ℝ),
    solve.Sound ∧ exShearBeam.analyze (fun _ => true) solve = .ok res ∧
    ShearBeam exShearBeam [⟨0, .pl 9 1⟩, ⟨1, .ml 5 1⟩] res.d res.fmbr v ψ ∧
    ∀ u F v' ψ', ShearBeam exShearBeam [⟨0, .pl 9 1⟩, ⟨1, .ml 5 1⟩] u F v' ψ' →
      v' 0 1 = v 0 1 ∧ ψ' 1 2 = ψ 1 2 := by
  obtain ⟨s, hs⟩ : ∃ s, exShearBeam.system = .ok s := by
    rw [BeamDef.system, exShearBeam_loads]
    simp [exShearBeam, mapE, Member.spanK, Member.refSum, Member.ref, Member.cnl, Load.getCnl,
      condenseFor, releaseRef]
  have hff : ∀ m ∈ exShearBeam.members, m.et = .FF := by
    intro m hm
    simp only [exShearBeam, List.mem_cons, List.not_mem_nil, or_false] at hm
    rcases hm with rfl | rfl <;> rfl
  have hns := C77_adequate_supports exShearBeam (fun m hm => ⟨exShearBeam_uniform.good hm, hff m hm⟩) s hs
    0 1 (by simp) (by simp [exShearBeam]) (by simp [exShearBeam]) (Or.inl (by simp [exShearBeam]))
  obtain ⟨hn, hk, _, hr, hp, _, _⟩ := BeamDef.system_ok hs
  obtain ⟨solve, hsd, res, hres⟩ := BeamDef.completes hs hns (by
    simp only [System.validate, hp]
    have : ∀ i : ℕ, exShearBeam.presc.getD i none = none := by
      intro i
      rcases i with _ | _ | _ | _ | _ | _ | i <;> simp [exShearBeam]
    simp only [this]
    simp)
  have hpp : ∀ m ∈ exShearBeam.members, m.et ≠ .PP := fun m hm => by rw [hff m hm]; simp
  obtain ⟨v, ψ, hE⟩ := C117_exact_partial exShearBeam _ exShearBeam_loads exShearBeam_uniform
    (BeamDef.shearBalanced_of exShearBeam_couples hpp) _ solve hsd res hres
  refine ⟨solve, res, v, ψ, hsd, hres, hE, fun u F v' ψ' h' => ?_⟩
  have := (C117_unique exShearBeam _ exShearBeam_loads exShearBeam_uniform
    (BeamDef.shearBalanced_of exShearBeam_couples hpp) s hs hns
    _ _ _ _ _ _ _ _ h' hE).2
  exact ⟨((this 0 (by simp [exShearBeam])).2 1 (by simp [exShearBeam])).1,
    ((this 1 (by simp [exShearBeam])).2 2 (by simp [exShearBeam]; norm_num)).2⟩

/-- A couple on a shear-flexible span between clamps. -/
noncomputable def exShearCouple : BeamDef ℝ :=
  ⟨[⟨.const 6, 3, .FF, some (.const 2)⟩], [-1, -1, -1, -1], [none, none, none, none],
    [⟨1, 4, [5, 1]⟩]⟩

/-- C117 violated: this beam is analysed but no line fits the result. -/
example : ∃ (solve : Solver ℝ) (res : Result ℝ), solve.Sound ∧
    exShearCouple.analyze (fun _ => true) solve = .ok res ∧
    ¬ ∃ v ψ : ℕ → ℝ → ℝ, ShearBeam exShearCouple [⟨0, .ml 5 1⟩] res.d res.fmbr v ψ := by
  have hls : exShearCouple.setLoads = .ok [⟨0, .ml 5 1⟩] := by
    simp [BeamDef.setLoads, exShearCouple, parseLM, parseRow]
  have hb : exShearCouple.Uniform [⟨0, .ml 5 1⟩] := by
    refine ⟨by simp [exShearCouple], ?_, ?_⟩
    · intro m hm
      simp only [exShearCouple, List.mem_cons, List.not_mem_nil, or_false] at hm
      rcases hm with rfl
      exact ⟨⟨6, by norm_num, rfl⟩, .inr ⟨2, by norm_num, rfl⟩⟩
    · intro i hi l hl hli
      simp only [exShearCouple, List.length_cons, List.length_nil, List.mem_cons,
        List.not_mem_nil, or_false] at hi hl
      rcases hl with rfl
      have : i = 0 := by omega
      subst this
      simp [exShearCouple, Load.OnSpan, Load.IsMechanical]
  obtain ⟨s, hs⟩ : ∃ s, exShearCouple.system = .ok s := by
    rw [BeamDef.system, hls]
    simp [exShearCouple, mapE, Member.spanK, Member.refSum, Member.ref, Member.cnl, Load.getCnl,
      condenseFor, releaseRef]
  obtain ⟨hn, hk, _, hr, hp, _, _⟩ := BeamDef.system_ok hs
  have hpn : ∀ i : ℕ, exShearCouple.presc.getD i none = none := by
    intro i
    rcases i with _ | _ | _ | _ | i <;> simp [exShearCouple]
  have hns : s.Nonsingular := by
    intro x hx _ p hp'
    refine hx p hp' ?_
    have h4 : p < 4 := by simpa [System.N, hn, exShearCouple] using hp'
    simp only [System.constr, hp, hpn, hr]
    interval_cases p <;> simp [exShearCouple]
  obtain ⟨solve, hsd, res, hres⟩ := BeamDef.completes hs hns (by
    simp only [System.validate, hp]
    simp only [hpn]
    simp)
  refine ⟨solve, res, hsd, hres, C117_couple_violation exShearCouple _ hls hb _ solve hsd res
    hres 0 (by simp [exShearCouple]) (by simp [exShearCouple]) (by simp [exShearCouple]) ?_⟩
  simp [ownLoads, coupleSum, Load.couplesAt]

/-- Two opposite couples on a shear-flexible span and a uniform load on a pinned-pinned one. -/
noncomputable def exShearPair : BeamDef ℝ :=
  ⟨[⟨.const 6, 3, .FF, some (.const 2)⟩, ⟨.const 6, 4, .PP, some (.const 2)⟩],
    [-1, -1, -1, -1, -1, -1], [none, none, none, none, none, none],
    [⟨1, 4, [5, 1]⟩, ⟨1, 4, [-5, 2]⟩, ⟨2, 1, [7]⟩]⟩

/-- C117 at balanced members: this beam is analysed and lines fit the result. -/
example : ∃ (solve : Solver ℝ) (res : Result ℝ), solve.Sound ∧
    exShearPair.analyze (fun _ => true) solve = .ok res ∧
    ∃ v ψ : ℕ → ℝ → ℝ,
      ShearBeam exShearPair [⟨0, .ml 5 1⟩, ⟨0, .ml (-5) 2⟩, ⟨1, .udl 7⟩] res.d res.fmbr v ψ := by
  have hls : exShearPair.setLoads = .ok [⟨0, .ml 5 1⟩, ⟨0, .ml (-5) 2⟩, ⟨1, .udl 7⟩] := by
    simp [BeamDef.setLoads, exShearPair, parseLM, parseRow]
  have hb : exShearPair.Uniform [⟨0, .ml 5 1⟩, ⟨0, .ml (-5) 2⟩, ⟨1, .udl 7⟩] := by
    refine ⟨by simp [exShearPair], ?_, ?_⟩
    · intro m hm
      simp only [exShearPair, List.mem_cons, List.not_mem_nil, or_false] at hm
      rcases hm with rfl | rfl <;> exact ⟨⟨6, by norm_num, rfl⟩, .inr ⟨2, by norm_num, rfl⟩⟩
    · intro i hi l hl hli
      simp only [exShearPair, List.length_cons, List.length_nil, List.mem_cons,
        List.not_mem_nil, or_false] at hi hl
      rcases hl with rfl | rfl | rfl
      · have : i = 0 := by simp only at hli; omega
        subst this
        norm_num [exShearPair, Load.OnSpan, Load.IsMechanical]
      · have : i = 0 := by simp only at hli; omega
        subst this
        norm_num [exShearPair, Load.OnSpan, Load.IsMechanical]
      · have : i = 1 := by simp only at hli; omega
        subst this
        norm_num [exShearPair, Load.OnSpan, Load.IsMechanical]
  obtain ⟨s, hs⟩ : ∃ s, exShearPair.system = .ok s := by
    rw [BeamDef.system, hls]
    obtain ⟨_, kr, _, f2, _⟩ := C14_release_is_condensation
      (⟨.const 6, 4, .PP, some (.const 2)⟩ : Member ℝ) (hb.good (by simp [exShearPair]))
    simp only [Member.spanK, condenseFor] at f2
    simp [exShearPair, mapE, Member.spanK, Member.refSum, Member.ref, Member.cnl, Load.getCnl,
      condenseFor, releaseRef, f2]
  obtain ⟨hn, hk, _, hr, hp, _, _⟩ := BeamDef.system_ok hs
  have hpn : ∀ i : ℕ, exShearPair.presc.getD i none = none := by
    intro i
    rcases i with _ | _ | _ | _ | _ | _ | i <;> simp [exShearPair]
  have hns : s.Nonsingular := by
    intro x hx _ p hp'
    refine hx p hp' ?_
    have h4 : p < 6 := by simpa [System.N, hn, exShearPair] using hp'
    simp only [System.constr, hp, hpn, hr]
    interval_cases p <;> simp [exShearPair]
  obtain ⟨solve, hsd, res, hres⟩ := BeamDef.completes hs hns (by
    simp only [System.validate, hp]
    simp only [hpn]
    simp)
  refine ⟨solve, res, hsd, hres, (C117_exact_iff exShearPair _ hls hb _ solve hsd res hres).2 ?_⟩
  intro i hi
  simp only [exShearPair, List.length_cons, List.length_nil] at hi
  interval_cases i
  · simp [exShearPair, ownLoads, coupleSum, Load.couplesAt]
  · simp [exShearPair, ownLoads, clampedSum, Load.clamped, Load.getCnl, udlCnl]
    norm_num

end PyCBA
