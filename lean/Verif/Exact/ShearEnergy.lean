import Verif.Exact.Shear
import Verif.Exact.Mueller

set_option linter.unusedSectionVars false
set_option linter.unusedSimpArgs false

/-!
The energy principles for beams with shear-flexible members: least potential energy, balance
of energy, stiffening and the principle of Müller-Breslau (C98, C99, C100), with the energy of
bending and of shear.
-/

namespace PyCBA

open MeasureTheory Set

/-! ### Specification -/

/-- A deflected shape of a span whose sections also shear: deflection `v`, rotation of the
sections `ψ`, curvature `κ` and shear strain `γ` (either may be undefined at finitely many
points, and has a finite energy). -/
structure ShearShape (L : ℝ) (v ψ κ γ : ℝ → ℝ) : Prop where
  slope : ∃ s : Set ℝ, s.Finite ∧ ∀ x ∈ Ioo 0 L, x ∉ s → HasDerivAt v (ψ x + γ x) x
  bend : ∃ s : Set ℝ, s.Finite ∧ ∀ x ∈ Ioo 0 L, x ∉ s → HasDerivAt ψ (κ x) x
  contV : ContinuousOn v (Icc 0 L)
  contT : ContinuousOn ψ (Icc 0 L)
  intK : IntervalIntegrable κ volume 0 L
  sqK : IntervalIntegrable (fun x => κ x ^ 2) volume 0 L
  intG : IntervalIntegrable γ volume 0 L
  sqG : IntervalIntegrable (fun x => γ x ^ 2) volume 0 L

/-- The shear rigidity of a prismatic shear-flexible member. -/
def Member.shearRig (m : Member ℝ) : ℝ :=
  match m.GAv with
  | some (.const g) => g
  | _ => 0

/-- Deflected shapes of the spans that fit together at the nodes; a released end may rotate
against its node, and only shear-flexible members shear. -/
structure ShearCompatible (b : BeamDef ℝ) (u : ℕ → ℝ) (v ψ κ γ : ℕ → ℝ → ℝ) : Prop where
  shape : ∀ i (hi : i < b.members.length), ShearShape b.members[i].L (v i) (ψ i) (κ i) (γ i)
  slender : ∀ i (hi : i < b.members.length), b.members[i].GAv = none →
    ∀ x ∈ Icc 0 b.members[i].L, γ i x = 0
  left : ∀ i < b.members.length, v i 0 = u (2 * i)
  right : ∀ i (hi : i < b.members.length), v i b.members[i].L = u (2 * i + 2)
  rotLeft : ∀ i (hi : i < b.members.length), b.members[i].et.freeLeft = false →
    ψ i 0 = u (2 * i + 1)
  rotRight : ∀ i (hi : i < b.members.length), b.members[i].et.freeRight = false →
    ψ i b.members[i].L = u (2 * i + 3)

/-- Compatible shapes that honour the supports and the prescribed displacements. -/
structure ShearAdmissible (b : BeamDef ℝ) (u : ℕ → ℝ) (v ψ κ γ : ℕ → ℝ → ℝ) : Prop extends
    ShearCompatible b u v ψ κ γ where
  prescribed : ∀ p < 2 * b.members.length + 2, ∀ w, b.presc.getD p none = some w → u p = w
  rigid : ∀ p < 2 * b.members.length + 2, b.presc.getD p none = none →
    b.restraints.getD p 0 < 0 → u p = 0

/-- Twice the strain energy of the members, in bending and in shear, and of the springs. -/
noncomputable def shearStored (b : BeamDef ℝ) (u : ℕ → ℝ) (κ γ : ℕ → ℝ → ℝ) : ℝ :=
  stored b u κ + ∑ i : Fin b.members.length,
    b.members[i].shearRig * ∫ x in (0 : ℝ)..b.members[i].L, γ i x ^ 2

/-- The potential energy of the beam in a deflected shape. -/
noncomputable def shearPotential (b : BeamDef ℝ) (ls : List (SpanLoad ℝ)) (u : ℕ → ℝ)
    (v ψ κ γ : ℕ → ℝ → ℝ) : ℝ :=
  shearStored b u κ γ / 2 - loadWork b ls v ψ

/-- The shear strain of the lines with end forces `F`. -/
noncomputable def lineGamma (b : BeamDef ℝ) (ls : List (SpanLoad ℝ)) (F : ℕ → Vec4 ℝ) (i : ℕ)
    (x : ℝ) : ℝ :=
  -((b.members.map Member.shearFlex).getD i 0
    * cutV ((b.members.map Member.L).getD i 0) (ownLoads i ls) (F i) x)

theorem lineGamma_eq (b : BeamDef ℝ) (ls : List (SpanLoad ℝ)) (F : ℕ → Vec4 ℝ) (i : ℕ)
    (hi : i < b.members.length) (x : ℝ) :
    lineGamma b ls F i x
      = -(b.members[i].shearFlex * cutV b.members[i].L (ownLoads i ls) (F i) x) := by
  simp [lineGamma, hi]

/-! ### The shears of a load -/

theorem forceLeft_pl (L P a : ℝ) :
    (Load.pl P a).forceLeft L = fun x => if a < x then P else 0 := by
  funext x
  by_cases h : a < x <;> simp [Load.forceLeft, Load.forces, Load.intensity, h]

theorem forceLeft_dist (L : ℝ) (ld : Load ℝ) (hf : ld.forces = []) :
    ld.forceLeft L = fun x => ∫ s in (0 : ℝ)..x, ld.intensity L s := by
  funext x
  simp [Load.forceLeft, hf]

theorem Load.forceLeft_tame (ld : Load ℝ) (L : ℝ) : Tame L (ld.forceLeft L) := by
  have h0 := Tame.of_continuous (L := L) (intensity_primitive ld L).1
  cases ld with
  | pl P a =>
    rw [forceLeft_pl]
    exact ite_tame (by fun_prop)
  | _ => rw [forceLeft_dist _ _ rfl]; exact h0

theorem cutV_tame (L : ℝ) (own : List (Load ℝ)) (F : Vec4 ℝ) : Tame L (cutV L own F) := by
  have h1 : Tame L fun _ : ℝ => F 0 := Tame.of_continuous continuous_const
  have h2 := Tame.list_sum (L := L) own (fun ld => ld.forceLeft L)
    fun ld _ => ld.forceLeft_tame L
  have h3 := (Tame.of_continuous (L := L) (f := fun _ => (-1 : ℝ)) continuous_const).mul h2
  have := h1.add h3
  unfold cutV
  simpa [sub_eq_add_neg] using this

/-- A slope: the part `δ` of a deflection that is due to shear. -/
structure Slip (L : ℝ) (δ γ : ℝ → ℝ) : Prop where
  slope : ∃ s : Set ℝ, s.Finite ∧ ∀ x ∈ Ioo 0 L, x ∉ s → HasDerivAt δ (γ x) x
  cont : ContinuousOn δ (Icc 0 L)
  int : IntervalIntegrable γ volume 0 L
  zero : δ 0 = 0

theorem Slip.int_gamma {L : ℝ} {δ γ : ℝ → ℝ} (h : Slip L δ γ) (a : ℝ) (ha : a ∈ Icc 0 L) :
    ∫ x in a..L, γ x = δ L - δ a := by
  obtain ⟨t, ht, hbt⟩ := h.slope
  refine integral_eq_of_hasDerivAt_off_countable_of_le δ γ ha.2 ht.countable
    (h.cont.mono (Icc_subset_Icc_left ha.1)) (fun x hx => hbt x ⟨ha.1.trans_lt hx.1.1, hx.1.2⟩ hx.2) ?_
  exact h.int.mono_set (by
    rw [uIcc_of_le ha.2, uIcc_of_le (ha.1.trans ha.2)]
    exact Icc_subset_Icc_left ha.1)

/-- The shears of a load, acting through the part of the deflection due to shear. -/
theorem Load.shear_work {L : ℝ} (hL : 0 ≤ L) (ld : Load ℝ) (ho : ld.OnSpan L) {δ γ : ℝ → ℝ}
    (h : Slip L δ γ) :
    ∫ x in (0 : ℝ)..L, ld.forceLeft L x * γ x
      = ld.total L * δ L + ld.work L δ (fun _ => 0) := by
  have hdist : ld.forces = [] → ∫ x in (0 : ℝ)..L, ld.forceLeft L x * γ x
      = ld.total L * δ L + ld.work L δ (fun _ => 0) := by
    intro h1
    rw [forceLeft_dist L ld h1]
    obtain ⟨c1, _, hd⟩ := intensity_primitive ld L
    obtain ⟨s, hs, hcs⟩ := intensity_continuousAt ld L
    obtain ⟨t, ht, hbt⟩ := h.slope
    have hv : IntervalIntegrable δ volume 0 L :=
      ContinuousOn.intervalIntegrable (by rw [uIcc_of_le hL]; exact h.cont)
    have i1 : IntervalIntegrable (fun x => (∫ s in (0 : ℝ)..x, ld.intensity L s) * γ x) volume 0 L :=
      (Tame.of_continuous c1).mul_integrable hL h.int
    have i2 : IntervalIntegrable (fun x => ld.intensity L x * δ x) volume 0 L :=
      (intensity_tame ld L).mul_integrable hL hv
    have key := integral_eq_of_hasDerivAt_off_countable_of_le
      (fun x => (∫ s in (0 : ℝ)..x, ld.intensity L s) * δ x)
      (fun x => ld.intensity L x * δ x + (∫ s in (0 : ℝ)..x, ld.intensity L s) * γ x) hL
      (s := s ∪ t) (hs.union ht).countable (c1.continuousOn.mul h.cont) (by
        intro x hx
        have hx2 : x ∉ s ∧ x ∉ t := by simpa using hx.2
        exact (hd x (hcs x hx2.1)).1.mul (hbt x hx.1 hx2.2))
      (i2.add i1)
    rw [intervalIntegral.integral_add i2 i1] at key
    have hz : (ld.couplesAt.map fun p => p.1 * (0 : ℝ)).sum = 0 := by simp
    simp only [Load.total, Load.work, h1, List.map_nil, List.sum_nil, hz]
    simp only [intervalIntegral.integral_same, zero_mul, sub_zero] at key
    linarith
  cases ld with
  | pl P a =>
    have e : (fun x => (Load.pl P a).forceLeft L x * γ x)
        = fun x => if a < x then P * γ x else 0 := by
      funext x
      rw [forceLeft_pl]
      by_cases hx : a < x <;> simp [hx]
    rw [e, integral_right ho, intervalIntegral.integral_const_mul, h.int_gamma a ho]
    simp [Load.total, Load.work, Load.forces, Load.couplesAt, Load.intensity]
    ring
  | _ => exact hdist rfl

/-! ### A span -/

/-- The bending part of a deflected shape. -/
noncomputable def bendPart (v ψ : ℝ → ℝ) (x : ℝ) : ℝ := v 0 + ∫ t in (0 : ℝ)..x, ψ t

theorem ShearShape.bendShape {L : ℝ} (hL : 0 ≤ L) {v ψ κ γ : ℝ → ℝ} (h : ShearShape L v ψ κ γ) :
    Shape L (bendPart v ψ) ψ κ := by
  have hi : IntervalIntegrable ψ volume 0 L := h.contT.intervalIntegrable_of_Icc hL
  refine ⟨fun x hx => ?_, h.bend, ?_, h.contT, h.intK, h.sqK⟩
  · have h1 : HasDerivAt (fun y => ∫ t in (0 : ℝ)..y, ψ t) (ψ x) x :=
      intervalIntegral.integral_hasDerivAt_right
        ((h.contT.mono (Icc_subset_Icc_right hx.2.le)).intervalIntegrable_of_Icc hx.1.le)
        ((h.contT.mono Ioo_subset_Icc_self).stronglyMeasurableAtFilter isOpen_Ioo x hx)
        ((h.contT.mono Ioo_subset_Icc_self).continuousAt (isOpen_Ioo.mem_nhds hx))
    exact h1.const_add (v 0)
  · have := intervalIntegral.continuousOn_primitive_interval (μ := volume) (f := ψ) (a := 0)
      (b := L) (by
        rw [uIcc_of_le hL]
        exact h.contT.integrableOn_Icc)
    rw [uIcc_of_le hL] at this
    exact continuousOn_const.add this

theorem ShearShape.slip {L : ℝ} (hL : 0 ≤ L) {v ψ κ γ : ℝ → ℝ} (h : ShearShape L v ψ κ γ) :
    Slip L (fun x => v x - bendPart v ψ x) γ := by
  obtain ⟨s, hs, hd⟩ := h.slope
  have hb := h.bendShape hL
  refine ⟨⟨s, hs, fun x hx hn => ?_⟩, h.contV.sub hb.contV, h.intG, by simp [bendPart]⟩
  exact ((hd x hx hn).sub (hb.slope x hx)).congr_deriv (by ring)

/-- **Virtual work of a span**: in a span in equilibrium the bending moments and shears, acting
through the curvature and the shear strain of any shape, do the work of the end forces and the
loads. -/
theorem shear_span_virtual_work {L : ℝ} (hL : 0 ≤ L) (own : List (Load ℝ)) (F : Vec4 ℝ)
    (ho : ∀ ld ∈ own, ld.OnSpan L)
    (hf : F 0 + F 2 = (own.map fun ld => ld.total L).sum)
    (hm : F 1 + F 3 + F 2 * L = (own.map fun ld => ld.momentAboutLeft L).sum)
    {v ψ κ γ : ℝ → ℝ} (h : ShearShape L v ψ κ γ) :
    (∫ x in (0 : ℝ)..L, cutM L own F x * κ x) - ∫ x in (0 : ℝ)..L, cutV L own F x * γ x
      = F 0 * v 0 + F 1 * ψ 0 + F 2 * v L + F 3 * ψ L + (own.map fun ld => ld.work L v ψ).sum := by
  have hb := h.bendShape hL
  have hs := h.slip hL
  have w := span_virtual_work hL own F ho hf hm hb
  have t1 : Tame L fun _ : ℝ => F 0 := Tame.of_continuous continuous_const
  have t2 := Tame.list_sum (L := L) own (fun ld => ld.forceLeft L)
    fun ld _ => ld.forceLeft_tame L
  have e1 : ∫ x in (0 : ℝ)..L, cutV L own F x * γ x
      = (∫ x in (0 : ℝ)..L, F 0 * γ x)
        - ∫ x in (0 : ℝ)..L, (own.map fun ld => ld.forceLeft L x).sum * γ x := by
    rw [← intervalIntegral.integral_sub (t1.mul_integrable hL h.intG) (t2.mul_integrable hL h.intG)]
    congr 1
    funext x
    simp only [cutV]
    ring
  have k0 := hs.int_gamma 0 ⟨le_rfl, hL⟩
  have hz := hs.zero
  have e3 : (own.map fun ld => ∫ x in (0 : ℝ)..L, ld.forceLeft L x * γ x).sum
      = (own.map fun ld => ld.total L).sum * (v L - bendPart v ψ L)
        + ((own.map fun ld => ld.work L v ψ).sum
          - (own.map fun ld => ld.work L (bendPart v ψ) ψ).sum) := by
    clear e1 hf hm t2 w
    induction own with
    | nil => simp
    | cons a l ih =>
      simp only [List.map_cons, List.sum_cons]
      have := Load.work_sub hL a (θ := ψ) (θ' := ψ) h.contV hb.contV
      simp only [sub_self] at this
      rw [ih fun b hb => ho b (List.mem_cons_of_mem _ hb), Load.shear_work hL a (ho a (by simp)) hs,
        this]
      ring
  rw [e1, intervalIntegral.integral_const_mul, k0,
    integral_list_sum hL own _ (fun ld _ => ld.forceLeft_tame L) h.intG, e3, ← hf, w]
  have hz' : bendPart v ψ 0 = v 0 := by linarith
  rw [hz']
  ring

/-! ### The whole beam -/

theorem Uniform.const {b : BeamDef ℝ} {ls : List (SpanLoad ℝ)} (hb : b.Uniform ls) (i : ℕ)
    (hi : i < b.members.length) :
    0 < b.members[i].flexRig ∧ b.members[i].EI = .const b.members[i].flexRig := by
  obtain ⟨⟨e, he, h⟩, _⟩ := hb.prismatic _ (List.getElem_mem hi)
  simp only [Member.flexRig, h]
  exact ⟨he, trivial⟩

/-- A member is slender, or its shear rigidity is positive. -/
theorem Uniform.shear {b : BeamDef ℝ} {ls : List (SpanLoad ℝ)} (hb : b.Uniform ls) (i : ℕ)
    (hi : i < b.members.length) :
    (b.members[i].GAv = none ∧ b.members[i].shearRig = 0 ∧ b.members[i].shearFlex = 0) ∨
    (b.members[i].GAv ≠ none ∧ 0 < b.members[i].shearRig ∧
      b.members[i].shearFlex = 1 / b.members[i].shearRig) := by
  obtain ⟨_, h | ⟨g, hg, h⟩⟩ := hb.prismatic _ (List.getElem_mem hi)
  · exact .inl ⟨h, by simp [Member.shearRig, h], by simp [Member.shearFlex, h]⟩
  · exact .inr ⟨by simp [h], by simp [Member.shearRig, h, hg],
      by simp [Member.shearRig, Member.shearFlex, h]⟩

theorem Uniform.onSpan {b : BeamDef ℝ} {ls : List (SpanLoad ℝ)} (hb : b.Uniform ls) (i : ℕ)
    (hi : i < b.members.length) : ∀ ld ∈ ownLoads i ls, ld.OnSpan b.members[i].L := by
  intro ld hld
  simp only [ownLoads, List.mem_map, List.mem_filter, decide_eq_true_eq] at hld
  obtain ⟨l, ⟨h1, h2⟩, rfl⟩ := hld
  exact (hb.loads i hi l h1 h2).1

theorem ShearBeam.elastic {b : BeamDef ℝ} {ls : List (SpanLoad ℝ)} (hb : b.Uniform ls)
    {u : ℕ → ℝ} {F : ℕ → Vec4 ℝ} {v ψ : ℕ → ℝ → ℝ} (h : ShearBeam b ls u F v ψ) (i : ℕ)
    (hi : i < b.members.length) :
    ShearSpan b.members[i].flexRig b.members[i].shearFlex b.members[i].L (ownLoads i ls) (F i)
      (v i) (ψ i) :=
  h.span i hi _ (Uniform.const hb i hi).2

/-- **Virtual work of the beam**. -/
theorem shear_virtual_work {b : BeamDef ℝ} {ls : List (SpanLoad ℝ)} (hb : b.Uniform ls)
    {u : ℕ → ℝ} {F : ℕ → Vec4 ℝ} {v ψ : ℕ → ℝ → ℝ} (h : ShearBeam b ls u F v ψ)
    {y : ℕ → ℝ} {η φ κ γ : ℕ → ℝ → ℝ} (hc : ShearCompatible b y η φ κ γ) :
    (∑ i : Fin b.members.length, ((∫ x in (0 : ℝ)..b.members[i].L,
        cutM b.members[i].L (ownLoads i ls) (F i) x * κ i x)
        - ∫ x in (0 : ℝ)..b.members[i].L,
        cutV b.members[i].L (ownLoads i ls) (F i) x * γ i x))
      + ∑ p ∈ Finset.range (2 * b.members.length + 2), b.springK p * u p * y p
      = (∑ j ∈ Finset.range (b.members.length + 1), ∑ c : Fin 2,
          y (2 * j + c) * nodeSum b u F j c) + loadWork b ls η φ := by
  rw [node_work, loadWork, add_right_comm, ← Finset.sum_add_distrib]
  congr 1
  refine Finset.sum_congr rfl fun i _ => ?_
  have hE := h.elastic hb i i.2
  have hL := hb.pos _ (List.getElem_mem i.2)
  have hw := shear_span_virtual_work hL.le (ownLoads i ls) (F i) (Uniform.onSpan hb i i.2) hE.force
    hE.moment (hc.shape i i.2)
  have e1 : F i 1 * φ i 0 = F i 1 * y (2 * i + 1) := by
    have hr := h.rotLeft i i.2
    by_cases hf : b.members[(i : ℕ)].et.freeLeft
    · rw [if_pos hf] at hr
      rw [hr]
      ring
    · rw [hc.rotLeft i i.2 (by simpa using hf)]
  have e2 : F i 3 * φ i b.members[(i : ℕ)].L = F i 3 * y (2 * i + 3) := by
    have hr := h.rotRight i i.2
    by_cases hf : b.members[(i : ℕ)].et.freeRight
    · rw [if_pos hf] at hr
      rw [hr]
      ring
    · rw [hc.rotRight i i.2 (by simpa using hf)]
  simp only [Fin.getElem_fin] at hw ⊢
  rw [hw, hc.left i i.2, hc.right i i.2, e1, e2]

theorem shear_node_work_zero {b : BeamDef ℝ} {ls : List (SpanLoad ℝ)} {u : ℕ → ℝ}
    {F : ℕ → Vec4 ℝ} {v ψ : ℕ → ℝ → ℝ} (h : ShearBeam b ls u F v ψ) {y : ℕ → ℝ}
    (hy : ∀ p < 2 * b.members.length + 2, (b.presc.getD p none).isSome ∨ b.restraints.getD p 0 < 0 →
      y p = 0) :
    ∑ j ∈ Finset.range (b.members.length + 1), ∑ c : Fin 2, y (2 * j + c) * nodeSum b u F j c = 0 := by
  refine Finset.sum_eq_zero fun j hj => Finset.sum_eq_zero fun c _ => ?_
  have hj' : j ≤ b.members.length := by have := Finset.mem_range.1 hj; omega
  have hlt : 2 * j + (c : ℕ) < 2 * b.members.length + 2 := by omega
  rcases hp : b.presc.getD (2 * j + c) none with _ | w
  · by_cases hr : b.restraints.getD (2 * j + c) 0 < 0
    · rw [hy _ hlt (.inr hr), zero_mul]
    · rw [h.free j hj' c hp (not_lt.1 hr), mul_zero]
  · rw [hy _ hlt (.inl (by rw [hp]; rfl)), zero_mul]

theorem tame_sq {L c : ℝ} (hL : 0 ≤ L) {f : ℝ → ℝ} (hf : Tame L f) :
    IntervalIntegrable (fun x => c * f x) volume 0 L ∧
    IntervalIntegrable (fun x => (c * f x) ^ 2) volume 0 L := by
  have h1 := (Tame.of_continuous (L := L) (f := fun _ => c) continuous_const).mul hf
  exact ⟨h1.integrable hL, by simpa [pow_two] using (h1.mul h1).integrable hL⟩

theorem ShearSpan.shape {EI g L : ℝ} (hL : 0 ≤ L) {own : List (Load ℝ)} {F : Vec4 ℝ}
    {v ψ : ℝ → ℝ} (h : ShearSpan EI g L own F v ψ) :
    ShearShape L v ψ (fun x => cutM L own F x / EI) (fun x => -(g * cutV L own F x)) := by
  have fin : ∀ f : Load ℝ → List (ℝ × ℝ), {x | ∃ ld ∈ own, ∃ p ∈ f ld, p.2 = x}.Finite := by
    intro f
    have : {x | ∃ ld ∈ own, ∃ p ∈ f ld, p.2 = x}
        = ⋃ ld ∈ {ld | ld ∈ own}, ⋃ p ∈ {p | p ∈ f ld}, {p.2} := by
      ext x
      simp [eq_comm]
    rw [this]
    exact (List.finite_toSet own).biUnion fun ld _ =>
      (List.finite_toSet (f ld)).biUnion fun p _ => finite_singleton _
  obtain ⟨k1, k2⟩ := tame_sq (c := EI⁻¹) hL (cutM_tame L own F)
  obtain ⟨g1, g2⟩ := tame_sq (c := -g) hL (cutV_tame L own F)
  refine ⟨⟨_, fin Load.forces, fun x hx hns => ?_⟩, ⟨_, fin Load.couplesAt, fun x hx hns => ?_⟩,
    h.contV, h.contT, ?_, ?_, ?_, ?_⟩
  · exact (h.slope x hx fun ld hl p hp he => hns ⟨ld, hl, p, hp, he⟩).congr_deriv (by ring)
  · exact h.curvature x hx fun ld hl p hp he => hns ⟨ld, hl, p, hp, he⟩
  · simpa [div_eq_inv_mul] using k1
  · simpa [div_eq_inv_mul] using k2
  · simpa using g1
  · simpa using g2

/-- The solution is itself an admissible shape. -/
theorem ShearBeam.admissible {b : BeamDef ℝ} {ls : List (SpanLoad ℝ)} (hb : b.Uniform ls)
    {u : ℕ → ℝ} {F : ℕ → Vec4 ℝ} {v ψ : ℕ → ℝ → ℝ} (h : ShearBeam b ls u F v ψ) :
    ShearAdmissible b u v ψ (lineKappa b ls F) (lineGamma b ls F) where
  shape i hi := by
    have := (h.elastic hb i hi).shape (hb.pos _ (List.getElem_mem hi)).le
    rwa [show lineKappa b ls F i = _ from funext fun x => lineKappa_eq b ls F i hi x,
      show lineGamma b ls F i = _ from funext fun x => lineGamma_eq b ls F i hi x]
  slender i hi hn x _ := by
    rw [lineGamma_eq b ls F i hi]
    rcases Uniform.shear hb i hi with ⟨_, _, h0⟩ | ⟨h0, _⟩
    · rw [h0]; ring
    · exact absurd hn h0
  left := h.left
  right := h.right
  rotLeft i hi hf := by
    have := h.rotLeft i hi
    rwa [if_neg (by simp [hf])] at this
  rotRight i hi hf := by
    have := h.rotRight i hi
    rwa [if_neg (by simp [hf])] at this
  prescribed := h.prescribed
  rigid := h.rigid

theorem sq_sub_integrable {L : ℝ} (hL : 0 ≤ L) {κ κ' : ℝ → ℝ}
    (i : IntervalIntegrable κ volume 0 L) (i' : IntervalIntegrable κ' volume 0 L)
    (h1 : IntervalIntegrable (fun x => κ x ^ 2) volume 0 L)
    (h2 : IntervalIntegrable (fun x => κ' x ^ 2) volume 0 L) :
    IntervalIntegrable (fun x => (κ x - κ' x) ^ 2) volume 0 L := by
  have h3 := i.sub i'
  rw [intervalIntegrable_iff_integrableOn_Ioc_of_le hL] at h1 h2 h3 ⊢
  refine ((h1.const_mul 2).add (h2.const_mul 2)).mono (h3.aestronglyMeasurable.pow 2) ?_
  filter_upwards with x
  simp only [Real.norm_eq_abs, Pi.add_apply, Pi.pow_apply]
  rw [abs_of_nonneg (by positivity), abs_of_nonneg (by positivity)]
  nlinarith [sq_nonneg (κ x + κ' x)]

theorem ShearShape.sub {L : ℝ} (hL : 0 ≤ L) {v ψ κ γ v' ψ' κ' γ' : ℝ → ℝ}
    (h : ShearShape L v ψ κ γ) (h' : ShearShape L v' ψ' κ' γ') :
    ShearShape L (fun x => v x - v' x) (fun x => ψ x - ψ' x) (fun x => κ x - κ' x)
      (fun x => γ x - γ' x) where
  slope := by
    obtain ⟨s, hs, hd⟩ := h.slope
    obtain ⟨s', hs', hd'⟩ := h'.slope
    refine ⟨s ∪ s', hs.union hs', fun x hx hn => ?_⟩
    simp only [mem_union, not_or] at hn
    exact ((hd x hx hn.1).sub (hd' x hx hn.2)).congr_deriv (by ring)
  bend := by
    obtain ⟨s, hs, hd⟩ := h.bend
    obtain ⟨s', hs', hd'⟩ := h'.bend
    refine ⟨s ∪ s', hs.union hs', fun x hx hn => ?_⟩
    simp only [mem_union, not_or] at hn
    exact (hd x hx hn.1).sub (hd' x hx hn.2)
  contV := h.contV.sub h'.contV
  contT := h.contT.sub h'.contT
  intK := h.intK.sub h'.intK
  sqK := sq_sub_integrable hL h.intK h'.intK h.sqK h'.sqK
  intG := h.intG.sub h'.intG
  sqG := sq_sub_integrable hL h.intG h'.intG h.sqG h'.sqG

theorem ShearCompatible.sub {b : BeamDef ℝ} {ls : List (SpanLoad ℝ)} (hb : b.Uniform ls)
    {u u' : ℕ → ℝ} {v ψ κ γ v' ψ' κ' γ' : ℕ → ℝ → ℝ} (h : ShearCompatible b u v ψ κ γ)
    (h' : ShearCompatible b u' v' ψ' κ' γ') :
    ShearCompatible b (fun p => u p - u' p) (fun i x => v i x - v' i x)
      (fun i x => ψ i x - ψ' i x) (fun i x => κ i x - κ' i x) (fun i x => γ i x - γ' i x) where
  shape i hi := (h.shape i hi).sub (hb.pos _ (List.getElem_mem hi)).le (h'.shape i hi)
  slender i hi hn x hx := by simp only [h.slender i hi hn x hx, h'.slender i hi hn x hx, sub_self]
  left i hi := by simp only [h.left i hi, h'.left i hi]
  right i hi := by simp only [h.right i hi, h'.right i hi]
  rotLeft i hi hf := by simp only [h.rotLeft i hi hf, h'.rotLeft i hi hf]
  rotRight i hi hf := by simp only [h.rotRight i hi hf, h'.rotRight i hi hf]

theorem shear_loadWork_sub {b : BeamDef ℝ} {ls : List (SpanLoad ℝ)} (hb : b.Uniform ls)
    {u u' : ℕ → ℝ} {v ψ κ γ v' ψ' κ' γ' : ℕ → ℝ → ℝ} (h : ShearCompatible b u v ψ κ γ)
    (h' : ShearCompatible b u' v' ψ' κ' γ') :
    loadWork b ls (fun i x => v i x - v' i x) (fun i x => ψ i x - ψ' i x)
      = loadWork b ls v ψ - loadWork b ls v' ψ' := by
  simp only [loadWork, ← Finset.sum_sub_distrib]
  refine Finset.sum_congr rfl fun i _ => ?_
  rw [← list_sum_sub]
  congr 1
  refine List.map_congr_left fun ld _ => ?_
  exact ld.work_sub (hb.pos _ (List.getElem_mem i.2)).le (h.shape i i.2).contV (h'.shape i i.2).contV

/-- Away from the solution the potential energy grows by the energy stored in the
difference. -/
theorem shear_potential_expand {b : BeamDef ℝ} {ls : List (SpanLoad ℝ)} (hb : b.Uniform ls)
    {u : ℕ → ℝ} {F : ℕ → Vec4 ℝ} {v ψ : ℕ → ℝ → ℝ} (h : ShearBeam b ls u F v ψ)
    {u' : ℕ → ℝ} {v' ψ' κ' γ' : ℕ → ℝ → ℝ} (h' : ShearAdmissible b u' v' ψ' κ' γ') :
    shearPotential b ls u' v' ψ' κ' γ'
      = shearPotential b ls u v ψ (lineKappa b ls F) (lineGamma b ls F)
      + shearStored b (fun p => u' p - u p) (fun i x => κ' i x - lineKappa b ls F i x)
          (fun i x => γ' i x - lineGamma b ls F i x) / 2 := by
  have ha := h.admissible hb
  have hd := h'.toShearCompatible.sub hb ha.toShearCompatible
  have hw := shear_virtual_work hb h hd
  rw [shear_node_work_zero h (y := fun p => u' p - u p) (by
    intro p hp hcon
    rcases hpr : b.presc.getD p none with _ | w
    · rcases hcon with hs | hr
      · rw [hpr] at hs; cases hs
      · simp only [h'.rigid p hp hpr hr, h.rigid p hp hpr hr, sub_self]
    · simp only [h'.prescribed p hp w hpr, h.prescribed p hp w hpr, sub_self]), zero_add,
    shear_loadWork_sub hb h'.toShearCompatible ha.toShearCompatible,
    Finset.sum_sub_distrib] at hw
  have hspan : ∀ i : Fin b.members.length,
      b.members[i].flexRig * ∫ x in (0 : ℝ)..b.members[i].L, κ' i x ^ 2
      = (b.members[i].flexRig * ∫ x in (0 : ℝ)..b.members[i].L, lineKappa b ls F i x ^ 2)
        + 2 * (∫ x in (0 : ℝ)..b.members[i].L,
          cutM b.members[i].L (ownLoads i ls) (F i) x * (κ' i x - lineKappa b ls F i x))
        + b.members[i].flexRig * ∫ x in (0 : ℝ)..b.members[i].L,
          (κ' i x - lineKappa b ls F i x) ^ 2 := by
    intro i
    have hL := (hb.pos _ (List.getElem_mem i.2)).le
    have hE := (Uniform.const hb i i.2).1
    have i1 := (ha.shape i i.2).sqK
    have i2 := (cutM_tame b.members[(i : ℕ)].L (ownLoads i ls) (F i)).mul_integrable hL
      (hd.shape i i.2).intK
    have i3 := (hd.shape i i.2).sqK
    simp only [Fin.getElem_fin]
    rw [← intervalIntegral.integral_const_mul, ← intervalIntegral.integral_const_mul,
      ← intervalIntegral.integral_const_mul, ← intervalIntegral.integral_const_mul,
      ← intervalIntegral.integral_add (i1.const_mul _) (i2.const_mul _),
      ← intervalIntegral.integral_add ((i1.const_mul _).add (i2.const_mul _)) (i3.const_mul _)]
    congr 1
    funext x
    rw [lineKappa_eq b ls F i i.2]
    field_simp
    ring
  have hshear : ∀ i : Fin b.members.length,
      b.members[i].shearRig * ∫ x in (0 : ℝ)..b.members[i].L, γ' i x ^ 2
      = (b.members[i].shearRig * ∫ x in (0 : ℝ)..b.members[i].L, lineGamma b ls F i x ^ 2)
        - 2 * (∫ x in (0 : ℝ)..b.members[i].L,
          cutV b.members[i].L (ownLoads i ls) (F i) x * (γ' i x - lineGamma b ls F i x))
        + b.members[i].shearRig * ∫ x in (0 : ℝ)..b.members[i].L,
          (γ' i x - lineGamma b ls F i x) ^ 2 := by
    intro i
    have hL := (hb.pos _ (List.getElem_mem i.2)).le
    have i1 := (ha.shape i i.2).sqG
    have i2 := (cutV_tame b.members[(i : ℕ)].L (ownLoads i ls) (F i)).mul_integrable hL
      (hd.shape i i.2).intG
    have i3 := (hd.shape i i.2).sqG
    simp only [Fin.getElem_fin]
    rcases Uniform.shear hb i i.2 with ⟨hn, h0, _⟩ | ⟨_, hg, hfl⟩
    · rw [h0]
      have : ∫ x in (0 : ℝ)..b.members[(i : ℕ)].L,
          cutV b.members[(i : ℕ)].L (ownLoads i ls) (F i) x * (γ' i x - lineGamma b ls F i x)
          = ∫ x in (0 : ℝ)..b.members[(i : ℕ)].L, (0 : ℝ) := by
        refine intervalIntegral.integral_congr fun x hx => ?_
        rw [uIcc_of_le hL] at hx
        simp only [h'.slender i i.2 hn x hx, ha.slender i i.2 hn x hx, sub_self, mul_zero]
      rw [this]
      simp
    · rw [← intervalIntegral.integral_const_mul, ← intervalIntegral.integral_const_mul,
        ← intervalIntegral.integral_const_mul, ← intervalIntegral.integral_const_mul,
        ← intervalIntegral.integral_sub (i1.const_mul _) (i2.const_mul _),
        ← intervalIntegral.integral_add ((i1.const_mul _).sub (i2.const_mul _)) (i3.const_mul _)]
      congr 1
      funext x
      rw [lineGamma_eq b ls F i i.2, hfl]
      field_simp
      ring
  have hspr : ∑ p ∈ Finset.range (2 * b.members.length + 2), b.springK p * u' p ^ 2
      = (∑ p ∈ Finset.range (2 * b.members.length + 2), b.springK p * u p ^ 2)
        + 2 * (∑ p ∈ Finset.range (2 * b.members.length + 2), b.springK p * u p * (u' p - u p))
        + ∑ p ∈ Finset.range (2 * b.members.length + 2), b.springK p * (u' p - u p) ^ 2 := by
    rw [Finset.mul_sum, ← Finset.sum_add_distrib, ← Finset.sum_add_distrib]
    exact Finset.sum_congr rfl fun p _ => by ring
  have hmem : ∑ i : Fin b.members.length,
      b.members[i].flexRig * ∫ x in (0 : ℝ)..b.members[i].L, κ' i x ^ 2
      = (∑ i : Fin b.members.length,
          b.members[i].flexRig * ∫ x in (0 : ℝ)..b.members[i].L, lineKappa b ls F i x ^ 2)
        + 2 * (∑ i : Fin b.members.length, ∫ x in (0 : ℝ)..b.members[i].L,
          cutM b.members[i].L (ownLoads i ls) (F i) x * (κ' i x - lineKappa b ls F i x))
        + ∑ i : Fin b.members.length, b.members[i].flexRig * ∫ x in (0 : ℝ)..b.members[i].L,
          (κ' i x - lineKappa b ls F i x) ^ 2 := by
    rw [Finset.mul_sum, ← Finset.sum_add_distrib, ← Finset.sum_add_distrib]
    exact Finset.sum_congr rfl fun i _ => hspan i
  have hmemG : ∑ i : Fin b.members.length,
      b.members[i].shearRig * ∫ x in (0 : ℝ)..b.members[i].L, γ' i x ^ 2
      = (∑ i : Fin b.members.length,
          b.members[i].shearRig * ∫ x in (0 : ℝ)..b.members[i].L, lineGamma b ls F i x ^ 2)
        - 2 * (∑ i : Fin b.members.length, ∫ x in (0 : ℝ)..b.members[i].L,
          cutV b.members[i].L (ownLoads i ls) (F i) x * (γ' i x - lineGamma b ls F i x))
        + ∑ i : Fin b.members.length, b.members[i].shearRig * ∫ x in (0 : ℝ)..b.members[i].L,
          (γ' i x - lineGamma b ls F i x) ^ 2 := by
    rw [Finset.mul_sum, ← Finset.sum_sub_distrib, ← Finset.sum_add_distrib]
    exact Finset.sum_congr rfl fun i _ => hshear i
  simp only [shearPotential, shearStored, stored]
  rw [hmem, hmemG, hspr]
  linear_combination hw

theorem shearStored_nonneg {b : BeamDef ℝ} {ls : List (SpanLoad ℝ)} (hb : b.Uniform ls) (u : ℕ → ℝ)
    (κ γ : ℕ → ℝ → ℝ) : 0 ≤ shearStored b u κ γ := by
  have nn : ∀ (i : Fin b.members.length) (f : ℝ → ℝ),
      0 ≤ ∫ x in (0 : ℝ)..b.members[i].L, f x ^ 2 := fun i f =>
    intervalIntegral.integral_nonneg (hb.pos _ (List.getElem_mem i.2)).le fun x _ => sq_nonneg _
  refine add_nonneg (add_nonneg (Finset.sum_nonneg fun i _ => ?_) (Finset.sum_nonneg fun p _ => ?_))
    (Finset.sum_nonneg fun i _ => ?_)
  · exact mul_nonneg (Uniform.const hb i i.2).1.le (nn i _)
  · exact mul_nonneg (le_max_right _ _) (sq_nonneg _)
  · refine mul_nonneg ?_ (nn i _)
    rcases Uniform.shear hb i i.2 with ⟨_, h0, _⟩ | ⟨_, hg, _⟩
    · exact h0.ge
    · exact hg.le

/-- A shape without stored energy is a rigid motion: its deflection has the slope of its
rotation, which is constant. -/
theorem ShearShape.rigid {L : ℝ} (hL : 0 ≤ L) {v ψ κ γ : ℝ → ℝ} (h : ShearShape L v ψ κ γ)
    (h0 : ∫ x in (0 : ℝ)..L, κ x ^ 2 = 0) (h1 : ∫ x in (0 : ℝ)..L, γ x ^ 2 = 0) (x : ℝ)
    (hx : x ∈ Icc 0 L) : ψ x = ψ L ∧ v x = bendPart v ψ x := by
  refine ⟨((h.bendShape hL).rigid hL h0 x hx).1, ?_⟩
  have hs := h.slip hL
  have hae : γ =ᵐ[volume.restrict (Ioc 0 L)] 0 := by
    rw [intervalIntegral.integral_of_le hL] at h1
    have hi := h.sqG
    rw [intervalIntegrable_iff_integrableOn_Ioc_of_le hL] at hi
    have := (integral_eq_zero_iff_of_nonneg (fun x => sq_nonneg (γ x)) hi).1 h1
    filter_upwards [this] with y hy
    simpa using hy
  have hz : ∀ y ∈ Icc 0 L, ∫ t in y..L, γ t = 0 := by
    intro y hy
    rw [intervalIntegral.integral_of_le hy.2]
    have h1 : γ =ᵐ[volume.restrict (Ioc y L)] 0 :=
      hae.filter_mono (ae_mono (Measure.restrict_mono (Ioc_subset_Ioc_left hy.1) le_rfl))
    exact integral_eq_zero_of_ae h1
  have e1 := hs.int_gamma x hx
  have e2 := hs.int_gamma 0 ⟨le_rfl, hL⟩
  rw [hz x hx] at e1
  rw [hz 0 ⟨le_rfl, hL⟩] at e2
  have e3 := hs.zero
  linarith

/-- An admissible shape with no more potential energy than a solution solves the beam
problem with the same end forces. -/
theorem ShearBeam.of_potential {b : BeamDef ℝ} {ls : List (SpanLoad ℝ)} (hb : b.Uniform ls)
    {u : ℕ → ℝ} {F : ℕ → Vec4 ℝ} {v ψ : ℕ → ℝ → ℝ} (h : ShearBeam b ls u F v ψ)
    {u' : ℕ → ℝ} {v' ψ' κ' γ' : ℕ → ℝ → ℝ} (h' : ShearAdmissible b u' v' ψ' κ' γ')
    (hle : shearPotential b ls u' v' ψ' κ' γ'
      ≤ shearPotential b ls u v ψ (lineKappa b ls F) (lineGamma b ls F)) :
    ShearBeam b ls u' F v' ψ' := by
  have ha := h.admissible hb
  have hd := h'.toShearCompatible.sub hb ha.toShearCompatible
  rw [shear_potential_expand hb h h'] at hle
  have hnn := shearStored_nonneg hb (fun p => u' p - u p)
    (fun i x => κ' i x - lineKappa b ls F i x) (fun i x => γ' i x - lineGamma b ls F i x)
  have hz : shearStored b (fun p => u' p - u p) (fun i x => κ' i x - lineKappa b ls F i x)
      (fun i x => γ' i x - lineGamma b ls F i x) = 0 := by
    linarith
  have nn : ∀ (i : Fin b.members.length) (f : ℝ → ℝ),
      0 ≤ ∫ x in (0 : ℝ)..b.members[i].L, f x ^ 2 := fun i f =>
    intervalIntegral.integral_nonneg (hb.pos _ (List.getElem_mem i.2)).le fun x _ => sq_nonneg _
  have n1 : ∀ i : Fin b.members.length, 0 ≤ b.members[i].flexRig *
      ∫ x in (0 : ℝ)..b.members[i].L, (κ' i x - lineKappa b ls F i x) ^ 2 := fun i =>
    mul_nonneg (Uniform.const hb i i.2).1.le (nn i _)
  have n2 : ∀ p, 0 ≤ b.springK p * (u' p - u p) ^ 2 := fun p =>
    mul_nonneg (le_max_right _ _) (sq_nonneg _)
  have n3 : ∀ i : Fin b.members.length, 0 ≤ b.members[i].shearRig *
      ∫ x in (0 : ℝ)..b.members[i].L, (γ' i x - lineGamma b ls F i x) ^ 2 := fun i => by
    refine mul_nonneg ?_ (nn i _)
    rcases Uniform.shear hb i i.2 with ⟨_, h0, _⟩ | ⟨_, hg, _⟩
    · exact h0.ge
    · exact hg.le
  have s1 := Finset.sum_nonneg fun i (_ : i ∈ Finset.univ) => n1 i
  have s2 := Finset.sum_nonneg fun p (_ : p ∈ Finset.range (2 * b.members.length + 2)) => n2 p
  have s3 := Finset.sum_nonneg fun i (_ : i ∈ Finset.univ) => n3 i
  simp only [shearStored, stored] at hz
  have z1 : ∑ i : Fin b.members.length, b.members[i].flexRig *
      ∫ x in (0 : ℝ)..b.members[i].L, (κ' i x - lineKappa b ls F i x) ^ 2 = 0 := by
    linarith
  have z2 : ∑ p ∈ Finset.range (2 * b.members.length + 2), b.springK p * (u' p - u p) ^ 2 = 0 := by
    linarith
  have z3 : ∑ i : Fin b.members.length, b.members[i].shearRig *
      ∫ x in (0 : ℝ)..b.members[i].L, (γ' i x - lineGamma b ls F i x) ^ 2 = 0 := by
    linarith
  have hrig : ∀ i (hi : i < b.members.length), ∀ x ∈ Icc 0 b.members[i].L,
      ψ' i x - ψ i x = ψ' i b.members[i].L - ψ i b.members[i].L ∧
      v' i x - v i x
        = bendPart (fun x => v' i x - v i x) (fun x => ψ' i x - ψ i x) x := by
    intro i hi x hx
    have hL := (hb.pos _ (List.getElem_mem hi)).le
    have e := (Finset.sum_eq_zero_iff_of_nonneg fun i _ => n1 i).1 z1 ⟨i, hi⟩ (Finset.mem_univ _)
    have e' := (mul_eq_zero.1 e).resolve_left (Uniform.const hb i hi).1.ne'
    have g : ∫ x in (0 : ℝ)..b.members[i].L, (γ' i x - lineGamma b ls F i x) ^ 2 = 0 := by
      rcases Uniform.shear hb i hi with ⟨hn, _, _⟩ | ⟨_, hg, _⟩
      · rw [intervalIntegral.integral_congr (g := fun _ => (0 : ℝ))]
        · simp
        · intro y hy
          rw [uIcc_of_le hL] at hy
          simp [h'.slender i hi hn y hy, ha.slender i hi hn y hy]
      · have e := (Finset.sum_eq_zero_iff_of_nonneg fun i _ => n3 i).1 z3 ⟨i, hi⟩
          (Finset.mem_univ _)
        exact (mul_eq_zero.1 e).resolve_left hg.ne'
    exact (hd.shape i hi).rigid hL e' g x hx
  have hspr : ∀ p < 2 * b.members.length + 2, b.springK p * u' p = b.springK p * u p := by
    intro p hp
    have e := (Finset.sum_eq_zero_iff_of_nonneg fun p _ => n2 p).1 z2 p (Finset.mem_range.2 hp)
    rcases mul_eq_zero.1 e with e | e
    · rw [e]; ring
    · have : u' p = u p := by have := pow_eq_zero_iff (two_ne_zero) |>.1 e; linarith
      rw [this]
  refine ⟨fun i hi e he => ?_, h'.left, h'.right, fun i hi => ?_, fun i hi => ?_, h'.prescribed,
    h'.rigid, fun j hj c hp hr => ?_⟩
  · have hE := h.span i hi e he
    have hS := h'.shape i hi
    have hL := (hb.pos _ (List.getElem_mem hi)).le
    refine ⟨fun x hx hfp => ?_, fun x hx hcp => ?_, hS.contV, hS.contT, hE.force, hE.moment⟩
    · have hev : v' i =ᶠ[nhds x] fun y => v i y
          + bendPart (fun x => v' i x - v i x) (fun x => ψ' i x - ψ i x) y := by
        filter_upwards [Ioo_mem_nhds hx.1 hx.2] with y hy
        have := (hrig i hi y ⟨hy.1.le, hy.2.le⟩).2
        linarith
      have hder := ((hd.shape i hi).bendShape hL).slope x hx
      exact (((hE.slope x hx hfp).add hder).congr_deriv (by ring)).congr_of_eventuallyEq hev
    · have hev : ψ' i =ᶠ[nhds x] fun y => ψ i y + (ψ' i b.members[i].L - ψ i b.members[i].L) := by
        filter_upwards [Ioo_mem_nhds hx.1 hx.2] with y hy
        have := (hrig i hi y ⟨hy.1.le, hy.2.le⟩).1
        linarith
      exact ((hE.curvature x hx hcp).add_const _).congr_of_eventuallyEq hev
  · have := h.rotLeft i hi
    by_cases hf : b.members[i].et.freeLeft
    · rw [if_pos hf] at this ⊢
      exact this
    · rw [if_neg hf]
      exact h'.rotLeft i hi (by simpa using hf)
  · have := h.rotRight i hi
    by_cases hf : b.members[i].et.freeRight
    · rw [if_pos hf] at this ⊢
      exact this
    · rw [if_neg hf]
      exact h'.rotRight i hi (by simpa using hf)
  · have := h.free j hj c hp hr
    simp only [nodeSum] at this ⊢
    have e := hspr (2 * j + c) (by omega)
    simp only [BeamDef.springK] at e
    rw [e]
    exact this

/-! ## C98 -/

/-- **C98**, with shear-flexible members: the deflected shape of a completed analysis has the
least potential energy of all shapes that honour the supports, the prescribed displacements and
the continuity of the beam.  Partial: prismatic members, on which the couples of shear-flexible
members and the clamped end moments of pinned-pinned members balance. -/
theorem C98_shear_minimum_partial (b : BeamDef ℝ) (ls : List (SpanLoad ℝ))
    (hls : b.setLoads = .ok ls) (hb : b.Uniform ls) (hc : b.ShearBalanced ls)
    (stable : System ℝ → Bool) (solve : Solver ℝ) (hs : solve.Sound) (res : Result ℝ)
    (h : b.analyze stable solve = .ok res) :
    ∃ v ψ κ γ : ℕ → ℝ → ℝ, ShearBeam b ls res.d res.fmbr v ψ ∧
      ShearAdmissible b res.d v ψ κ γ ∧
      ∀ u' v' ψ' κ' γ', ShearAdmissible b u' v' ψ' κ' γ' →
        shearPotential b ls res.d v ψ κ γ ≤ shearPotential b ls u' v' ψ' κ' γ' := by
  obtain ⟨v, ψ, hE⟩ := C117_exact_partial b ls hls hb hc stable solve hs res h
  refine ⟨v, ψ, _, _, hE, hE.admissible hb, fun u' v' ψ' κ' γ' h' => ?_⟩
  rw [shear_potential_expand hb hE h']
  have := shearStored_nonneg hb (fun p => u' p - res.d p)
    (fun i x => κ' i x - lineKappa b ls res.fmbr i x)
    (fun i x => γ' i x - lineGamma b ls res.fmbr i x)
  linarith

/-- **C98**, uniqueness with shear-flexible members: on a regular structure every other
admissible shape has more. -/
theorem C98_shear_only_minimum (b : BeamDef ℝ) (ls : List (SpanLoad ℝ))
    (hls : b.setLoads = .ok ls) (hb : b.Uniform ls) (hc : b.ShearBalanced ls) (s : System ℝ)
    (hsys : b.system = .ok s) (hns : s.Nonsingular) (u u' : ℕ → ℝ)
    (v ψ κ γ v' ψ' κ' γ' : ℕ → ℝ → ℝ)
    (h : ShearAdmissible b u v ψ κ γ) (h' : ShearAdmissible b u' v' ψ' κ' γ')
    (hmin : ∀ u'' v'' ψ'' κ'' γ'', ShearAdmissible b u'' v'' ψ'' κ'' γ'' →
      shearPotential b ls u v ψ κ γ ≤ shearPotential b ls u'' v'' ψ'' κ'' γ'')
    (hle : shearPotential b ls u' v' ψ' κ' γ' ≤ shearPotential b ls u v ψ κ γ) :
    (∀ p < 2 * b.members.length + 2, u' p = u p) ∧
    ∀ i (hi : i < b.members.length), ∀ x ∈ Icc 0 b.members[i].L, v' i x = v i x ∧ ψ' i x = ψ i x := by
  obtain ⟨d, hd⟩ := System.exists_solution hns
  obtain ⟨v0, ψ0, hE⟩ := shearBeam_of_solution hls hb hc hsys hd
  have hmin0 : ∀ {u1 v1 ψ1 κ1 γ1}, ShearAdmissible b u1 v1 ψ1 κ1 γ1 →
      shearPotential b ls u1 v1 ψ1 κ1 γ1 ≤ shearPotential b ls u v ψ κ γ →
      ShearBeam b ls u1 (s.endForces d) v1 ψ1 := fun h1 hle1 =>
    hE.of_potential hb h1 (hle1.trans (hmin _ _ _ _ _ (hE.admissible hb)))
  have e1 := hmin0 h le_rfl
  have e2 := hmin0 h' hle
  obtain ⟨hu, hm⟩ := C117_unique b ls hls hb hc s hsys hns _ _ _ _ _ _ _ _ e2 e1
  exact ⟨hu, fun i hi => (hm i hi).2⟩

/-! ## C99 -/

/-- The energy stored in a solution is half the work of the loads and of the forces at the
settling supports. -/
theorem ShearBeam.balance {b : BeamDef ℝ} {ls : List (SpanLoad ℝ)} (hb : b.Uniform ls)
    {u : ℕ → ℝ} {F : ℕ → Vec4 ℝ} {v ψ : ℕ → ℝ → ℝ} (h : ShearBeam b ls u F v ψ) :
    shearStored b u (lineKappa b ls F) (lineGamma b ls F) = loadWork b ls v ψ
      + ∑ j ∈ Finset.range (b.members.length + 1), ∑ c : Fin 2,
          (b.presc.getD (2 * j + c) none).getD 0 * nodeSum b u F j c := by
  have hw := shear_virtual_work hb h (h.admissible hb).toShearCompatible
  have e1 : ∑ i : Fin b.members.length, ((∫ x in (0 : ℝ)..b.members[i].L,
        cutM b.members[i].L (ownLoads i ls) (F i) x * lineKappa b ls F i x)
        - ∫ x in (0 : ℝ)..b.members[i].L,
        cutV b.members[i].L (ownLoads i ls) (F i) x * lineGamma b ls F i x)
      = (∑ i : Fin b.members.length,
        b.members[i].flexRig * ∫ x in (0 : ℝ)..b.members[i].L, lineKappa b ls F i x ^ 2)
        + ∑ i : Fin b.members.length,
        b.members[i].shearRig * ∫ x in (0 : ℝ)..b.members[i].L, lineGamma b ls F i x ^ 2 := by
    rw [← Finset.sum_add_distrib]
    refine Finset.sum_congr rfl fun i _ => ?_
    rw [sub_eq_add_neg]
    congr 1
    · rw [← intervalIntegral.integral_const_mul]
      congr 1
      funext x
      have hE := (Uniform.const hb i i.2).1
      rw [lineKappa_eq b ls F i i.2]
      simp only [Fin.getElem_fin]
      field_simp
    · rw [← intervalIntegral.integral_neg, ← intervalIntegral.integral_const_mul]
      congr 1
      funext x
      rw [lineGamma_eq b ls F i i.2]
      simp only [Fin.getElem_fin]
      rcases Uniform.shear hb i i.2 with ⟨_, h0, h1⟩ | ⟨_, hg, h1⟩
      · rw [h0, h1]; ring
      · rw [h1]; field_simp
  have e2 : ∑ j ∈ Finset.range (b.members.length + 1), ∑ c : Fin 2, u (2 * j + c) * nodeSum b u F j c
      = ∑ j ∈ Finset.range (b.members.length + 1), ∑ c : Fin 2,
          (b.presc.getD (2 * j + c) none).getD 0 * nodeSum b u F j c := by
    refine Finset.sum_congr rfl fun j hj => Finset.sum_congr rfl fun c _ => ?_
    have hj' : j ≤ b.members.length := by have := Finset.mem_range.1 hj; omega
    have hlt : 2 * j + (c : ℕ) < 2 * b.members.length + 2 := by omega
    rcases hp : b.presc.getD (2 * j + c) none with _ | w
    · by_cases hr : b.restraints.getD (2 * j + c) 0 < 0
      · rw [h.rigid _ hlt hp hr]; rfl
      · rw [h.free j hj' c hp (not_lt.1 hr)]; simp
    · rw [h.prescribed _ hlt w hp]; rfl
  have e3 : ∑ p ∈ Finset.range (2 * b.members.length + 2), b.springK p * u p * u p
      = ∑ p ∈ Finset.range (2 * b.members.length + 2), b.springK p * u p ^ 2 :=
    Finset.sum_congr rfl fun p _ => by ring
  rw [e1, e2, e3] at hw
  simp only [shearStored, stored]
  linarith

/-- **C99**, balance with shear-flexible members: the strain energy of a completed analysis, in
bending, shear and the springs, is half the work done by the loads and the settling supports.
Partial: prismatic members with balanced couples and pins. -/
theorem C99_shear_energy_balance_partial (b : BeamDef ℝ) (ls : List (SpanLoad ℝ))
    (hls : b.setLoads = .ok ls) (hb : b.Uniform ls) (hc : b.ShearBalanced ls)
    (stable : System ℝ → Bool) (solve : Solver ℝ) (hs : solve.Sound) (res : Result ℝ)
    (h : b.analyze stable solve = .ok res) :
    ∃ v ψ κ γ : ℕ → ℝ → ℝ, ShearBeam b ls res.d res.fmbr v ψ ∧
      ShearAdmissible b res.d v ψ κ γ ∧
      shearStored b res.d κ γ = loadWork b ls v ψ
        + ∑ j ∈ Finset.range (b.members.length + 1), ∑ c : Fin 2,
            (b.presc.getD (2 * j + c) none).getD 0 * nodeSum b res.d res.fmbr j c := by
  obtain ⟨v, ψ, hE⟩ := C117_exact_partial b ls hls hb hc stable solve hs res h
  exact ⟨v, ψ, _, _, hE, hE.admissible hb, hE.balance hb⟩

/-- `b'` is the beam `b` made stiffer, in bending, at the supports or in shear. -/
structure ShearStiffer (b b' : BeamDef ℝ) : Prop extends Stiffer b b' where
  shear : ∀ i (hi : i < b.members.length) (hi' : i < b'.members.length),
    b'.members[i].shearFlex ≤ b.members[i].shearFlex

theorem ShearAdmissible.held {b : BeamDef ℝ} (hu : b.Unsettled) {u : ℕ → ℝ}
    {v ψ κ γ : ℕ → ℝ → ℝ} (h : ShearAdmissible b u v ψ κ γ) (p : ℕ)
    (hp : p < 2 * b.members.length + 2) (hh : b.Held p) : u p = 0 := by
  rcases hpr : b.presc.getD p none with _ | w
  · rcases hh with hs | hr
    · rw [hpr] at hs; cases hs
    · exact h.rigid p hp hpr hr
  · rw [h.prescribed p hp w hpr, hu p w hpr]

/-- A shape of the stiffer beam is one of the softer beam. -/
theorem ShearStiffer.admissible {b b' : BeamDef ℝ} (hst : ShearStiffer b b')
    {ls ls' : List (SpanLoad ℝ)} (hb : b.Uniform ls) (hb' : b'.Uniform ls') (hu : b.Unsettled)
    (hu' : b'.Unsettled) {u : ℕ → ℝ} {v ψ κ γ : ℕ → ℝ → ℝ} (h : ShearAdmissible b' u v ψ κ γ) :
    ShearAdmissible b u v ψ κ γ where
  shape i hi := by
    have hi' : i < b'.members.length := by rw [hst.count]; exact hi
    have := h.shape i hi'
    rwa [hst.len i hi hi'] at this
  slender i hi hn := by
    have hi' : i < b'.members.length := by rw [hst.count]; exact hi
    rw [← hst.len i hi hi']
    refine h.slender i hi' ?_
    have hs := hst.shear i hi hi'
    rcases Uniform.shear hb i hi with ⟨_, _, h0⟩ | ⟨h0, _⟩
    · rcases Uniform.shear hb' i hi' with ⟨h1, _⟩ | ⟨_, h1, h2⟩
      · exact h1
      · rw [h0, h2] at hs
        exact absurd hs (not_le.2 (by positivity))
    · exact absurd hn h0
  left i hi := h.left i (by rw [hst.count]; exact hi)
  right i hi := by
    have hi' : i < b'.members.length := by rw [hst.count]; exact hi
    rw [← hst.len i hi hi']
    exact h.right i hi'
  rotLeft i hi hf := by
    have hi' : i < b'.members.length := by rw [hst.count]; exact hi
    refine h.rotLeft i hi' ?_
    by_contra hc
    rw [hst.relLeft i hi hi' (by simpa using hc)] at hf
    cases hf
  rotRight i hi hf := by
    have hi' : i < b'.members.length := by rw [hst.count]; exact hi
    rw [← hst.len i hi hi']
    refine h.rotRight i hi' ?_
    by_contra hc
    rw [hst.relRight i hi hi' (by simpa using hc)] at hf
    cases hf
  prescribed p hp w hw := by
    rw [hu p w hw]
    exact h.held hu' p (by rw [hst.count]; exact hp) (hst.held p hp (.inl (by rw [hw]; rfl)))
  rigid p hp _ hr := h.held hu' p (by rw [hst.count]; exact hp) (hst.held p hp (.inr hr))

/-- A shape of the stiffer beam stores at least as much there. -/
theorem ShearStiffer.stored_le {b b' : BeamDef ℝ} (hst : ShearStiffer b b')
    {ls ls' : List (SpanLoad ℝ)} (hb : b.Uniform ls) (hb' : b'.Uniform ls') (hu' : b'.Unsettled)
    {u : ℕ → ℝ} {v ψ κ γ : ℕ → ℝ → ℝ} (h : ShearAdmissible b' u v ψ κ γ) :
    shearStored b u κ γ ≤ shearStored b' u κ γ := by
  have h1 : ∀ (b : BeamDef ℝ) (f : Member ℝ → ℝ) (κ : ℕ → ℝ → ℝ), ∑ i : Fin b.members.length,
      f b.members[i] * ∫ x in (0 : ℝ)..b.members[i].L, κ i x ^ 2
      = ∑ i ∈ Finset.range b.members.length, (b.members.map f).getD i 0
        * ∫ x in (0 : ℝ)..(b.members.map Member.L).getD i 0, κ i x ^ 2 := by
    intro b f κ
    rw [Finset.sum_range]
    refine Finset.sum_congr rfl fun i _ => ?_
    simp
  have nn : ∀ i < b.members.length, ∀ f : ℝ → ℝ,
      0 ≤ ∫ x in (0 : ℝ)..(b.members.map Member.L).getD i 0, f x ^ 2 := fun i hi f => by
    refine intervalIntegral.integral_nonneg ?_ fun x _ => sq_nonneg _
    simpa [hi] using (hb.pos _ (List.getElem_mem hi)).le
  rw [shearStored, shearStored, stored, stored, h1 b Member.flexRig, h1 b' Member.flexRig,
    h1 b Member.shearRig, h1 b' Member.shearRig, hst.count]
  refine add_le_add (add_le_add (Finset.sum_le_sum fun i hi => ?_) (Finset.sum_le_sum fun p hp => ?_))
    (Finset.sum_le_sum fun i hi => ?_)
  · have hi := Finset.mem_range.1 hi
    have hi' : i < b'.members.length := by rw [hst.count]; exact hi
    have e1 : (b'.members.map Member.L).getD i 0 = (b.members.map Member.L).getD i 0 := by
      simp [hi, hi', hst.len i hi hi']
    have e2 : (b.members.map Member.flexRig).getD i 0 ≤ (b'.members.map Member.flexRig).getD i 0 := by
      simp [hi, hi', hst.rig i hi hi']
    rw [e1]
    exact mul_le_mul_of_nonneg_right e2 (nn i hi _)
  · have hp := Finset.mem_range.1 hp
    rcases hst.spring p hp with hk | hk
    · exact mul_le_mul_of_nonneg_right hk (sq_nonneg _)
    · rw [h.held hu' p (by rw [hst.count]; exact hp) hk]
      simp
  · have hi := Finset.mem_range.1 hi
    have hi' : i < b'.members.length := by rw [hst.count]; exact hi
    have e1 : (b'.members.map Member.L).getD i 0 = (b.members.map Member.L).getD i 0 := by
      simp [hi, hi', hst.len i hi hi']
    rw [e1]
    have g1 : (b.members.map Member.shearRig).getD i 0 = b.members[i].shearRig := by simp [hi]
    have g2 : (b'.members.map Member.shearRig).getD i 0 = b'.members[i].shearRig := by simp [hi']
    rw [g1, g2]
    have hs := hst.shear i hi hi'
    rcases Uniform.shear hb' i hi' with ⟨hn, h0, _⟩ | ⟨_, k1, k2⟩
    · have hz : ∫ x in (0 : ℝ)..(b.members.map Member.L).getD i 0, γ i x ^ 2 = 0 := by
        rw [intervalIntegral.integral_congr (g := fun _ => (0 : ℝ))]
        · simp
        · intro y hy
          have hL : (b.members.map Member.L).getD i 0 = b'.members[i].L := by
            rw [← e1]; simp [hi']
          rw [hL, uIcc_of_le (hb'.pos _ (List.getElem_mem hi')).le] at hy
          simp [h.slender i hi' hn y hy]
      rw [hz, mul_zero, mul_zero]
    · refine mul_le_mul_of_nonneg_right ?_ (nn i hi _)
      rcases Uniform.shear hb i hi with ⟨_, h0, _⟩ | ⟨_, l1, l2⟩
      · rw [h0]; exact k1.le
      · rw [k2, l2] at hs
        exact (one_div_le_one_div k1 l1).1 hs

/-- **C99**, stiffening with shear-flexible members: under the same loads a beam that is stiffer,
in bending, at the supports or in shear, lets the loads do no more work. -/
theorem C99_shear_stiffening (b b' : BeamDef ℝ) (hst : ShearStiffer b b') (hu : b.Unsettled)
    (hu' : b'.Unsettled) (ls : List (SpanLoad ℝ)) (hls : b.setLoads = .ok ls)
    (hls' : b'.setLoads = .ok ls) (hb : b.Uniform ls) (hb' : b'.Uniform ls)
    (hc : b.ShearBalanced ls) (hc' : b'.ShearBalanced ls)
    (stable stable' : System ℝ → Bool) (solve solve' : Solver ℝ) (hs : solve.Sound)
    (hs' : solve'.Sound) (res res' : Result ℝ) (h : b.analyze stable solve = .ok res)
    (h' : b'.analyze stable' solve' = .ok res') :
    (∃ v ψ v' ψ' : ℕ → ℝ → ℝ, ShearBeam b ls res.d res.fmbr v ψ ∧
      ShearBeam b' ls res'.d res'.fmbr v' ψ') ∧
    ∀ v ψ v' ψ' : ℕ → ℝ → ℝ, ShearBeam b ls res.d res.fmbr v ψ →
      ShearBeam b' ls res'.d res'.fmbr v' ψ' → loadWork b' ls v' ψ' ≤ loadWork b ls v ψ := by
  obtain ⟨v, ψ, hE⟩ := C117_exact_partial b ls hls hb hc stable solve hs res h
  obtain ⟨v', ψ', hE'⟩ := C117_exact_partial b' ls hls' hb' hc' stable' solve' hs' res' h'
  refine ⟨⟨v, ψ, v', ψ', hE, hE'⟩, ?_⟩
  clear! v ψ v' ψ'
  intro v ψ v' ψ' hE hE'
  have ha' := hE'.admissible hb'
  have h0 : ∀ {b : BeamDef ℝ} {u F}, b.Unsettled → ∑ j ∈ Finset.range (b.members.length + 1),
      ∑ c : Fin 2, (b.presc.getD (2 * j + c) none).getD 0 * nodeSum b u F j c = 0 := by
    intro b u F hu
    refine Finset.sum_eq_zero fun j _ => Finset.sum_eq_zero fun c _ => ?_
    rcases hp : b.presc.getD (2 * j + c) none with _ | w
    · simp
    · simp [hu _ w hp]
  have e1 := hE.balance hb
  have e2 := hE'.balance hb'
  rw [h0 hu, add_zero] at e1
  rw [h0 hu', add_zero] at e2
  have e3 := shear_potential_expand hb hE (hst.admissible hb hb' hu hu' ha')
  have e4 := shearStored_nonneg hb (fun p => res'.d p - res.d p)
    (fun i x => lineKappa b' ls res'.fmbr i x - lineKappa b ls res.fmbr i x)
    (fun i x => lineGamma b' ls res'.fmbr i x - lineGamma b ls res.fmbr i x)
  have e5 := hst.stored_le hb hb' hu' ha'
  have e6 := hst.toStiffer.loadWork ls v' ψ'
  simp only [shearPotential] at e3
  rw [e6] at e2 ⊢
  linarith

/-- **C99**, stiffening with shear-flexible members: the deflection under a single point load
never grows when the beam is made stiffer; in particular neglecting the shear flexibility never
overestimates it. -/
theorem C99_shear_point_load (b b' : BeamDef ℝ) (hst : ShearStiffer b b') (hu : b.Unsettled)
    (hu' : b'.Unsettled) (i : ℕ) (hi : i < b.members.length) (P a : ℝ) (hP : 0 < P)
    (hls : b.setLoads = .ok [⟨i, .pl P a⟩]) (hls' : b'.setLoads = .ok [⟨i, .pl P a⟩])
    (hb : b.Uniform [⟨i, .pl P a⟩]) (hb' : b'.Uniform [⟨i, .pl P a⟩])
    (hc : b.ShearBalanced [⟨i, .pl P a⟩]) (hc' : b'.ShearBalanced [⟨i, .pl P a⟩])
    (stable stable' : System ℝ → Bool) (solve solve' : Solver ℝ) (hs : solve.Sound)
    (hs' : solve'.Sound) (res res' : Result ℝ) (h : b.analyze stable solve = .ok res)
    (h' : b'.analyze stable' solve' = .ok res') :
    (∃ v ψ v' ψ' : ℕ → ℝ → ℝ, ShearBeam b [⟨i, .pl P a⟩] res.d res.fmbr v ψ ∧
      ShearBeam b' [⟨i, .pl P a⟩] res'.d res'.fmbr v' ψ') ∧
    ∀ v ψ v' ψ' : ℕ → ℝ → ℝ, ShearBeam b [⟨i, .pl P a⟩] res.d res.fmbr v ψ →
      ShearBeam b' [⟨i, .pl P a⟩] res'.d res'.fmbr v' ψ' → -v' i a ≤ -v i a := by
  obtain ⟨h1, h2⟩ := C99_shear_stiffening b b' hst hu hu' _ hls hls' hb hb' hc hc'
    stable stable' solve solve' hs hs' res res' h h'
  refine ⟨h1, fun v ψ v' ψ' hE hE' => ?_⟩
  have hw := h2 v ψ v' ψ' hE hE'
  rw [loadWork_point b i hi, loadWork_point b' i (by rw [hst.count]; exact hi)] at hw
  have := (mul_le_mul_iff_right₀ hP).1 (neg_le_neg_iff.1 hw)
  linarith

/-! ## C100 -/

/-- Work of the node forces through the displacements of the moved beam. -/
theorem shear_moved_node_work {b : BeamDef ℝ} {ls : List (SpanLoad ℝ)} (hu : b.Unsettled)
    {u : ℕ → ℝ} {F : ℕ → Vec4 ℝ} {v ψ : ℕ → ℝ → ℝ} (h : ShearBeam b ls u F v ψ) (p : ℕ)
    (hp : p < 2 * b.members.length + 2) (hpl : p < b.presc.length) {y : ℕ → ℝ}
    {η φ κ γ : ℕ → ℝ → ℝ} (hy : ShearAdmissible (b.moved p) y η φ κ γ) :
    ∑ j ∈ Finset.range (b.members.length + 1), ∑ c : Fin 2, y (2 * j + c) * nodeSum b u F j c
      = nodeSum b u F (p / 2) ⟨p % 2, Nat.mod_lt _ (by norm_num)⟩ := by
  have hother : ∀ j ≤ b.members.length, ∀ c : Fin 2, 2 * j + (c : ℕ) ≠ p →
      y (2 * j + c) * nodeSum b u F j c = 0 := by
    intro j hj c hne
    have hlt : 2 * j + (c : ℕ) < 2 * b.members.length + 2 := by omega
    have e := moved_presc b p hpl (2 * j + c)
    rw [if_neg hne] at e
    rcases hpr : b.presc.getD (2 * j + c) none with _ | w
    · rw [hpr] at e
      by_cases hr : b.restraints.getD (2 * j + c) 0 < 0
      · rw [hy.rigid _ hlt e hr, zero_mul]
      · rw [h.free j hj c hpr (not_lt.1 hr), mul_zero]
    · rw [hpr] at e
      rw [hy.prescribed _ hlt w e, hu _ w hpr, zero_mul]
  have hyp : y p = 1 := by
    have e := moved_presc b p hpl p
    rw [if_pos rfl] at e
    exact hy.prescribed p hp 1 e
  rw [Finset.sum_eq_single (p / 2)]
  · rw [Finset.sum_eq_single (⟨p % 2, Nat.mod_lt _ (by norm_num)⟩ : Fin 2)]
    · have : 2 * (p / 2) + p % 2 = p := by omega
      simp only [this, hyp, one_mul]
    · intro c _ hc
      apply hother _ (by omega)
      intro he
      apply hc
      ext
      simp only
      omega
    · simp
  · intro j hj hne
    refine Finset.sum_eq_zero fun c _ => ?_
    apply hother _ (by have := Finset.mem_range.1 hj; omega)
    intro he
    apply hne
    omega
  · intro hn
    exact absurd (Finset.mem_range.2 (by omega)) hn

theorem moved_uniform {b : BeamDef ℝ} {ls : List (SpanLoad ℝ)} (hb : b.Uniform ls) (p : ℕ) :
    (b.moved p).Uniform [] :=
  ⟨hb.pos, hb.prismatic, fun _ _ _ hl => by simp at hl⟩

theorem BeamDef.shearBalanced_nil (b : BeamDef ℝ) : b.ShearBalanced [] := by
  intro i hi
  simp [ownLoads, clampedSum, coupleSum]

/-- **Müller-Breslau** for the continuous problem with shear-flexible members. -/
theorem shear_mueller_breslau {b : BeamDef ℝ} {ls : List (SpanLoad ℝ)} (hb : b.Uniform ls)
    (hu : b.Unsettled) {u : ℕ → ℝ} {F : ℕ → Vec4 ℝ} {v ψ : ℕ → ℝ → ℝ}
    (h : ShearBeam b ls u F v ψ) (p : ℕ) (hp : p < 2 * b.members.length + 2)
    (hpl : p < b.presc.length) (hr : b.restraints.getD p 0 < 0) {y : ℕ → ℝ} {G : ℕ → Vec4 ℝ}
    {η φ : ℕ → ℝ → ℝ} (hm : ShearBeam (b.moved p) [] y G η φ) :
    nodeSum b u F (p / 2) ⟨p % 2, Nat.mod_lt _ (by norm_num)⟩ = -loadWork b ls η φ := by
  have ha := h.admissible hb
  have hbm := moved_uniform hb p
  have ham := hm.admissible hbm
  have w1 := shear_virtual_work hb h (y := y) (η := η) (φ := φ)
    (κ := lineKappa (b.moved p) [] G) (γ := lineGamma (b.moved p) [] G)
    ⟨ham.shape, ham.slender, ham.left, ham.right, ham.rotLeft, ham.rotRight⟩
  rw [shear_moved_node_work hu h p hp hpl ham] at w1
  have w2 := shear_virtual_work hbm hm (y := u) (η := v) (φ := ψ)
    (κ := lineKappa b ls F) (γ := lineGamma b ls F)
    ⟨ha.shape, ha.slender, ha.left, ha.right, ha.rotLeft, ha.rotRight⟩
  rw [shear_node_work_zero hm (y := u) (by
    intro q hq hcon
    by_cases hqp : q = p
    · subst hqp
      rcases hpr : b.presc.getD q none with _ | w
      · exact h.rigid q hq hpr hr
      · rw [h.prescribed q hq w hpr, hu q w hpr]
    · rw [moved_presc b p hpl, if_neg hqp] at hcon
      exact ha.held hu q hq hcon)] at w2
  have l0 : loadWork (b.moved p) [] v ψ = 0 := by simp [loadWork, ownLoads]
  rw [l0] at w2
  have ei : ∑ i : Fin b.members.length, ((∫ x in (0 : ℝ)..b.members[i].L,
        cutM b.members[i].L (ownLoads i ls) (F i) x * lineKappa (b.moved p) [] G i x)
        - ∫ x in (0 : ℝ)..b.members[i].L,
        cutV b.members[i].L (ownLoads i ls) (F i) x * lineGamma (b.moved p) [] G i x)
      = ∑ i : Fin (b.moved p).members.length, ((∫ x in (0 : ℝ)..(b.moved p).members[i].L,
        cutM (b.moved p).members[i].L (ownLoads i []) (G i) x * lineKappa b ls F i x)
        - ∫ x in (0 : ℝ)..(b.moved p).members[i].L,
        cutV (b.moved p).members[i].L (ownLoads i []) (G i) x * lineGamma b ls F i x) := by
    refine Finset.sum_congr rfl fun i _ => ?_
    congr 1
    · congr 1
      funext x
      rw [lineKappa_eq b ls F i i.2, lineKappa_eq (b.moved p) [] G i i.2]
      change _ * (_ / b.members[(i : ℕ)].flexRig) = _ * (_ / b.members[(i : ℕ)].flexRig)
      exact mul_div_swap _ _ _
    · congr 1
      funext x
      rw [lineGamma_eq b ls F i i.2, lineGamma_eq (b.moved p) [] G i i.2]
      change _ * -(b.members[(i : ℕ)].shearFlex * _) = _ * -(b.members[(i : ℕ)].shearFlex * _)
      rw [mul_neg, mul_neg, mul_left_comm, mul_left_comm _ b.members[(i : ℕ)].shearFlex,
        mul_comm (cutV _ _ _ _)]
      rfl
  have es : ∑ q ∈ Finset.range (2 * b.members.length + 2), b.springK q * u q * y q
      = ∑ q ∈ Finset.range (2 * (b.moved p).members.length + 2), (b.moved p).springK q * y q * u q :=
    Finset.sum_congr rfl fun q _ => by
      change _ = b.springK q * y q * u q
      ring
  rw [ei, es] at w1
  linarith

/-- **C100**, with shear-flexible members: a reported reaction is minus the work of the loads
through the deflected shape of the beam whose support is moved by one unit.  Partial: prismatic
members with balanced couples and pins. -/
theorem C100_shear_reaction_partial (b : BeamDef ℝ) (ls : List (SpanLoad ℝ))
    (hls : b.setLoads = .ok ls) (hb : b.Uniform ls) (hc : b.ShearBalanced ls) (hu : b.Unsettled)
    (stable stable' : System ℝ → Bool) (solve solve' : Solver ℝ) (hs : solve.Sound)
    (hs' : solve'.Sound) (res res' : Result ℝ) (h : b.analyze stable solve = .ok res)
    (p : ℕ) (R : ℝ) (hR : (p, R) ∈ b.reported res) (hr : b.restraints.getD p 0 < 0)
    (h' : (b.moved p).analyze stable' solve' = .ok res') :
    (∃ η φ, ShearBeam (b.moved p) [] res'.d res'.fmbr η φ) ∧
    ∀ η φ, ShearBeam (b.moved p) [] res'.d res'.fmbr η φ → R = -loadWork b ls η φ := by
  refine ⟨C117_exact_partial _ [] (moved_loads b p) (moved_uniform hb p)
    (BeamDef.shearBalanced_nil _) stable' solve' hs' res' h', fun η φ hm => ?_⟩
  obtain ⟨v, ψ, hE⟩ := C117_exact_partial b ls hls hb hc stable solve hs res h
  obtain ⟨s, hsys, _⟩ := BeamDef.analyze_ok h
  obtain ⟨hn, _, _, _, _, _, hl⟩ := BeamDef.system_ok hsys
  rw [System.N, hn] at hl
  have hp : p < 2 * b.members.length + 2 := by
    unfold BeamDef.reported at hR
    simp only at hR
    rcases List.mem_append.1 hR with h0 | h0
    · have := List.of_mem_zip h0 |>.1
      simpa using (List.mem_filter.1 this).1
    · have := List.of_mem_zip h0 |>.1
      simpa using (List.mem_filter.1 this).1
  rcases C91_reactions b stable solve hs res h p R hR with ⟨_, e⟩ | ⟨h0, _⟩
  · rw [e]
    exact shear_mueller_breslau hb hu hE p hp (by omega) hr hm
  · exact absurd h0 (not_lt.2 hr.le)

theorem BeamDef.shearBalanced_point (b : BeamDef ℝ) (hL : ∀ m ∈ b.members, 0 < m.L) (i : ℕ)
    (P a : ℝ)
    (h : ∀ hi : i < b.members.length, b.members[i].et = .PP → 0 ≤ a → a ≤ b.members[i].L →
      a = 0 ∨ a = b.members[i].L / 2 ∨ a = b.members[i].L)
    (ha : ∀ hi : i < b.members.length, 0 ≤ a ∧ a ≤ b.members[i].L) :
    b.ShearBalanced [⟨i, .pl P a⟩] := by
  intro k hk
  refine ⟨b.pinsBalanced_point hL i P a h ha k hk, fun _ _ => ?_⟩
  by_cases hik : (i : ℤ) = (k : ℤ)
  · simp [ownLoads, hik, coupleSum, Load.couplesAt]
  · simp [ownLoads, hik, coupleSum]

/-- **C100**, influence lines with shear-flexible members: every ordinate of the influence line
of a reaction is `P` times the height, at its position, of the deflected shape of the beam whose
support nearest to the point of interest is moved by one unit.  Partial: prismatic members, and
on pinned-pinned members positions at the ends and the centre only. -/
theorem C100_shear_influence_partial (A : Analyser ℝ) (hsol : A.solve.Sound) (b : BeamB ℝ)
    (hb : b.ForIL) (hsl : b.toDef.Uniform [])
    (step : Option ℝ) (P : ℝ) (s s' : ILState ℝ)
    (hc : (ILState.new b).create A step P = (s, .ok ())) (hne : s.pos ≠ [])
    (poi : ℝ) (e : ILEffect) (off : ℕ) (he : e = .R ∧ off = 0 ∨ e = .MR ∧ off = 1)
    (x eta : List ℝ) (hg : s.get A poi e = (s', .ok (x, eta)))
    (j : ℕ) (hj : NearestSupport b off poi j) (stable' : System ℝ → Bool) (solve' : Solver ℝ)
    (hs' : solve'.Sound) (res' : Result ℝ)
    (h' : (b.toDef.moved (2 * j + off)).analyze stable' solve' = .ok res') :
    (∃ η φ, ShearBeam (b.toDef.moved (2 * j + off)) [] res'.d res'.fmbr η φ) ∧
    ∀ η φ, ShearBeam (b.toDef.moved (2 * j + off)) [] res'.d res'.fmbr η φ →
      List.Forall₂ (fun y w => 0 ≤ y → y ≤ b.lens.sum → b.ClearOfPins y →
        HeightAt b.lens (fun i a => P * η i a) y w) x eta := by
  refine ⟨C117_exact_partial _ [] (moved_loads _ _) (moved_uniform hsl _)
    (BeamDef.shearBalanced_nil _) stable' solve' hs' res' h', fun η φ hm => ?_⟩
  obtain ⟨c1, c2, c3⟩ := create_ok A (s := ILState.new b) hb.proper step P hc
  change s.beam = b at c1
  change s.pos = [] ++ ilPositions b step at c2
  change List.Forall₂ (Carries A b P) (ilPositions b step) s.res at c3
  rw [List.nil_append] at c2
  rw [← c2] at c3
  have hres : s.res ≠ [] := by
    intro h
    rw [h] at c3
    cases h2 : s.pos with
    | nil => exact hne h2
    | cons a l => rw [h2] at c3; cases c3
  obtain ⟨s1, h1, _, hx, ho⟩ := get_ok hg
  rcases h1 with ⟨_, hs1⟩ | ⟨h1, _⟩
  swap
  · exact absurd h1 hres
  rw [hs1] at hx ho
  subst hx
  rw [c1] at ho
  refine (ordinates_spec hsol hb c3 ho).imp ?_
  rintro y w ⟨r, ⟨row, hrun, hrow, _⟩, hread⟩ hy0 hy1 hclear
  have hrep : (2 * j + off, w) ∈ b.toDef.reported r.1 := by
    rcases he with ⟨rfl, rfl⟩ | ⟨rfl, rfl⟩
    · obtain ⟨j', hj', hv⟩ := hread
      rw [hj.unique hj']
      exact hv
    · obtain ⟨j', hj', hv⟩ := hread
      rw [hj.unique hj']
      exact hv
  obtain ⟨i, hi, a, rfl, hya, ha0, ha1, _⟩ := hrow hy0 hy1
  refine ⟨i, hi, a, hya, ha0, ha1, ?_⟩
  have hlen := toDef_length hb.proper.inStep
  set d : BeamDef ℝ := { b.toDef with LM := [⟨(i : ℤ) + 1, 2, [P, a, 0]⟩] } with hd
  have hls : d.setLoads = .ok [⟨i, .pl P a⟩] := by
    simp [hd, BeamDef.setLoads, parseLM, parseRow]
  have hbs : d.Uniform [⟨i, .pl P a⟩] := by
    refine ⟨hsl.pos, hsl.prismatic, ?_⟩
    intro k hk l hl hlk
    simp only [List.mem_cons, List.not_mem_nil, or_false] at hl
    subst hl
    have : i = k := by simpa using hlk
    subst this
    refine ⟨⟨ha0, ?_⟩, by simp [Load.IsMechanical]⟩
    exact ha1.trans_eq (zipMembers_L _ _ _ _ i hk hi).symm
  have hun : d.Unsettled := by
    intro p v hv
    refine hb.presc v ?_
    rw [List.getD_eq_getElem?_getD] at hv
    rcases hp : b.presc[p]? with _ | o
    · change (b.presc[p]?).getD none = some v at hv
      rw [hp] at hv
      cases hv
    · change (b.presc[p]?).getD none = some v at hv
      rw [hp] at hv
      simp only [Option.getD_some] at hv
      subst hv
      exact List.mem_of_getElem? hp
  have hneg : d.restraints.getD (2 * j + off) 0 < 0 := by
    change b.restraints.getD (2 * j + off) 0 < 0
    rw [hj.2.1]
    norm_num
  have hbal : d.ShearBalanced [⟨i, .pl P a⟩] := by
    have hLi : ∀ hi' : i < d.members.length, d.members[i].L = b.lens[i] := fun hi' =>
      zipMembers_L _ _ _ _ i hi' hi
    refine d.shearBalanced_point hsl.pos i P a (fun hi' het _ _ => ?_) fun hi' =>
      ⟨ha0, ha1.trans_eq (hLi hi').symm⟩
    rcases ha0.eq_or_lt with h0 | h0
    · exact .inl h0.symm
    · rcases ha1.eq_or_lt with h1 | h1
      · exact .inr (.inr (h1.trans (hLi hi').symm))
      · exact .inr (.inl (hclear i hi' het a hya h0 (h1.trans_eq (hLi hi').symm)))
  have key := (C100_shear_reaction_partial d _ hls hbs hbal hun A.stable stable' A.solve solve' hsol
    hs' r.1 res' (runCase_ok hrun).1 (2 * j + off) w hrep hneg h').2 η φ hm
  rw [key, loadWork_point d i (by change i < b.toDef.members.length; omega)]
  ring

/-! ### Concrete cases -/

/-- Two spans, the first shear-flexible, clamped at the left. -/
noncomputable def exMBS : BeamB ℝ :=
  ⟨[2, 3], [.const 6, .const 7], [some (.const 5), none], [none, none], [.FF, .FF], [-1, -1, -1, 0, -1, 0],
    [none, none, none, none, none, none], [], 2, 5, [0, 2, 5], 1⟩

theorem exMBS_forIL : exMBS.ForIL := by
  refine ⟨⟨⟨rfl, rfl, rfl, rfl, rfl, ?_, ?_⟩, by simp [exMBS], ?_⟩, rfl, ?_, ?_⟩
  · simp [exMBS]; norm_num
  · simp [exMBS, List.range_succ]; norm_num
  · simp [exMBS]
  · intro x hx h0
    simp [exMBS] at hx
    rcases hx with rfl | rfl | rfl | rfl <;> first | rfl | exact absurd h0 (lt_irrefl _)
  · intro v hv
    simp [exMBS] at hv

theorem exMBS_uniform : exMBS.toDef.Uniform [] := by
  refine ⟨?_, ?_, fun _ _ _ hl => by simp at hl⟩
  · simp [exMBS, BeamB.toDef, zipMembers]
  · simp [exMBS, BeamB.toDef, zipMembers]

theorem exMBS_nons {LM : List (Row ℝ)} {pr : List (Option ℝ)} {s : System ℝ}
    (hs : ({ exMBS.toDef with LM := LM, presc := pr } : BeamDef ℝ).system = .ok s) :
    s.Nonsingular :=
  C77_adequate_supports _ (by
      intro m hm
      simp only [exMBS, BeamB.toDef, zipMembers, List.mem_cons, List.not_mem_nil, or_false] at hm
      rcases hm with rfl | rfl <;> simp [Member.Good, Rigidity.Good]) s hs 0 0 (by simp) (by simp)
    (by simp [exMBS, BeamB.toDef]) (.inr (by simp [exMBS, BeamB.toDef]))

theorem exMBS_presc (i : ℕ) : exMBS.toDef.presc.getD i none = none := by
  rcases i with _ | _ | _ | _ | _ | _ | i <;> simp [exMBS, BeamB.toDef]

theorem exMBS_run (P y : ℝ) : ∃ r, runCase exMBS.toDef exMBA.stable exMBA.solve exMBA.npts
    [ilRow exMBS P y] = .ok r := by
  set d : BeamDef ℝ := { exMBS.toDef with LM := [ilRow exMBS P y] } with hd
  have hls : d.setLoads = .ok [⟨(exMBS.localCoords y).1, .pl P (exMBS.localCoords y).2⟩] := by
    simp [hd, BeamDef.setLoads, parseLM, parseRow, ilRow]
  obtain ⟨s, hs⟩ : ∃ s, d.system = .ok s := by
    rw [BeamDef.system, hls]
    generalize exMBS.localCoords y = q
    have e : ∀ (L e : ℝ) (i : ℕ) (g : Option (Rigidity ℝ)), g = none ∨ g = some (.const 5) →
        ∃ c, (⟨.const e, L, .FF, g⟩ : Member ℝ).refSum i [⟨q.1, .pl P q.2⟩] = .ok c := by
      intro L e i g hg
      rcases hg with rfl | rfl <;> by_cases h : q.1 = i <;>
        simp [Member.refSum, h, Member.ref, Member.cnl, Load.getCnl, condenseFor, releaseRef]
    obtain ⟨c0, e0⟩ := e 2 6 0 _ (.inr rfl)
    obtain ⟨c1, e1⟩ := e 3 7 1 _ (.inl rfl)
    simp only [hd, exMBS, BeamB.toDef, zipMembers, mapE, List.zipIdx_cons, List.zipIdx_nil, e0, e1]
    simp [Member.spanK, condenseFor]
  obtain ⟨_, _, _, _, hpr, _, _⟩ := BeamDef.system_ok hs
  obtain ⟨res, hres⟩ := BeamDef.completes_any hs (exMBS_nons (pr := exMBS.toDef.presc) hs) (by
    have : ∀ i, d.presc.getD i none = none := exMBS_presc
    simp only [System.validate, hpr, this]
    simp)
  obtain ⟨rs, hrs⟩ : ∃ rs, d.memberResults res exMBA.npts (fun _ => []) = .ok rs := by
    rw [BeamDef.memberResults, hls]
    generalize exMBS.localCoords y = q
    have e : ∀ (L e : ℝ) (i : ℕ) (g : Option (Rigidity ℝ)) f u, g = none ∨ g = some (.const 5) →
        ∃ c, (⟨.const e, L, .FF, g⟩ : Member ℝ).values i
        [⟨q.1, .pl P q.2⟩] f u exMBA.npts [] = .ok c := by
      intro L e i g f u hg
      rcases hg with rfl | rfl <;> by_cases h : q.1 = i <;>
        simp [Member.values, Member.ctx, ownLoads, h, mapE, Member.cnl, Load.getCnl]
    obtain ⟨c0, e0⟩ := e 2 6 0 _ (res.fmbr 0) (elemVec res.d 0) (.inr rfl)
    obtain ⟨c1, e1⟩ := e 3 7 1 _ (res.fmbr 1) (elemVec res.d 1) (.inl rfl)
    simp only [hd, exMBS, BeamB.toDef, zipMembers, mapE, List.zipIdx_cons, List.zipIdx_nil]
    simp only [zero_add, e0, e1]
    exact ⟨_, rfl⟩
  refine ⟨(res, rs), ?_⟩
  have h1 : ({ exMBS.toDef with LM := [ilRow exMBS P y] } : BeamDef ℝ).analyze exMBA.stable exMBA.solve
      = .ok res := hres
  have h2 : ({ exMBS.toDef with LM := [ilRow exMBS P y] } : BeamDef ℝ).memberResults res exMBA.npts
      (fun _ => []) = .ok rs := hrs
  simp only [runCase, h1, h2]

theorem exMBS_loop (st : ℝ) : ∀ (is : List ℕ) (P : ℝ) (s : ILState ℝ), s.beam = exMBS →
    ∃ s', ilLoop exMBA st is P s = (s', .ok ()) ∧ s'.pos.length = s.pos.length + is.length := by
  intro is
  induction is with
  | nil => intro P s _; exact ⟨s, rfl, rfl⟩
  | cons i is ih =>
    intro P s hs
    simp only [ilLoop, hs]
    obtain ⟨r, hr⟩ := exMBS_run (if (exMBS.localCoords ((i : ℝ) * st)).1 = -1 then 0 else P) (i * st)
    rw [hr]
    obtain ⟨s', h1, h2⟩ := ih (if (exMBS.localCoords ((i : ℝ) * st)).1 = -1 then 0 else P)
      ⟨exMBS, s.pos ++ [(i : ℝ) * st], s.res ++ [r]⟩ rfl
    refine ⟨s', ?_, ?_⟩
    · exact h1
    · rw [h2]; simp; omega

theorem exMBS_reaction : ∃ q, ilReaction exMBS 0 2 = .ok q := by
  have h1 : (List.range (exMBS.restraints.length / 2)).filter (fun j =>
      exMBS.restraints.getD (2 * j + 0) 0 = -1) = [0, 1, 2] := by
    simp [exMBS, List.range_succ, List.filter]
  have h2 : nodeLocations exMBS = [0, 2, 5] := by
    simp [nodeLocations, exMBS, List.range_succ]; norm_num
  have h3 : nearestIdx (2 : ℝ) [0, 2, 5] = .ok 1 := by
    simp [nearestIdx, argMin, List.range_succ]
  unfold ilReaction
  simp only [h1, h2]
  simp only [List.map_cons, List.map_nil, List.getD_cons_zero, List.getD_cons_succ, h3]
  simp [List.findIdx?, List.findIdx?.go]
  split <;> exact ⟨_, rfl⟩

/-- C100 at two spans: the influence line of the reaction at the middle support, with a load
of 3. -/
example : ∃ (s s1 : ILState ℝ) (x eta : List ℝ) (res : Result ℝ) (η φ : ℕ → ℝ → ℝ),
    (ILState.new exMBS).create exMBA (some 1) 3 = (s, .ok ()) ∧
    s.get exMBA 2 .R = (s1, .ok (x, eta)) ∧ x.length = 6 ∧ eta.length = 6 ∧
    (exMBS.toDef.moved 2).analyze (fun _ => true) anySolver = .ok res ∧
    ShearBeam (exMBS.toDef.moved 2) [] res.d res.fmbr η φ ∧
    List.Forall₂ (fun y w => 0 ≤ y → y ≤ exMBS.lens.sum →
      HeightAt exMBS.lens (fun i a => 3 * η i a) y w) x eta := by
  have hL : exMBS.length = 5 := rfl
  obtain ⟨s, hs, hlen⟩ := exMBS_loop 1 (List.range (pyRound ((5 : ℝ) / 1) + 1).toNat) 3
    ⟨exMBS, [], []⟩ rfl
  have hround : pyRound ((5 : ℝ) / 1) = 5 := by
    simp [pyRound]
  rw [hround] at hlen hs
  have hc : (ILState.new exMBS).create exMBA (some 1) 3 = (s, .ok ()) := by
    simp only [ILState.create, ILState.new, Option.getD_some, hL, one_ne_zero, if_false, hround]
    exact hs
  have hlen : s.pos.length = 6 := by simpa using hlen
  obtain ⟨c1, c2, c3⟩ := create_ok exMBA (s := ILState.new exMBS) exMBS_forIL.proper (some 1) 3 hc
  have c1 : s.beam = exMBS := c1
  change s.pos = [] ++ ilPositions exMBS (some 1) at c2
  change List.Forall₂ (Carries exMBA exMBS 3) (ilPositions exMBS (some 1)) s.res at c3
  rw [List.nil_append] at c2
  rw [← c2] at c3
  have hres := c3.length_eq
  have n0 : NearestSupport exMBS 0 2 1 := by
    refine ⟨by simp [exMBS], by simp [exMBS], ?_, ?_⟩
    · intro j' _ _
      simp [exMBS]
    · intro j' hj' _
      have : j' = 0 := by omega
      subst this
      simp [exMBS]
  obtain ⟨eta, hord⟩ : ∃ eta, s.get exMBA 2 .R = (s, .ok (s.pos, eta)) := by
    obtain ⟨q, hq⟩ := exMBS_reaction
    rcases hr : s.res with _ | ⟨r0, rest⟩
    · rw [hr, hlen] at hres
      simp at hres
    have hst : ∃ jk, ilStation exMBS r0 2 = .ok jk := by
      rw [hr] at c3
      obtain ⟨y, _, ⟨row, hrun, _⟩, _⟩ := List.forall₂_cons_right_iff.1 c3
      obtain ⟨hl, ls, _, hm⟩ := BeamDef.memberResults_ok (runCase_ok hrun).2
      have hl : r0.2.length = 2 := hl
      obtain ⟨c, hc, he⟩ := hm 1 (by simp [exMBS, BeamB.toDef, zipMembers]) (by omega)
      have hloc : (exMBS.localCoords 2).1 = 1 := by
        simp [BeamB.localCoords, exMBS, List.findIdx?, List.findIdx?.go]
        norm_num
      have hget : r0.2[(1 : ℕ)]? = some r0.2[1] := List.getElem?_eq_getElem (by omega)
      simp only [ilStation, hloc]
      norm_num
      rw [hget]
      simp only
      have hn : 2 < r0.2[1].n := by
        obtain ⟨_, _, _, _, hnp, hsp, _⟩ := Member.ctx_ok hc
        rw [he]
        change 2 < c.n
        rw [MCtx.n, MCtx.grid, hsp]
        simp [memberGrid, shearPairs, uniformGrid]
      have hne' : ∀ (f : ℕ → ℝ), ∃ k, nearestIdx (2 : ℝ) ((List.range (r0.2[1].n - 2)).map f) = .ok k := by
        intro f
        obtain ⟨n, hn⟩ : ∃ n, r0.2[1].n - 2 = n + 1 := ⟨r0.2[1].n - 3, by omega⟩
        rw [hn, List.range_succ_eq_map]
        exact ⟨_, rfl⟩
      obtain ⟨k, hk⟩ := hne' fun k => r0.2[1].x (k + 1)
      rw [hk]
      exact ⟨_, _, rfl⟩
    obtain ⟨⟨j, k⟩, hjk⟩ := hst
    unfold ILState.get
    rw [hr]
    simp only [List.isEmpty_cons, Bool.false_eq_true, if_false, c1, hr, ilOrdinates, hjk, hq]
    exact ⟨_, rfl⟩
  obtain ⟨res, hmv⟩ : ∃ res, (exMBS.toDef.moved 2).analyze (fun _ => true) anySolver = .ok res := by
    obtain ⟨sy, hsy⟩ : ∃ sy, (exMBS.toDef.moved 2).system = .ok sy := by
      rw [BeamDef.system, moved_loads]
      simp [exMBS, BeamB.toDef, BeamDef.moved, zipMembers, mapE, Member.spanK, Member.refSum,
        condenseFor]
    obtain ⟨_, _, _, hr, _, _, _⟩ := BeamDef.system_ok hsy
    refine BeamDef.completes_any hsy (exMBS_nons hsy) ?_
    have : ∀ i, ¬ 0 < (exMBS.toDef.moved 2).restraints.getD i 0 := by
      intro i
      rcases i with _ | _ | _ | _ | _ | _ | i <;> simp [exMBS, BeamB.toDef, BeamDef.moved]
    simp only [System.validate, hr, this]
    simp
  have := C100_shear_influence_partial exMBA anySolver_sound exMBS exMBS_forIL exMBS_uniform
    (some 1) 3 s s hc (by
      intro h0
      rw [h0] at hlen
      simp at hlen) 2 .R 0 (.inl ⟨rfl, rfl⟩) s.pos eta hord 1 n0 (fun _ => true) anySolver
    anySolver_sound res hmv
  obtain ⟨⟨η, φ, h1⟩, h2⟩ := this
  have h3 := (h2 η φ h1).imp fun y w h a c => h a c (BeamB.clearOfPins_of exMBS
    (by simp [exMBS, BeamB.toDef, zipMembers]) y)
  exact ⟨s, s, s.pos, eta, res, η, φ, hc, hord, hlen, h3.length_eq ▸ hlen, hmv, h1, h3⟩

/-- C98 and the balance of C99 at a shear-flexible span with a point load beside a slender one
with a couple. -/
example : ∃ (solve : Solver ℝ) (res : Result ℝ) (v ψ κ γ : ℕ → ℝ → ℝ), solve.Sound ∧
    exShearBeam.analyze (fun _ => true) solve = .ok res ∧
    ShearAdmissible exShearBeam res.d v ψ κ γ ∧
    (∀ u' v' ψ' κ' γ', ShearAdmissible exShearBeam u' v' ψ' κ' γ' →
      shearPotential exShearBeam [⟨0, .pl 9 1⟩, ⟨1, .ml 5 1⟩] res.d v ψ κ γ
        ≤ shearPotential exShearBeam [⟨0, .pl 9 1⟩, ⟨1, .ml 5 1⟩] u' v' ψ' κ' γ') := by
  obtain ⟨solve, res, _, _, hs, h, _⟩ := exShearBeam_analysed
  have hpp : ∀ m ∈ exShearBeam.members, m.et ≠ .PP := by
    intro m hm
    simp only [exShearBeam, List.mem_cons, List.not_mem_nil, or_false] at hm
    rcases hm with rfl | rfl <;> simp
  obtain ⟨v, ψ, κ, γ, _, h1, h2⟩ := C98_shear_minimum_partial exShearBeam _ exShearBeam_loads
    exShearBeam_uniform (BeamDef.shearBalanced_of exShearBeam_couples hpp) _ solve hs res h
  exact ⟨solve, res, v, ψ, κ, γ, hs, h, h1, h2⟩

/-- The hypotheses of the stiffening theorems: a shear-flexible span against the slender one. -/
example : ShearStiffer
    (⟨[⟨.const 6, 3, .FF, some (.const 2)⟩], [-1, 0, -1, 0], [none, none, none, none], []⟩ : BeamDef ℝ)
    (exOneSpan 6 0) := by
  refine ⟨⟨rfl, ?_, ?_, ?_, ?_, ?_, ?_⟩, ?_⟩
  all_goals simp only [exOneSpan, List.length_cons, List.length_nil]
  · intro i hi _
    have : i = 0 := by omega
    subst this
    simp
  · intro i hi _
    have : i = 0 := by omega
    subst this
    simp [Member.flexRig]
  · intro i hi _
    have : i = 0 := by omega
    subst this; simp [EType.freeLeft]
  · intro i hi _
    have : i = 0 := by omega
    subst this; simp [EType.freeRight]
  · intro p hp
    have : p = 0 ∨ p = 1 ∨ p = 2 ∨ p = 3 := by omega
    rcases this with rfl | rfl | rfl | rfl <;> simp [BeamDef.Held]
  · intro p hp
    have : p = 0 ∨ p = 1 ∨ p = 2 ∨ p = 3 := by omega
    rcases this with rfl | rfl | rfl | rfl <;> simp [BeamDef.Held, BeamDef.springK]
  · intro i hi _
    have : i = 0 := by omega
    subst this
    simp [Member.shearFlex]

end PyCBA
