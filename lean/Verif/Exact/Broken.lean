import Verif.Exact.Mueller

set_option linter.unusedSectionVars false
set_option linter.unusedSimpArgs false

/-!
The principle of Müller-Breslau for bending moment and shear (C109): the influence line of an
internal force is the deflected shape of the beam that is broken at the point of interest, the
two sides being moved against each other by one unit.
-/

namespace PyCBA

open MeasureTheory Set Matrix

/-! ### Specification -/

/-- The elastic line of an unloaded span that is broken at `x0`: left of `x0` it is `vl`, `θl`,
right of it `v`, `θ`, and there the right side is `δ` higher than the left one and turned by
`τ` against it.  The end forces `F` are in equilibrium. -/
structure BrokenSpan (EI L x0 δ τ : ℝ) (F : Vec4 ℝ) (vl θl v θ : ℝ → ℝ) : Prop where
  slopeL : ∀ x ∈ Ioo 0 x0, HasDerivAt vl (θl x) x
  curvL : ∀ x ∈ Ioo 0 x0, HasDerivAt θl (cutM L [] F x / EI) x
  contL : ContinuousOn vl (Icc 0 x0) ∧ ContinuousOn θl (Icc 0 x0)
  slopeR : ∀ x ∈ Ioo x0 L, HasDerivAt v (θ x) x
  curvR : ∀ x ∈ Ioo x0 L, HasDerivAt θ (cutM L [] F x / EI) x
  contR : ContinuousOn v (Icc x0 L) ∧ ContinuousOn θ (Icc x0 L)
  jumpV : v x0 = vl x0 + δ
  jumpT : θ x0 = θl x0 + τ
  force : F 0 + F 2 = 0
  moment : F 1 + F 3 + F 2 * L = 0

/-- The solution of the continuous beam problem for the unloaded beam whose span `j` is broken
at `x0`: nodal displacements `y`, end forces `G`, elastic lines `η`, `φ`, and `ηl`, `φl` for the
part of span `j` left of `x0`. -/
structure BrokenBeam (b : BeamDef ℝ) (j : ℕ) (x0 δ τ : ℝ) (y : ℕ → ℝ) (G : ℕ → Vec4 ℝ)
    (ηl φl : ℝ → ℝ) (η φ : ℕ → ℝ → ℝ) : Prop where
  span : ∀ i (hi : i < b.members.length), ∀ e, b.members[i].EI = .const e → i ≠ j →
    ElasticSpan e b.members[i].L [] (G i) (η i) (φ i)
  broken : ∀ hj : j < b.members.length, ∀ e, b.members[j].EI = .const e →
    BrokenSpan e b.members[j].L x0 δ τ (G j) ηl φl (η j) (φ j)
  left : ∀ i < b.members.length, (if i = j then ηl 0 else η i 0) = y (2 * i)
  right : ∀ i (hi : i < b.members.length), η i b.members[i].L = y (2 * i + 2)
  rotLeft : ∀ i (hi : i < b.members.length),
    if b.members[i].et.freeLeft then G i 1 = 0
    else (if i = j then φl 0 else φ i 0) = y (2 * i + 1)
  rotRight : ∀ i (hi : i < b.members.length),
    if b.members[i].et.freeRight then G i 3 = 0 else φ i b.members[i].L = y (2 * i + 3)
  prescribed : ∀ p < 2 * b.members.length + 2, ∀ w, b.presc.getD p none = some w → y p = w
  rigid : ∀ p < 2 * b.members.length + 2, b.presc.getD p none = none →
    b.restraints.getD p 0 < 0 → y p = 0
  free : ∀ k ≤ b.members.length, ∀ c : Fin 2, b.presc.getD (2 * k + c) none = none →
    0 ≤ b.restraints.getD (2 * k + c) 0 → nodeSum b y G k c = 0

/-- The line of the broken beam: the left part of span `j` up to `x0`, the right one from
there on. -/
noncomputable def brokenLine (j : ℕ) (x0 : ℝ) (ηl : ℝ → ℝ) (η : ℕ → ℝ → ℝ) (i : ℕ) (x : ℝ) : ℝ :=
  if i = j ∧ x < x0 then ηl x else η i x

/-! ### The broken span -/

theorem line_unique {a c : ℝ} {f g h : ℝ → ℝ} (hf : ContinuousOn f (Icc a c))
    (hg : ContinuousOn g (Icc a c)) (df : ∀ x ∈ Ioo a c, HasDerivAt f (h x) x)
    (dg : ∀ x ∈ Ioo a c, HasDerivAt g (h x) x) (x : ℝ) (hx : x ∈ Icc a c) :
    f x - g x = f a - g a := by
  have key := integral_eq_of_hasDerivAt_off_countable_of_le (fun x => f x - g x) (fun _ => 0) hx.1
    (s := ∅) countable_empty ((hf.sub hg).mono (Icc_subset_Icc_right hx.2)) (by
      intro z hz
      have hz' : z ∈ Ioo a c := ⟨hz.1.1, hz.1.2.trans_le hx.2⟩
      exact ((df z hz').sub (dg z hz')).congr_deriv (sub_self _)) (by simp)
  simp only [intervalIntegral.integral_zero] at key
  linarith

/-- A broken elastic line is an elastic line with a rigid displacement added to the right of the
break. -/
theorem BrokenSpan.split {EI L x0 δ τ : ℝ} (hL : 0 < L) (hx0 : x0 ∈ Icc 0 L) {F : Vec4 ℝ}
    {vl θl v θ : ℝ → ℝ} (h : BrokenSpan EI L x0 δ τ F vl θl v θ) :
    ∃ V T, ElasticSpan EI L [] F V T ∧ (∀ x ∈ Icc 0 x0, vl x = V x ∧ θl x = T x) ∧
      ∀ x ∈ Icc x0 L, v x = V x + (δ + τ * (x - x0)) ∧ θ x = T x + τ := by
  have hown : ∀ ld ∈ ([] : List (Load ℝ)), ld.Plain L := by simp
  set V := exLineV EI L [] F (vl 0) (θl 0) with hV
  set T := exLineT EI L [] F (θl 0) with hT
  have dV : ∀ x, HasDerivAt V (T x) x := fun x => exLineV_deriv hL hown F _ _ x
  have dT : ∀ x ∈ Icc 0 L, HasDerivAt T (cutM L [] F x / EI) x := fun x hx =>
    exLineT_deriv hL hown F _ x hx (by simp)
  have cT : Continuous T := exLineT_continuous hL hown F _
  have cV : Continuous V := continuous_iff_continuousAt.2 fun x => (dV x).continuousAt
  obtain ⟨s1, s2⟩ := line_start EI L hL [] hown F (vl 0) (θl 0)
  have t1 : ∀ x ∈ Icc 0 x0, θl x = T x := by
    intro x hx
    have := line_unique h.contL.2 cT.continuousOn h.curvL
      (fun z hz => dT z ⟨hz.1.le, hz.2.le.trans hx0.2⟩) x hx
    rw [show T 0 = θl 0 from s2] at this
    linarith
  have v1 : ∀ x ∈ Icc 0 x0, vl x = V x := by
    intro x hx
    have := line_unique h.contL.1 cV.continuousOn h.slopeL
      (fun z hz => by rw [t1 z ⟨hz.1.le, hz.2.le⟩]; exact dV z) x hx
    rw [show V 0 = vl 0 from s1] at this
    linarith
  have t2 : ∀ x ∈ Icc x0 L, θ x = T x + τ := by
    intro x hx
    have := line_unique h.contR.2 cT.continuousOn h.curvR
      (fun z hz => dT z ⟨hx0.1.trans hz.1.le, hz.2.le⟩) x hx
    have e := h.jumpT
    rw [t1 x0 ⟨hx0.1, le_rfl⟩] at e
    linarith
  have v2 : ∀ x ∈ Icc x0 L, v x = V x + (δ + τ * (x - x0)) := by
    intro x hx
    have := line_unique (g := fun z => V z + (δ + τ * (z - x0))) h.contR.1
      (by fun_prop) h.slopeR
      (fun z hz => by
        rw [t2 z ⟨hz.1.le, hz.2.le⟩]
        exact ((dV z).add ((((hasDerivAt_id z).sub_const x0).const_mul τ).const_add δ)).congr_deriv
          (by ring)) x hx
    have e := h.jumpV
    rw [v1 x0 ⟨hx0.1, le_rfl⟩] at e
    simp only [sub_self, mul_zero, add_zero] at this
    linarith
  refine ⟨V, T, ⟨fun x _ => dV x, fun x hx _ => dT x ⟨hx.1.le, hx.2.le⟩, cV.continuousOn,
    cT.continuousOn, by simpa using h.force, by simpa using h.moment⟩, fun x hx => ⟨v1 x hx, t1 x hx⟩,
    fun x hx => ⟨v2 x hx, t2 x hx⟩⟩

/-! ### Work through the break -/

theorem integral_from {L a : ℝ} (ha : a ∈ Icc 0 L) (f : ℝ → ℝ) :
    ∫ x in (0 : ℝ)..L, (if a ≤ x then f x else 0) = ∫ x in a..L, f x := by
  rw [← integral_right ha]
  refine intervalIntegral.integral_congr_ae ?_
  filter_upwards [compl_mem_ae_iff.2 (measure_singleton a)] with x hx _
  have : x ≠ a := hx
  rcases lt_or_gt_of_ne this with h | h
  · rw [if_neg (not_le.2 h), if_neg (not_lt.2 h.le)]
  · rw [if_pos h.le, if_pos h]

/-- The work of a load through a rigid displacement of the part right of `x0`. -/
theorem Load.work_jump (ld : Load ℝ) {L x0 : ℝ} (hx0 : x0 ∈ Icc 0 L) (ho : ld.OnSpan L)
    (δ τ : ℝ) :
    ld.work L (fun x => if x0 ≤ x then δ + τ * (x - x0) else 0) (fun x => if x0 ≤ x then τ else 0)
      = -((ld.total L - ld.forceLeft L x0) * δ)
        - (ld.momentAboutLeft L - x0 * ld.total L + ld.momentLeft L x0) * τ := by
  have hdist : ld.forces = [] → ld.couplesAt = [] → ld.couples = [] →
      ld.work L (fun x => if x0 ≤ x then δ + τ * (x - x0) else 0) (fun x => if x0 ≤ x then τ else 0)
      = -((ld.total L - ld.forceLeft L x0) * δ)
        - (ld.momentAboutLeft L - x0 * ld.total L + ld.momentLeft L x0) * τ := by
    intro h1 h2 h3
    simp only [Load.total, Load.momentAboutLeft, Load.work, Load.forceLeft, Load.momentLeft, h1, h2,
      h3, List.map_nil, List.sum_nil, List.filter_nil]
    have i1 : ∀ s t, IntervalIntegrable (ld.intensity L) volume s t := fun s t => by
      simpa using intensity_integrable ld L (fun _ => 1) continuous_const s t
    have i2 : ∀ s t, IntervalIntegrable (fun x => x * ld.intensity L x) volume s t := fun s t =>
      intensity_integrable ld L (fun x => x) continuous_id s t
    have e1 : ∫ x in (0 : ℝ)..L, ld.intensity L x * (if x0 ≤ x then δ + τ * (x - x0) else 0)
        = (δ - τ * x0) * (∫ x in x0..L, ld.intensity L x)
          + τ * ∫ x in x0..L, x * ld.intensity L x := by
      have : (fun x => ld.intensity L x * (if x0 ≤ x then δ + τ * (x - x0) else 0))
          = fun x => if x0 ≤ x then ld.intensity L x * (δ + τ * (x - x0)) else 0 := by
        funext x
        split <;> simp
      rw [this, integral_from hx0, ← intervalIntegral.integral_const_mul,
        ← intervalIntegral.integral_const_mul, ← intervalIntegral.integral_add
          ((i1 _ _).const_mul _) ((i2 _ _).const_mul _)]
      congr 1
      funext x
      ring
    have e2 : ∫ s in (0 : ℝ)..x0, (x0 - s) * ld.intensity L s
        = x0 * (∫ s in (0 : ℝ)..x0, ld.intensity L s) - ∫ s in (0 : ℝ)..x0, s * ld.intensity L s := by
      rw [← intervalIntegral.integral_const_mul, ← intervalIntegral.integral_sub
        ((i1 _ _).const_mul _) (i2 _ _)]
      congr 1
      funext s
      ring
    have a1 := intervalIntegral.integral_add_adjacent_intervals (i1 0 x0) (i1 x0 L)
    have a2 := intervalIntegral.integral_add_adjacent_intervals (i2 0 x0) (i2 x0 L)
    rw [e1, e2, ← a1, ← a2]
    ring
  cases ld with
  | pl P a =>
    rcases lt_or_ge a x0 with h | h
    · simp [Load.total, Load.momentAboutLeft, Load.work, Load.forceLeft, Load.momentLeft, Load.forces,
        Load.couples, Load.couplesAt, Load.intensity, h, not_le.2 h]
      left
      ring
    · simp [Load.total, Load.momentAboutLeft, Load.work, Load.forceLeft, Load.momentLeft, Load.forces,
        Load.couples, Load.couplesAt, Load.intensity, h, not_lt.2 h]
      ring
  | ml m a =>
    rcases lt_or_ge a x0 with h | h
    · simp [Load.total, Load.momentAboutLeft, Load.work, Load.forceLeft, Load.momentLeft, Load.forces,
        Load.couples, Load.couplesAt, Load.intensity, h, not_le.2 h]
    · simp [Load.total, Load.momentAboutLeft, Load.work, Load.forceLeft, Load.momentLeft, Load.forces,
        Load.couples, Load.couplesAt, Load.intensity, h, not_lt.2 h]
  | _ => exact hdist rfl rfl rfl

/-- The work of a load through a broken line. -/
theorem Load.work_broken (ld : Load ℝ) {L x0 δ τ : ℝ} (hL : 0 < L) (hx0 : x0 ∈ Icc 0 L)
    (ho : ld.OnSpan L) {V T vl θl v θ : ℝ → ℝ} (cV : ContinuousOn V (Icc 0 L))
    (hl : ∀ x ∈ Icc 0 x0, vl x = V x ∧ θl x = T x)
    (hr : ∀ x ∈ Icc x0 L, v x = V x + (δ + τ * (x - x0)) ∧ θ x = T x + τ) :
    ld.work L (fun x => if x < x0 then vl x else v x) (fun x => if x < x0 then θl x else θ x)
      = ld.work L V T + (-((ld.total L - ld.forceLeft L x0) * δ)
        - (ld.momentAboutLeft L - x0 * ld.total L + ld.momentLeft L x0) * τ) := by
  rw [← ld.work_jump hx0 ho]
  have ev : ∀ x ∈ Icc 0 L, (if x < x0 then vl x else v x)
      = V x + (if x0 ≤ x then δ + τ * (x - x0) else 0) := by
    intro x hx
    rcases lt_or_ge x x0 with h | h
    · rw [if_pos h, if_neg (not_le.2 h), (hl x ⟨hx.1, h.le⟩).1, add_zero]
    · rw [if_neg (not_lt.2 h), if_pos h, (hr x ⟨h, hx.2⟩).1]
  have et : ∀ x ∈ Icc 0 L, (if x < x0 then θl x else θ x)
      = T x + (if x0 ≤ x then τ else 0) := by
    intro x hx
    rcases lt_or_ge x x0 with h | h
    · rw [if_pos h, if_neg (not_le.2 h), (hl x ⟨hx.1, h.le⟩).2, add_zero]
    · rw [if_neg (not_lt.2 h), if_pos h, (hr x ⟨h, hx.2⟩).2]
  have hV : IntervalIntegrable V volume 0 L :=
    ContinuousOn.intervalIntegrable (by rw [uIcc_of_le hL.le]; exact cV)
  have tJ : Tame L fun x => if x0 ≤ x then δ + τ * (x - x0) else 0 := by
    obtain ⟨hm, C, hC⟩ := Tame.of_continuous (L := L) (f := fun x => δ + τ * (x - x0)) (by fun_prop)
    refine ⟨Measurable.ite measurableSet_Ici hm measurable_const, C, fun x hx => ?_⟩
    dsimp only
    split
    · exact hC x hx
    · simpa using (abs_nonneg _).trans (hC x hx)
  have ei : ∫ x in (0 : ℝ)..L, ld.intensity L x * (if x < x0 then vl x else v x)
      = (∫ x in (0 : ℝ)..L, ld.intensity L x * V x)
        + ∫ x in (0 : ℝ)..L, ld.intensity L x * (if x0 ≤ x then δ + τ * (x - x0) else 0) := by
    rw [← intervalIntegral.integral_add ((intensity_tame ld L).mul_integrable hL.le hV)
      ((intensity_tame ld L).mul tJ |>.integrable hL.le)]
    refine intervalIntegral.integral_congr fun x hx => ?_
    rw [uIcc_of_le hL.le] at hx
    simp only [ev x hx]
    ring
  simp only [Load.work, ei]
  cases ld with
  | pl P a =>
    simp only [Load.forces, Load.couplesAt, List.map_cons, List.map_nil, List.sum_cons, List.sum_nil,
      ev a ho]
    ring
  | ml m a =>
    simp only [Load.forces, Load.couplesAt, List.map_cons, List.map_nil, List.sum_cons, List.sum_nil,
      et a ho]
    ring
  | _ => simp only [Load.forces, Load.couplesAt, List.map_nil, List.sum_nil]; ring

/-- **Virtual work through a broken line**: the internal forces at the break do work, too. -/
theorem broken_span_work {EI L x0 δ τ : ℝ} (hL : 0 < L) (hx0 : x0 ∈ Icc 0 L) (own : List (Load ℝ))
    (F : Vec4 ℝ) (ho : ∀ ld ∈ own, ld.OnSpan L)
    (hf : F 0 + F 2 = (own.map fun ld => ld.total L).sum)
    (hm : F 1 + F 3 + F 2 * L = (own.map fun ld => ld.momentAboutLeft L).sum)
    {G : Vec4 ℝ} {vl θl v θ : ℝ → ℝ} (h : BrokenSpan EI L x0 δ τ G vl θl v θ) :
    ∫ x in (0 : ℝ)..L, cutM L own F x * (cutM L [] G x / EI)
      = F 0 * vl 0 + F 1 * θl 0 + F 2 * v L + F 3 * θ L
        + (own.map fun ld => ld.work L (fun x => if x < x0 then vl x else v x)
            (fun x => if x < x0 then θl x else θ x)).sum
        + cutV L own F x0 * δ - cutM L own F x0 * τ := by
  obtain ⟨V, T, hE, hl, hr⟩ := h.split hL hx0
  rw [span_virtual_work hL.le own F ho hf hm (hE.shape hL.le), (hl 0 ⟨le_rfl, hx0.1⟩).1,
    (hl 0 ⟨le_rfl, hx0.1⟩).2, (hr L ⟨hx0.2, le_rfl⟩).1, (hr L ⟨hx0.2, le_rfl⟩).2, cutV, cutM]
  have e : (own.map fun ld => ld.work L (fun x => if x < x0 then vl x else v x)
        (fun x => if x < x0 then θl x else θ x)).sum
      = (own.map fun ld => ld.work L V T).sum
        - ((own.map fun ld => ld.total L).sum - (own.map fun ld => ld.forceLeft L x0).sum) * δ
        - ((own.map fun ld => ld.momentAboutLeft L).sum - x0 * (own.map fun ld => ld.total L).sum
            + (own.map fun ld => ld.momentLeft L x0).sum) * τ := by
    clear hf hm
    induction own with
    | nil => simp
    | cons a l ih =>
      simp only [List.map_cons, List.sum_cons]
      rw [ih fun b hb => ho b (List.mem_cons_of_mem _ hb),
        a.work_broken hL hx0 (ho a (by simp)) hE.contV hl hr]
      ring
  rw [e, ← hf, ← hm]
  ring

/-! ### The broken beam -/

/-- **Müller-Breslau** for the internal forces of the continuous problem: the bending moment
and the shear just left of `x0`, acting through the break, do the work of the loads through the
line of the broken beam. -/
theorem mueller_breslau_cut {b : BeamDef ℝ} {ls : List (SpanLoad ℝ)} (hb : b.Slender ls)
    (hu : b.Unsettled) {u : ℕ → ℝ} {F : ℕ → Vec4 ℝ} {v θ : ℕ → ℝ → ℝ}
    (h : ElasticBeam b ls u F v θ) (j : ℕ) (hj : j < b.members.length) (x0 : ℝ)
    (hx0 : x0 ∈ Icc 0 b.members[j].L) {δ τ : ℝ} {y : ℕ → ℝ} {G : ℕ → Vec4 ℝ} {ηl φl : ℝ → ℝ}
    {η φ : ℕ → ℝ → ℝ} (hm : BrokenBeam b j x0 δ τ y G ηl φl η φ) :
    cutM b.members[j].L (ownLoads j ls) (F j) x0 * τ - cutV b.members[j].L (ownLoads j ls) (F j) x0 * δ
      = loadWork b ls (brokenLine j x0 ηl η) (brokenLine j x0 φl φ) := by
  have ha := h.admissible hb
  -- the forces of the loaded beam through the broken line
  have w1 : ∀ i : Fin b.members.length, ∫ x in (0 : ℝ)..b.members[i].L,
        cutM b.members[i].L (ownLoads i ls) (F i) x
          * (cutM b.members[i].L [] (G i) x / b.members[i].flexRig)
      = F i 0 * y (2 * i) + F i 1 * y (2 * i + 1) + F i 2 * y (2 * i + 2) + F i 3 * y (2 * i + 3)
        + ((ownLoads i ls).map fun ld => ld.work b.members[i].L (brokenLine j x0 ηl η i)
            (brokenLine j x0 φl φ i)).sum
        + (if (i : ℕ) = j then cutV b.members[j].L (ownLoads j ls) (F j) x0 * δ
            - cutM b.members[j].L (ownLoads j ls) (F j) x0 * τ else 0) := by
    intro i
    have hE := h.elastic hb i i.2
    have hL := hb.pos _ (List.getElem_mem i.2)
    have hc := (ElasticBeam.const hb i i.2).2
    have e1 : F i 1 * (if (i : ℕ) = j then φl 0 else φ i 0) = F i 1 * y (2 * i + 1) := by
      have hr := h.rotLeft i i.2
      have hr' := hm.rotLeft i i.2
      by_cases hf : b.members[(i : ℕ)].et.freeLeft
      · rw [if_pos hf] at hr
        rw [hr]
        ring
      · rw [if_neg hf] at hr'
        rw [hr']
    have e2 : F i 3 * φ i b.members[(i : ℕ)].L = F i 3 * y (2 * i + 3) := by
      have hr := h.rotRight i i.2
      have hr' := hm.rotRight i i.2
      by_cases hf : b.members[(i : ℕ)].et.freeRight
      · rw [if_pos hf] at hr
        rw [hr]
        ring
      · rw [if_neg hf] at hr'
        rw [hr']
    have e0 := hm.left i i.2
    simp only [Fin.getElem_fin]
    by_cases hij : (i : ℕ) = j
    · obtain ⟨i, hi⟩ := i
      simp only at hij
      subst hij
      have hB := hm.broken hi _ hc
      have hw := broken_span_work hL hx0 (ownLoads i ls) (F i) (Slender.onSpan hb i hi) hE.force
        hE.moment hB
      simp only [if_true] at e0 e1 ⊢
      rw [hw, e0, e1, hm.right i hi, e2]
      have ej : ∀ f : ℝ → ℝ, ∀ g : ℕ → ℝ → ℝ,
          brokenLine i x0 f g i = fun x => if x < x0 then f x else g i x := by
        intro f g
        funext x
        simp only [brokenLine, true_and]
      rw [ej, ej]
      ring
    · have hw := span_virtual_work hL.le (ownLoads i ls) (F i) (Slender.onSpan hb i i.2) hE.force
        hE.moment ((hm.span i i.2 _ hc hij).shape hL.le)
      rw [if_neg hij] at e0 e1 ⊢
      rw [hw, e0, e1, hm.right i i.2, e2, add_zero]
      have ej : ∀ f : ℝ → ℝ, ∀ g : ℕ → ℝ → ℝ, brokenLine j x0 f g i = g i := by
        intro f g
        funext x
        simp only [brokenLine, hij, false_and, if_false]
      rw [ej, ej]
  -- the forces of the broken beam through the line of the loaded beam
  have w2 : ∀ i : Fin b.members.length, ∫ x in (0 : ℝ)..b.members[i].L,
        cutM b.members[i].L [] (G i) x * lineKappa b ls F i x
      = G i 0 * u (2 * i) + G i 1 * u (2 * i + 1) + G i 2 * u (2 * i + 2) + G i 3 * u (2 * i + 3) := by
    intro i
    have hL := hb.pos _ (List.getElem_mem i.2)
    have hc := (ElasticBeam.const hb i i.2).2
    have hq : G i 0 + G i 2 = 0 ∧ G i 1 + G i 3 + G i 2 * b.members[(i : ℕ)].L = 0 := by
      by_cases hij : (i : ℕ) = j
      · obtain ⟨i, hi⟩ := i
        simp only at hij
        subst hij
        have hB := hm.broken hi _ hc
        exact ⟨hB.force, hB.moment⟩
      · have hB := hm.span i i.2 _ hc hij
        exact ⟨by simpa using hB.force, by simpa using hB.moment⟩
    have hw := span_virtual_work hL.le [] (G i) (by simp) (by simpa using hq.1)
      (by simpa using hq.2) (ha.shape i i.2)
    have e1 : G i 1 * θ i 0 = G i 1 * u (2 * i + 1) := by
      have hr := h.rotLeft i i.2
      have hr' := hm.rotLeft i i.2
      by_cases hf : b.members[(i : ℕ)].et.freeLeft
      · rw [if_pos hf] at hr'
        rw [hr']
        ring
      · rw [if_neg hf] at hr
        rw [hr]
    have e2 : G i 3 * θ i b.members[(i : ℕ)].L = G i 3 * u (2 * i + 3) := by
      have hr := h.rotRight i i.2
      have hr' := hm.rotRight i i.2
      by_cases hf : b.members[(i : ℕ)].et.freeRight
      · rw [if_pos hf] at hr'
        rw [hr']
        ring
      · rw [if_neg hf] at hr
        rw [hr]
    simp only [Fin.getElem_fin] at hw ⊢
    rw [hw, h.left i i.2, h.right i i.2, e1, e2]
    simp
  have n1 := node_work b u y F
  have n2 := node_work b y u G
  have z1 : ∑ k ∈ Finset.range (b.members.length + 1), ∑ c : Fin 2,
      y (2 * k + c) * nodeSum b u F k c = 0 := by
    refine node_work_zero h fun p hp hcon => ?_
    rcases hpr : b.presc.getD p none with _ | w
    · rw [hpr] at hcon
      exact hm.rigid p hp hpr (hcon.resolve_left (by simp))
    · rw [hm.prescribed p hp w hpr, hu p w hpr]
  have z2 : ∑ k ∈ Finset.range (b.members.length + 1), ∑ c : Fin 2,
      u (2 * k + c) * nodeSum b y G k c = 0 := by
    refine Finset.sum_eq_zero fun k hk => Finset.sum_eq_zero fun c _ => ?_
    have hk' : k ≤ b.members.length := by have := Finset.mem_range.1 hk; omega
    have hlt : 2 * k + (c : ℕ) < 2 * b.members.length + 2 := by omega
    rcases hpr : b.presc.getD (2 * k + c) none with _ | w
    · by_cases hr : b.restraints.getD (2 * k + c) 0 < 0
      · rw [h.rigid _ hlt hpr hr, zero_mul]
      · rw [hm.free k hk' c hpr (not_lt.1 hr), mul_zero]
    · rw [h.prescribed _ hlt w hpr, hu _ w hpr, zero_mul]
  rw [z1] at n1
  rw [z2] at n2
  have ei : ∑ i : Fin b.members.length, ∫ x in (0 : ℝ)..b.members[i].L,
        cutM b.members[i].L (ownLoads i ls) (F i) x
          * (cutM b.members[i].L [] (G i) x / b.members[i].flexRig)
      = ∑ i : Fin b.members.length, ∫ x in (0 : ℝ)..b.members[i].L,
        cutM b.members[i].L [] (G i) x * lineKappa b ls F i x := by
    refine Finset.sum_congr rfl fun i _ => ?_
    congr 1
    funext x
    rw [lineKappa_eq b ls F i i.2]
    exact mul_div_swap _ _ _
  have es : ∑ q ∈ Finset.range (2 * b.members.length + 2), b.springK q * u q * y q
      = ∑ q ∈ Finset.range (2 * b.members.length + 2), b.springK q * y q * u q :=
    Finset.sum_congr rfl fun q _ => by ring
  have ec : ∑ i : Fin b.members.length, (if (i : ℕ) = j
        then cutV b.members[j].L (ownLoads j ls) (F j) x0 * δ
            - cutM b.members[j].L (ownLoads j ls) (F j) x0 * τ else 0)
      = cutV b.members[j].L (ownLoads j ls) (F j) x0 * δ
            - cutM b.members[j].L (ownLoads j ls) (F j) x0 * τ := by
    rw [Finset.sum_eq_single ⟨j, hj⟩]
    · simp
    · intro k _ hk
      rw [if_neg]
      intro he
      exact hk (Fin.ext he)
    · simp
  simp_rw [w1, w2] at ei
  rw [Finset.sum_add_distrib, Finset.sum_add_distrib, ec] at ei
  simp only [loadWork]
  linarith

/-! ### The broken beam exists -/

theorem releaseCnl_zero (L : ℝ) (et : EType) :
    (releaseCnl (clampedSum L []) L et).vec = 0 ∧ (clampedSum L ([] : List (Load ℝ))).vec = 0 := by
  constructor
  · ext p
    cases et <;> fin_cases p <;> simp [releaseCnl, clampedSum, CNL.vec]
  · ext p
    fin_cases p <;> simp [clampedSum, CNL.vec]

/-- A beam that is no mechanism can be broken: the continuous problem has a solution. -/
theorem brokenBeam_exists {b : BeamDef ℝ} {ls : List (SpanLoad ℝ)} (hb : b.Slender ls)
    {s : System ℝ} (hs : b.system = .ok s)
    (hns : s.Nonsingular) (j : ℕ) (hj : j < b.members.length) (x0 : ℝ)
    (hx0 : x0 ∈ Icc 0 b.members[j].L) (δ τ : ℝ) :
    ∃ y G ηl φl η φ, BrokenBeam b j x0 δ τ y G ηl φl η φ := by
  obtain ⟨hn, hk, _, hr, hp, _, _⟩ := BeamDef.system_ok hs
  set J : Vec4 ℝ := ![0, 0, δ + τ * (b.members[j].L - x0), τ] with hJ
  set s' : System ℝ := { s with ref := fun i => if i = j then -(s.kb i *ᵥ J) else 0 } with hs'
  obtain ⟨d, hd, hf⟩ := System.exists_solution (s := s') hns
  have hkb : ∀ i (hi : i < b.members.length), s.kb i
      = kOf b.members[i].flexRig b.members[i].L b.members[i].et := by
    intro i hi
    have h1 := hk i hi
    rw [spanK_kOf (ElasticBeam.const hb i hi).2 (hb.prismatic _ (List.getElem_mem hi)).1] at h1
    exact (Except.ok.inj h1).symm
  have hF : ∀ i (hi : i < b.members.length), s'.endForces d i
      = kOf b.members[i].flexRig b.members[i].L b.members[i].et
          *ᵥ (elemVec d i - if i = j then J else 0) := by
    intro i hi
    simp only [System.endForces, hs', hkb i hi]
    by_cases hij : i = j
    · simp only [hij, if_true, Matrix.mulVec_sub]
      rw [sub_eq_add_neg]
    · simp [hij]
  have key : ∀ i, ∃ V T : ℝ → ℝ, ∀ hi : i < b.members.length,
      ElasticSpan b.members[i].flexRig b.members[i].L [] (s'.endForces d i) V T ∧
      V 0 = d (2 * i) ∧ V b.members[i].L = d (2 * i + 2) - (if i = j then J 2 else 0) ∧
      (if b.members[i].et.freeLeft then s'.endForces d i 1 = 0 else T 0 = d (2 * i + 1)) ∧
      (if b.members[i].et.freeRight then s'.endForces d i 3 = 0
        else T b.members[i].L = d (2 * i + 3) - (if i = j then J 3 else 0)) := by
    intro i
    by_cases hi : i < b.members.length
    · have hL := hb.pos _ (List.getElem_mem hi)
      obtain ⟨he, _⟩ := ElasticBeam.const hb i hi
      obtain ⟨z1, z2⟩ := releaseCnl_zero b.members[i].L b.members[i].et
      obtain ⟨t1, t3, g1, g2, g3⟩ := (release_iff he hL _ (clampedSum b.members[i].L [])
        (fun _ => by simp [clampedSum]) (s'.endForces d i) _).1 (by
          rw [z1, add_zero]
          exact hF i hi)
      obtain ⟨V, T, k1, k2, k3, k4, k5⟩ := elasticSpan_of_stiffness he.ne' hL
        (own := []) (by simp) _ _ g1
      have e0 : (if i = j then J else 0) 0 = 0 := by split <;> simp [hJ]
      have e1 : (if i = j then J else 0) 1 = 0 := by split <;> simp [hJ]
      have e2 : (if i = j then J else 0) 2 = if i = j then J 2 else 0 := by split <;> simp
      have e3 : (if i = j then J else 0) 3 = if i = j then J 3 else 0 := by split <;> simp
      refine ⟨V, T, fun _ => ⟨k1, ?_, ?_, ?_, ?_⟩⟩
      · rw [k2]
        simp only [Matrix.cons_val, Pi.sub_apply, e0, sub_zero]
        rfl
      · rw [k4]
        simp only [Matrix.cons_val, Pi.sub_apply, e2]
        rfl
      · rw [k3]
        simp only [Matrix.cons_val, Pi.sub_apply, e1, sub_zero] at g2 ⊢
        exact g2
      · rw [k5]
        simp only [Matrix.cons_val, Pi.sub_apply, e3] at g3 ⊢
        exact g3
    · exact ⟨0, 0, fun h => absurd h hi⟩
  choose V T hVT using key
  have e2 : J 2 = δ + τ * (b.members[j].L - x0) := by simp [hJ]
  have e3 : J 3 = τ := by simp [hJ]
  refine ⟨d, s'.endForces d, V j, T j,
    fun i x => if i = j then V j x + (δ + τ * (x - x0)) else V i x,
    fun i x => if i = j then T j x + τ else T i x, ?_, ?_, ?_, ?_, ?_, ?_, ?_, ?_, ?_⟩
  · intro i hi e he hij
    have h1 := (hVT i hi).1
    rw [(ElasticBeam.const hb i hi).2] at he
    cases he
    simpa only [hij, if_false] using h1
  · intro _ e he
    have h1 := (hVT j hj).1
    rw [(ElasticBeam.const hb j hj).2] at he
    cases he
    simp only [if_true]
    refine ⟨fun x hx => h1.slope x ⟨hx.1, hx.2.trans_le hx0.2⟩,
      fun x hx => h1.curvature x ⟨hx.1, hx.2.trans_le hx0.2⟩ (by simp),
      ⟨h1.contV.mono (Icc_subset_Icc_right hx0.2), h1.contT.mono (Icc_subset_Icc_right hx0.2)⟩,
      fun x hx => ?_, fun x hx => ?_, ⟨?_, ?_⟩, by simp, rfl, by simpa using h1.force,
      by simpa using h1.moment⟩
    · exact ((h1.slope x ⟨hx0.1.trans_lt hx.1, hx.2⟩).add
        ((((hasDerivAt_id x).sub_const x0).const_mul τ).const_add δ)).congr_deriv (by ring)
    · exact (h1.curvature x ⟨hx0.1.trans_lt hx.1, hx.2⟩ (by simp)).add_const τ
    · exact (h1.contV.mono (Icc_subset_Icc_left hx0.1)).add (by fun_prop)
    · exact (h1.contT.mono (Icc_subset_Icc_left hx0.1)).add (by fun_prop)
  · intro i hi
    have h1 := (hVT i hi).2.1
    by_cases hij : i = j
    · subst hij
      simpa using h1
    · simpa [hij] using h1
  · intro i hi
    have h1 := (hVT i hi).2.2.1
    by_cases hij : i = j
    · subst hij
      simp only [if_true] at h1 ⊢
      rw [h1, e2]
      ring
    · simpa [hij] using h1
  · intro i hi
    have h1 := (hVT i hi).2.2.2.1
    by_cases hij : i = j
    · subst hij
      simpa using h1
    · simpa [hij] using h1
  · intro i hi
    have h1 := (hVT i hi).2.2.2.2
    by_cases hij : i = j
    · subst hij
      simp only [if_true] at h1 ⊢
      by_cases hfr : b.members[i].et.freeRight
      · rw [if_pos hfr] at h1 ⊢
        exact h1
      · rw [if_neg hfr] at h1 ⊢
        rw [h1, e3]
        ring
    · simpa [hij] using h1
  · intro p hpN w hw
    exact hd p (by simp only [System.N, hs', hn]; exact hpN) w (by
      simp only [System.constr, hs', hp, hw])
  · intro p hpN hw hneg
    exact hd p (by simp only [System.N, hs', hn]; exact hpN) 0 (by
      simp only [System.constr, hs', hp, hw, hr, if_pos hneg])
  · intro k hk c hw hpos
    have hc := c.isLt
    have h1 := hf (2 * k + c) (by simp only [System.N, hs', hn]; omega) (by
      simp only [System.constr, hs', hp, hw, hr, if_neg (not_lt.mpr hpos)])
    rw [s'.residual_node d k (by simp only [hs', hn]; exact hk) c] at h1
    have e1 : s'.n = b.members.length := by simp only [hs', hn]
    have e2 : s'.spring (2 * k + c) = max (b.restraints.getD (2 * k + c) 0) 0 := by
      simp only [System.spring, hs', hr]
      rcases lt_or_ge 0 (b.restraints.getD (2 * k + c) 0) with h | h
      · rw [if_pos h, max_eq_left h.le]
      · rw [if_neg (not_lt.mpr h), max_eq_right h]
    rw [e1, e2] at h1
    exact h1

/-! ## C109 -/

/-- **C109**: the beam broken at a point of a span exists, whatever the break.  Partial: slender
prismatic members. -/
theorem C109_exists_partial (b : BeamDef ℝ) (ls : List (SpanLoad ℝ)) (hb : b.Slender ls)
    (s : System ℝ) (hs : b.system = .ok s)
    (hns : s.Nonsingular) (j : ℕ) (hj : j < b.members.length) (x0 : ℝ) (h0 : 0 ≤ x0)
    (h1 : x0 ≤ b.members[j].L) (δ τ : ℝ) :
    ∃ y G ηl φl η φ, BrokenBeam b j x0 δ τ y G ηl φl η φ :=
  brokenBeam_exists hb hs hns j hj x0 ⟨h0, h1⟩ δ τ

/-- **C109**: the shear and bending moment reported at a station are minus the work of the
loads through the line of the beam that is broken there: for the shear the right side is raised
by one unit against the left, for the bending moment it is turned clockwise by one unit (away
from applied couples).  Partial: slender prismatic members, and clamped end moments that cancel
on pinned-pinned members. -/
theorem C109_internal_partial (b : BeamDef ℝ) (ls : List (SpanLoad ℝ)) (hls : b.setLoads = .ok ls)
    (hb : b.Slender ls) (hpp : b.PinsBalanced ls) (hu : b.Unsettled)
    (stable : System ℝ → Bool) (solve : Solver ℝ) (hs : solve.Sound) (res : Result ℝ)
    (h : b.analyze stable solve = .ok res) (npts : ℕ) (hn : 0 < npts) (sp : ℕ → List ℝ)
    (rs : List (MRes ℝ)) (hr : b.memberResults res npts sp = .ok rs) (j : ℕ)
    (hj : j < b.members.length) (hj' : j < rs.length) (k : ℕ) (hk : 0 < k) (hk' : k + 1 < rs[j].n)
    (x0 : ℝ) (hx0 : b.nodeX j + x0 = rs[j].x k) :
    (∀ y G ηl φl η φ, BrokenBeam b j x0 1 0 y G ηl φl η φ →
      rs[j].V k = -loadWork b ls (brokenLine j x0 ηl η) (brokenLine j x0 φl φ)) ∧
    ((∀ ld ∈ ownLoads j ls, ∀ p ∈ ld.couplesAt, p.2 ≠ x0) →
      ∀ y G ηl φl η φ, BrokenBeam b j x0 0 (-1) y G ηl φl η φ →
        rs[j].M k = -loadWork b ls (brokenLine j x0 ηl η) (brokenLine j x0 φl φ)) := by
  obtain ⟨v, θ, hE⟩ := C91_exact_partial b ls hls hb hpp stable solve hs res h
  obtain ⟨rV, rM⟩ := C91_reported b ls hls hb hpp stable solve hs res h npts hn sp rs hr j hj hj' k
    hk hk'
  obtain ⟨ls', kk, t, c, hls', _, _, _, m1, m2, m3, m4, m5, m6, hc⟩ :=
    BeamDef.results_member hs h hr j hj hj'
  have hL := hb.pos _ (List.getElem_mem hj)
  obtain ⟨x1, x2, x3, x4, x5, x6⟩ := c.x_spec (by rw [m1]; exact hL) (by rw [m5]; exact hn)
  have ex : rs[j].x k - b.nodeX j = x0 := by linarith
  rw [ex] at rV rM
  have hxI : x0 ∈ Icc 0 b.members[j].L := by
    have hk2 : k + 1 < c.n := by rw [hc] at hk'; exact hk'
    have e : c.x k = x0 := by
      have : rs[j].x k = c.x k + b.nodeX j := by rw [hc]
      linarith
    rw [← e]
    rw [m1] at x5
    exact ⟨x2 ▸ x6 0 k (by omega) (by omega), x5 ▸ x6 k (c.n - 1) (by omega) (by omega)⟩
  refine ⟨fun y G ηl φl η φ hB => ?_, fun hcp y G ηl φl η φ hB => ?_⟩
  · have := mueller_breslau_cut hb hu hE j hj x0 hxI hB
    rw [rV, ← this]
    ring
  · have := mueller_breslau_cut hb hu hE j hj x0 hxI hB
    rw [rM hcp, ← this]
    ring

/-! ### Influence lines -/

/-- Station `q` of the `npts + 1` equally spaced ones of span `j`, the span of the point of
interest, is the first of those nearest to it. -/
def NearestStation (lens : List ℝ) (npts : ℕ) (poi : ℝ) (j q : ℕ) : Prop :=
  SpanOf lens poi j ∧ q ≤ npts ∧
    (∀ q' ≤ npts, |(lens.take j).sum + q * (lens.getD j 0 / npts) - poi|
      ≤ |(lens.take j).sum + q' * (lens.getD j 0 / npts) - poi|) ∧
    ∀ q' < q, |(lens.take j).sum + q * (lens.getD j 0 / npts) - poi|
      < |(lens.take j).sum + q' * (lens.getD j 0 / npts) - poi|

/-- `w` is the height at distance `y` from the start of the beam of the line `η`, given span by
span; at an interior node that of the span to the right. -/
def HeightFrom (lens : List ℝ) (η : ℕ → ℝ → ℝ) (y w : ℝ) : Prop :=
  ∃ i, ∃ hi : i < lens.length, ∃ a, (lens.take i).sum + a = y ∧ 0 ≤ a ∧ a ≤ lens[i] ∧
    (y < lens.sum → a < lens[i]) ∧ w = η i a

theorem SpanOf.unique {lens : List ℝ} (hpos : ∀ L ∈ lens, 0 < L) {poi : ℝ} {i j : ℕ}
    (h : SpanOf lens poi i) (h' : SpanOf lens poi j) : i = j := by
  by_cases hp : poi < 0 ∨ lens.sum < poi
  · have h1 := h.2.2 hp
    have h2 := h'.2.2 hp
    omega
  · push Not at hp
    obtain ⟨a1, a2, a3⟩ := h.2.1 hp.1 hp.2
    obtain ⟨c1, c2, c3⟩ := h'.2.1 hp.1 hp.2
    have key : ∀ {i j : ℕ}, i < j → j < lens.length → poi ≤ (lens.take (i + 1)).sum →
        (poi < lens.sum → poi < (lens.take (i + 1)).sum) → (lens.take j).sum ≤ poi → False := by
      intro i j hij hj q1 q2 q3
      have s1 : (lens.take (i + 1)).sum ≤ (lens.take j).sum := by
        rcases (show i + 1 ≤ j by omega).lt_or_eq with hl | rfl
        · exact (take_sum_strict hpos hl hj.le).le
        · exact le_rfl
      have s2 : (lens.take j).sum < lens.sum := by
        have := take_sum_strict hpos hj le_rfl
        rwa [List.take_length] at this
      exact absurd (q2 (lt_of_le_of_lt (q1.trans s1) s2)) (not_lt.2 (s1.trans q3))
    rcases lt_trichotomy i j with hl | he | hl
    · exact (key hl h'.1 a2 a3 c1).elim
    · exact he
    · exact (key hl h.1 c2 c3 a1).elim

theorem NearestStation.unique {lens : List ℝ} (hpos : ∀ L ∈ lens, 0 < L) {npts : ℕ} {poi : ℝ}
    {i j p q : ℕ} (h : NearestStation lens npts poi i p) (h' : NearestStation lens npts poi j q) :
    i = j ∧ p = q := by
  have hij := h.1.unique hpos h'.1
  subst hij
  refine ⟨rfl, ?_⟩
  rcases lt_trichotomy p q with hl | he | hl
  · exact absurd (h'.2.2.2 p hl) (not_lt.2 (h.2.2.1 q h'.2.1))
  · exact he
  · exact absurd (h.2.2.2 q hl) (not_lt.2 (h'.2.2.1 p h.2.1))

theorem toDef_nodeX {b : BeamB ℝ} (hb : b.InStep) (j : ℕ) :
    b.toDef.nodeX j = (b.lens.take j).sum := by
  have hlen := toDef_length hb
  have e : b.toDef.members.map Member.L = b.lens := by
    refine List.ext_getElem (by simpa using hlen) fun i h1 h2 => ?_
    rw [List.getElem_map]
    exact zipMembers_L _ _ _ _ i _ h2
  rw [BeamDef.nodeX, List.map_take, e]

/-- The stations of the members in an analysis of a load case. -/
theorem runCase_stations {A : Analyser ℝ} (hsol : A.solve.Sound) {b : BeamB ℝ}
    (hb : b.InStep) {LM : List (Row ℝ)} {r : Result ℝ × List (MRes ℝ)}
    (hr : runCase b.toDef A.stable A.solve A.npts LM = .ok r) (j : ℕ) (m : MRes ℝ)
    (hm : r.2[j]? = some m) :
    j < b.lens.length ∧ m.n = A.npts + 3 ∧ ∀ k, 0 < k → k + 1 < m.n →
      m.x k = (b.lens.take j).sum + ((k - 1 : ℕ) : ℝ) * (b.lens.getD j 0 / A.npts) := by
  obtain ⟨h1, h2⟩ := runCase_ok hr
  obtain ⟨hj', rfl⟩ := List.getElem?_eq_some_iff.1 hm
  have hlen := toDef_length hb
  have hj : j < b.toDef.members.length := by
    have := (BeamDef.memberResults_ok h2).1
    change r.2.length = b.toDef.members.length at this
    omega
  obtain ⟨ls', kk, t, c, hls', _, _, _, m1, m2, m3, m4, m5, m6, hc⟩ :=
    BeamDef.results_member hsol h1 h2 j hj hj'
  have hL : b.toDef.members[j].L = b.lens[j] := zipMembers_L _ _ _ _ j hj (by omega)
  have hgrid : c.grid = uniformGrid b.lens[j] A.npts := by
    have e : c.m.L = b.lens[j] := by rw [m1]; exact hL
    simp only [MCtx.grid, m6, m5, e, memberGrid, shearPairs, insidePoints]
    simp
  have hgl : c.grid.length = A.npts + 1 := by rw [hgrid]; simp [uniformGrid]
  have hcn : c.n = A.npts + 3 := by rw [MCtx.n, hgl]
  refine ⟨by omega, by rw [hc]; exact hcn, fun k hk hk' => ?_⟩
  have hk2 : k + 1 < A.npts + 3 := by rw [hc] at hk'; rw [← hcn]; exact hk'
  have e1 : r.2[j].x k = c.x k + b.toDef.nodeX j := by rw [hc]; rfl
  rw [e1, toDef_nodeX hb, MCtx.x, padded, if_neg (by omega), if_pos (by omega), hgrid, uniformGrid]
  simp only [List.getD_eq_getElem?_getD, List.getElem?_map, List.getElem?_range
    (show k - 1 < A.npts + 1 by omega), Option.map_some, Option.getD_some,
    List.getElem?_eq_getElem (show j < b.lens.length by omega)]
  ring

/-- **C109**, influence lines: let the influence lines of a beam be created with load `P` and
that of the bending moment or of the shear be read.  Then every ordinate is `P` times the
height, at its position, of the line of the unloaded beam that is broken at the station nearest
to the point of interest: turned clockwise by one unit for the moment, raised by one unit for
the shear.  Partial: slender prismatic members, and on pinned-pinned members positions at the
ends and the centre only. -/
theorem C109_influence_partial (A : Analyser ℝ) (hsol : A.solve.Sound) (hn : 0 < A.npts)
    (b : BeamB ℝ) (hb : b.ForIL) (hsl : b.toDef.Slender [])
    (step : Option ℝ) (P : ℝ) (s s' : ILState ℝ)
    (hc : (ILState.new b).create A step P = (s, .ok ())) (hne : s.pos ≠ [])
    (poi : ℝ) (e : ILEffect) (δ τ : ℝ) (he : e = .M ∧ δ = 0 ∧ τ = -1 ∨ e = .V ∧ δ = 1 ∧ τ = 0)
    (x eta : List ℝ) (hg : s.get A poi e = (s', .ok (x, eta))) (j q : ℕ)
    (hst : NearestStation b.lens A.npts poi j q) (y : ℕ → ℝ) (G : ℕ → Vec4 ℝ) (ηl φl : ℝ → ℝ)
    (η φ : ℕ → ℝ → ℝ)
    (hB : BrokenBeam b.toDef j (q * (b.lens.getD j 0 / A.npts)) δ τ y G ηl φl η φ) :
    List.Forall₂ (fun z w => 0 ≤ z → z ≤ b.lens.sum → b.ClearOfPins z → HeightFrom b.lens
      (fun i a => P * brokenLine j (q * (b.lens.getD j 0 / A.npts)) ηl η i a) z w) x eta := by
  obtain ⟨c1, c2, c3⟩ := create_ok A (s := ILState.new b) hb.proper step P hc
  change s.beam = b at c1
  change s.pos = [] ++ ilPositions b step at c2
  change List.Forall₂ (Carries A b P) (ilPositions b step) s.res at c3
  rw [List.nil_append] at c2
  rw [← c2] at c3
  have hres : s.res ≠ [] := by
    intro h
    rw [h] at c3
    cases h2 : s.pos with
    | nil => exact hne h2
    | cons a l => rw [h2] at c3; cases c3
  obtain ⟨s1, h1, _, hx, ho⟩ := get_ok hg
  rcases h1 with ⟨_, hs1⟩ | ⟨h1, _⟩
  swap
  · exact absurd h1 hres
  rw [hs1] at hx ho
  subst hx
  rw [c1] at ho
  have hpos : ∀ L ∈ b.lens, 0 < L := hb.proper.pos
  refine (ordinates_spec hsol hb c3 ho).imp ?_
  rintro z w ⟨r, ⟨row, hrun, hrow, _⟩, hread⟩ hy0 hy1 hclear
  obtain ⟨m, k, hm, hnear, hw⟩ : ∃ (m : MRes ℝ) (k : ℕ), r.2[j]? = some m ∧
      (Nearest m poi k ∧ m.x k = (b.lens.take j).sum + (q : ℝ) * (b.lens.getD j 0 / A.npts)) ∧
      (e = .M ∧ w = m.M k ∨ e = .V ∧ w = m.V k) := by
    have key : ∀ (j' : ℕ) (m : MRes ℝ) (k : ℕ), SpanOf b.lens poi j' → r.2[j']? = some m →
        Nearest m poi k → r.2[j]? = some m ∧
          m.x k = (b.lens.take j).sum + (q : ℝ) * (b.lens.getD j 0 / A.npts) := by
      intro j' m k h1 h2 h3
      obtain ⟨_, g2, g3⟩ := runCase_stations hsol hb.proper.inStep hrun j' m h2
      have hst' : NearestStation b.lens A.npts poi j' (k - 1) := by
        obtain ⟨n1, n2, n3, n4⟩ := h3
        refine ⟨h1, by omega, fun q' hq' => ?_, fun q' hq' => ?_⟩
        · have := n3 (q' + 1) (by omega) (by omega)
          rw [g3 k n1 n2, g3 (q' + 1) (by omega) (by omega)] at this
          simpa using this
        · have := n4 (q' + 1) (by omega) (by omega)
          rw [g3 k n1 n2, g3 (q' + 1) (by omega) (by omega)] at this
          simpa using this
      obtain ⟨rfl, rfl⟩ := hst.unique hpos hst'
      exact ⟨h2, g3 k h3.1 h3.2.1⟩
    rcases he with ⟨rfl, -⟩ | ⟨rfl, -⟩
    · obtain ⟨j', m, k, h1, h2, h3, h4⟩ := hread
      obtain ⟨g1, g2⟩ := key j' m k h1 h2 h3
      exact ⟨m, k, g1, ⟨h3, g2⟩, .inl ⟨rfl, h4⟩⟩
    · obtain ⟨j', m, k, h1, h2, h3, h4⟩ := hread
      obtain ⟨g1, g2⟩ := key j' m k h1 h2 h3
      exact ⟨m, k, g1, ⟨h3, g2⟩, .inr ⟨rfl, h4⟩⟩
  obtain ⟨hnear, hmx⟩ := hnear
  obtain ⟨i, hi, a, rfl, hya, ha0, ha1, ha2⟩ := hrow hy0 hy1
  refine ⟨i, hi, a, hya, ha0, ha1, ha2, ?_⟩
  have hlen := toDef_length hb.proper.inStep
  set d : BeamDef ℝ := { b.toDef with LM := [⟨(i : ℤ) + 1, 2, [P, a, 0]⟩] } with hd
  have hls : d.setLoads = .ok [⟨i, .pl P a⟩] := by
    simp [hd, BeamDef.setLoads, parseLM, parseRow]
  have hbs : d.Slender [⟨i, .pl P a⟩] := by
    refine ⟨hsl.pos, hsl.prismatic, ?_⟩
    intro k hk l hl hlk
    simp only [List.mem_cons, List.not_mem_nil, or_false] at hl
    subst hl
    have : i = k := by simpa using hlk
    subst this
    refine ⟨⟨ha0, ?_⟩, by simp [Load.IsMechanical]⟩
    exact ha1.trans_eq (zipMembers_L _ _ _ _ i hk hi).symm
  have hun : d.Unsettled := by
    intro p v hv
    refine hb.presc v ?_
    rw [List.getD_eq_getElem?_getD] at hv
    rcases hp : b.presc[p]? with _ | o
    · change (b.presc[p]?).getD none = some v at hv
      rw [hp] at hv
      cases hv
    · change (b.presc[p]?).getD none = some v at hv
      rw [hp] at hv
      simp only [Option.getD_some] at hv
      subst hv
      exact List.mem_of_getElem? hp
  obtain ⟨ra, rb⟩ := runCase_ok hrun
  obtain ⟨hj', rfl⟩ := List.getElem?_eq_some_iff.1 hm
  have hj : j < d.members.length := by
    change j < b.toDef.members.length
    rw [hlen]
    exact hst.1.1
  have hxx : d.nodeX j + q * (b.lens.getD j 0 / A.npts) = r.2[j].x k := by
    rw [hmx]
    congr 1
    exact toDef_nodeX hb.proper.inStep j
  have hbal : d.PinsBalanced [⟨i, .pl P a⟩] := by
    have hLi : ∀ hi' : i < d.members.length, d.members[i].L = b.lens[i] := fun hi' =>
      zipMembers_L _ _ _ _ i hi' hi
    refine d.pinsBalanced_point hsl.pos i P a (fun hi' het _ _ => ?_) fun hi' =>
      ⟨ha0, ha1.trans_eq (hLi hi').symm⟩
    rcases ha0.eq_or_lt with h0 | h0
    · exact .inl h0.symm
    · rcases ha1.eq_or_lt with h1 | h1
      · exact .inr (.inr (h1.trans (hLi hi').symm))
      · exact .inr (.inl (hclear i hi' het a hya h0 (h1.trans_eq (hLi hi').symm)))
  obtain ⟨kV, kM⟩ := C109_internal_partial d _ hls hbs hbal hun A.stable A.solve hsol
    r.1 ra A.npts hn _ r.2 rb j hj hj' k hnear.1 hnear.2.1 _ hxx
  have hB' : BrokenBeam d j (q * (b.lens.getD j 0 / A.npts)) δ τ y G ηl φl η φ :=
    ⟨hB.span, hB.broken, hB.left, hB.right, hB.rotLeft, hB.rotRight, hB.prescribed, hB.rigid, hB.free⟩
  have hi' : i < d.members.length := by
    change i < b.toDef.members.length
    rw [hlen]
    exact hi
  rcases he with ⟨rfl, rfl, rfl⟩ | ⟨rfl, rfl, rfl⟩
  · rcases hw with ⟨-, rfl⟩ | ⟨h, -⟩
    · rw [kM (by
        intro ld hld p hp
        simp only [ownLoads, List.mem_map, List.mem_filter] at hld
        obtain ⟨l, ⟨hl, -⟩, rfl⟩ := hld
        simp only [List.mem_cons, List.not_mem_nil, or_false] at hl
        subst hl
        simp [Load.couplesAt] at hp) y G ηl φl η φ hB', loadWork_point d i hi']
      ring
    · cases h
  · rcases hw with ⟨h, -⟩ | ⟨-, rfl⟩
    · cases h
    · rw [kV y G ηl φl η φ hB', loadWork_point d i hi']
      ring

/-! ### Concrete cases -/

theorem exMB_created : ∃ s, (ILState.new exMB).create exMBA (some 1) 3 = (s, .ok ()) ∧
    s.pos.length = 6 ∧ s.beam = exMB ∧ ∃ r0 rest jk, s.res = r0 :: rest ∧
      ilStation exMB r0 2 = .ok jk := by
  have hL : exMB.length = 5 := rfl
  obtain ⟨s, hs, hlen⟩ := exMB_loop 1 (List.range (pyRound ((5 : ℝ) / 1) + 1).toNat) 3
    ⟨exMB, [], []⟩ rfl
  have hround : pyRound ((5 : ℝ) / 1) = 5 := by
    simp [pyRound]
  rw [hround] at hlen hs
  have hc : (ILState.new exMB).create exMBA (some 1) 3 = (s, .ok ()) := by
    simp only [ILState.create, ILState.new, Option.getD_some, hL, one_ne_zero, if_false, hround]
    exact hs
  have hlen : s.pos.length = 6 := by simpa using hlen
  obtain ⟨c1, c2, c3⟩ := create_ok exMBA (s := ILState.new exMB) exMB_forIL.proper (some 1) 3 hc
  have c1 : s.beam = exMB := c1
  change s.pos = [] ++ ilPositions exMB (some 1) at c2
  change List.Forall₂ (Carries exMBA exMB 3) (ilPositions exMB (some 1)) s.res at c3
  rw [List.nil_append] at c2
  rw [← c2] at c3
  have hres := c3.length_eq
  refine ⟨s, hc, hlen, c1, ?_⟩
  rcases hr : s.res with _ | ⟨r0, rest⟩
  · rw [hr, hlen] at hres
    simp at hres
  have hst : ∃ jk, ilStation exMB r0 2 = .ok jk := by
    rw [hr] at c3
    obtain ⟨y, _, ⟨row, hrun, _⟩, _⟩ := List.forall₂_cons_right_iff.1 c3
    obtain ⟨hl, ls, _, hm⟩ := BeamDef.memberResults_ok (runCase_ok hrun).2
    have hl : r0.2.length = 2 := hl
    obtain ⟨c, hc, he⟩ := hm 1 (by simp [exMB, BeamB.toDef, zipMembers]) (by omega)
    have hloc : (exMB.localCoords 2).1 = 1 := by
      simp [BeamB.localCoords, exMB, List.findIdx?, List.findIdx?.go]
      norm_num
    have hget : r0.2[(1 : ℕ)]? = some r0.2[1] := List.getElem?_eq_getElem (by omega)
    simp only [ilStation, hloc]
    norm_num
    rw [hget]
    simp only
    have hn : 2 < r0.2[1].n := by
      obtain ⟨_, _, _, _, hnp, hsp, _⟩ := Member.ctx_ok hc
      rw [he]
      change 2 < c.n
      rw [MCtx.n, MCtx.grid, hsp]
      simp [memberGrid, shearPairs, uniformGrid]
    have hne' : ∀ (f : ℕ → ℝ), ∃ k, nearestIdx (2 : ℝ) ((List.range (r0.2[1].n - 2)).map f) = .ok k := by
      intro f
      obtain ⟨n, hn⟩ : ∃ n, r0.2[1].n - 2 = n + 1 := ⟨r0.2[1].n - 3, by omega⟩
      rw [hn, List.range_succ_eq_map]
      exact ⟨_, rfl⟩
    obtain ⟨k, hk⟩ := hne' fun k => r0.2[1].x (k + 1)
    rw [hk]
    exact ⟨_, _, rfl⟩
  obtain ⟨jk, hjk⟩ := hst
  exact ⟨r0, rest, jk, rfl, hjk⟩

theorem exMB_nearest : NearestStation exMB.lens exMBA.npts 2 1 0 := by
  refine ⟨⟨by simp [exMB], ?_, ?_⟩, by simp, ?_, ?_⟩
  · intro _ _
    simp only [exMB, List.take_succ_cons, List.take_zero, List.sum_cons, List.sum_nil]
    norm_num
  · simp only [exMB, List.sum_cons, List.sum_nil]
    norm_num
  · intro q' _
    simp [exMB]
    positivity
  · intro q' hq'
    omega

/-- The influence lines of the moment over the inner support and of the shear right of it are
read, the broken beams exist, and the theorem applies to them. -/
example (e : ILEffect) (δ τ : ℝ) (he : e = .M ∧ δ = 0 ∧ τ = -1 ∨ e = .V ∧ δ = 1 ∧ τ = 0) :
    ∃ s s1 x eta y G ηl φl η φ, (ILState.new exMB).create exMBA (some 1) 3 = (s, .ok ()) ∧
      s.get exMBA 2 e = (s1, .ok (x, eta)) ∧ x.length = 6 ∧ eta.length = 6 ∧
      BrokenBeam exMB.toDef 1 0 δ τ y G ηl φl η φ ∧
      List.Forall₂ (fun z w => 0 ≤ z → z ≤ exMB.lens.sum →
        HeightFrom exMB.lens (fun i a => 3 * brokenLine 1 0 ηl η i a) z w) x eta := by
  obtain ⟨s, hc, hlen, hb, r0, rest, ⟨j, k⟩, hr, hjk⟩ := exMB_created
  obtain ⟨eta, hord⟩ : ∃ eta, s.get exMBA 2 e = (s, .ok (s.pos, eta)) := by
    unfold ILState.get
    rw [hr]
    simp only [List.isEmpty_cons, Bool.false_eq_true, if_false, hb, hr, ilOrdinates, hjk]
    rcases he with ⟨rfl, -⟩ | ⟨rfl, -⟩
    · exact ⟨_, rfl⟩
    · exact ⟨_, rfl⟩
  obtain ⟨sy, hsy⟩ : ∃ sy, exMB.toDef.system = .ok sy := by
    have : exMB.toDef.setLoads = .ok [] := by simp [BeamDef.setLoads, BeamB.toDef, exMB, parseLM]
    rw [BeamDef.system, this]
    simp [exMB, BeamB.toDef, zipMembers, mapE, Member.spanK, Member.refSum]
  have hpp : ∀ m ∈ exMB.toDef.members, m.et ≠ .PP := by simp [exMB, BeamB.toDef, zipMembers]
  obtain ⟨y, G, ηl, φl, η, φ, hB⟩ := C109_exists_partial exMB.toDef [] exMB_slender sy hsy
    (exMB_nons (LM := exMB.toDef.LM) (pr := exMB.toDef.presc) hsy) 1
    (by simp [exMB, BeamB.toDef, zipMembers]) 0 le_rfl
    (exMB_slender.pos _ (List.getElem_mem _)).le δ τ
  have e0 : (((0 : ℕ) : ℝ) * (exMB.lens.getD 1 0 / (exMBA.npts : ℝ))) = 0 := by simp
  have := C109_influence_partial exMBA anySolver_sound (by simp [exMBA]) exMB exMB_forIL exMB_slender
    (some 1) 3 s s hc (by
      intro h0
      rw [h0] at hlen
      simp at hlen) 2 e δ τ he s.pos eta hord 1 0 exMB_nearest y G ηl φl η φ (by rw [e0]; exact hB)
  rw [e0] at this
  replace this := this.imp fun z w h a c => h a c (BeamB.clearOfPins_of exMB hpp z)
  exact ⟨s, s, s.pos, eta, y, G, ηl, φl, η, φ, hc, hord, hlen, this.length_eq ▸ hlen, hB, this⟩

end PyCBA
