import Verif.Exact.Broken
import Verif.Exact.ShearEnergy

set_option linter.unusedSectionVars false
set_option linter.unusedSimpArgs false

/-!
The principle of Müller-Breslau for bending moment and shear (C109) on beams with
shear-flexible members.
-/

namespace PyCBA

open MeasureTheory Set Matrix

/-! ### Specification -/

/-- The line of an unloaded shear-flexible span that is broken at `x0`: left of `x0` the
deflection is `vl` and the rotation of the sections `ψl`, right of it `v`, `ψ`, and there the
right side is `δ` higher than the left one and turned by `τ` against it.  The slope is the
rotation less the shear strain.  The end forces `F` are in equilibrium. -/
structure BrokenShearSpan (EI g L x0 δ τ : ℝ) (F : Vec4 ℝ) (vl ψl v ψ : ℝ → ℝ) : Prop where
  slopeL : ∀ x ∈ Ioo 0 x0, HasDerivAt vl (ψl x - g * cutV L [] F x) x
  curvL : ∀ x ∈ Ioo 0 x0, HasDerivAt ψl (cutM L [] F x / EI) x
  contL : ContinuousOn vl (Icc 0 x0) ∧ ContinuousOn ψl (Icc 0 x0)
  slopeR : ∀ x ∈ Ioo x0 L, HasDerivAt v (ψ x - g * cutV L [] F x) x
  curvR : ∀ x ∈ Ioo x0 L, HasDerivAt ψ (cutM L [] F x / EI) x
  contR : ContinuousOn v (Icc x0 L) ∧ ContinuousOn ψ (Icc x0 L)
  jumpV : v x0 = vl x0 + δ
  jumpT : ψ x0 = ψl x0 + τ
  force : F 0 + F 2 = 0
  moment : F 1 + F 3 + F 2 * L = 0

/-- The solution of the continuous problem for the unloaded beam of slender and shear-flexible
members whose span `j` is broken at `x0`. -/
structure BrokenShearBeam (b : BeamDef ℝ) (j : ℕ) (x0 δ τ : ℝ) (y : ℕ → ℝ) (G : ℕ → Vec4 ℝ)
    (ηl φl : ℝ → ℝ) (η φ : ℕ → ℝ → ℝ) : Prop where
  span : ∀ i (hi : i < b.members.length), ∀ e, b.members[i].EI = .const e → i ≠ j →
    ShearSpan e b.members[i].shearFlex b.members[i].L [] (G i) (η i) (φ i)
  broken : ∀ hj : j < b.members.length, ∀ e, b.members[j].EI = .const e →
    BrokenShearSpan e b.members[j].shearFlex b.members[j].L x0 δ τ (G j) ηl φl (η j) (φ j)
  left : ∀ i < b.members.length, (if i = j then ηl 0 else η i 0) = y (2 * i)
  right : ∀ i (hi : i < b.members.length), η i b.members[i].L = y (2 * i + 2)
  rotLeft : ∀ i (hi : i < b.members.length),
    if b.members[i].et.freeLeft then G i 1 = 0
    else (if i = j then φl 0 else φ i 0) = y (2 * i + 1)
  rotRight : ∀ i (hi : i < b.members.length),
    if b.members[i].et.freeRight then G i 3 = 0 else φ i b.members[i].L = y (2 * i + 3)
  prescribed : ∀ p < 2 * b.members.length + 2, ∀ w, b.presc.getD p none = some w → y p = w
  rigid : ∀ p < 2 * b.members.length + 2, b.presc.getD p none = none →
    b.restraints.getD p 0 < 0 → y p = 0
  free : ∀ k ≤ b.members.length, ∀ c : Fin 2, b.presc.getD (2 * k + c) none = none →
    0 ≤ b.restraints.getD (2 * k + c) 0 → nodeSum b y G k c = 0

/-! ### The broken span -/

theorem cutV_unloaded (L : ℝ) (F : Vec4 ℝ) (x : ℝ) : cutV L [] F x = F 0 := by simp [cutV]

/-- A broken line is a line with a rigid displacement added to the right of the break. -/
theorem BrokenShearSpan.split {EI g L x0 δ τ : ℝ} (hL : 0 < L) (hx0 : x0 ∈ Icc 0 L) {F : Vec4 ℝ}
    {vl ψl v ψ : ℝ → ℝ} (h : BrokenShearSpan EI g L x0 δ τ F vl ψl v ψ) :
    ∃ V T, ShearSpan EI g L [] F V T ∧ (∀ x ∈ Icc 0 x0, vl x = V x ∧ ψl x = T x) ∧
      ∀ x ∈ Icc x0 L, v x = V x + (δ + τ * (x - x0)) ∧ ψ x = T x + τ := by
  have lin : ∀ x, HasDerivAt (fun x => g * F 0 * x) (g * F 0) x := fun x =>
    ((hasDerivAt_id x).const_mul (g * F 0)).congr_deriv (mul_one _)
  have clin : Continuous fun x : ℝ => g * F 0 * x := by fun_prop
  have hB : BrokenSpan EI L x0 δ τ F (fun x => vl x + g * F 0 * x) ψl
      (fun x => v x + g * F 0 * x) ψ :=
    ⟨fun x hx => ((h.slopeL x hx).add (lin x)).congr_deriv (by rw [cutV_unloaded]; ring), h.curvL,
      ⟨h.contL.1.add clin.continuousOn, h.contL.2⟩,
      fun x hx => ((h.slopeR x hx).add (lin x)).congr_deriv (by rw [cutV_unloaded]; ring), h.curvR,
      ⟨h.contR.1.add clin.continuousOn, h.contR.2⟩,
      by simp only [h.jumpV]; ring, h.jumpT, h.force, h.moment⟩
  obtain ⟨V, T, hE, hl, hr⟩ := hB.split hL hx0
  refine ⟨fun x => V x - g * F 0 * x, T, ⟨fun x hx _ => ?_, hE.curvature,
    hE.contV.sub clin.continuousOn, hE.contT, hE.force, hE.moment⟩, fun x hx => ⟨?_, (hl x hx).2⟩,
    fun x hx => ⟨?_, (hr x hx).2⟩⟩
  · exact ((hE.slope x hx).sub (lin x)).congr_deriv (by rw [cutV_unloaded])
  · have := (hl x hx).1
    simp only at this ⊢
    linarith
  · have := (hr x hx).1
    simp only at this ⊢
    linarith

/-! ### Work through the break -/

/-- **Virtual work through a broken line**, with the work of shearing. -/
theorem broken_shear_work {EI g L x0 δ τ : ℝ} (hL : 0 < L) (hx0 : x0 ∈ Icc 0 L)
    (own : List (Load ℝ)) (F : Vec4 ℝ) (ho : ∀ ld ∈ own, ld.OnSpan L)
    (hf : F 0 + F 2 = (own.map fun ld => ld.total L).sum)
    (hm : F 1 + F 3 + F 2 * L = (own.map fun ld => ld.momentAboutLeft L).sum)
    {G : Vec4 ℝ} {vl ψl v ψ : ℝ → ℝ} (h : BrokenShearSpan EI g L x0 δ τ G vl ψl v ψ) :
    (∫ x in (0 : ℝ)..L, cutM L own F x * (cutM L [] G x / EI))
        - ∫ x in (0 : ℝ)..L, cutV L own F x * -(g * cutV L [] G x)
      = F 0 * vl 0 + F 1 * ψl 0 + F 2 * v L + F 3 * ψ L
        + (own.map fun ld => ld.work L (fun x => if x < x0 then vl x else v x)
            (fun x => if x < x0 then ψl x else ψ x)).sum
        + cutV L own F x0 * δ - cutM L own F x0 * τ := by
  obtain ⟨V, T, hE, hl, hr⟩ := h.split hL hx0
  rw [shear_span_virtual_work hL.le own F ho hf hm (hE.shape hL.le), (hl 0 ⟨le_rfl, hx0.1⟩).1,
    (hl 0 ⟨le_rfl, hx0.1⟩).2, (hr L ⟨hx0.2, le_rfl⟩).1, (hr L ⟨hx0.2, le_rfl⟩).2, cutV, cutM]
  have e : (own.map fun ld => ld.work L (fun x => if x < x0 then vl x else v x)
        (fun x => if x < x0 then ψl x else ψ x)).sum
      = (own.map fun ld => ld.work L V T).sum
        - ((own.map fun ld => ld.total L).sum - (own.map fun ld => ld.forceLeft L x0).sum) * δ
        - ((own.map fun ld => ld.momentAboutLeft L).sum - x0 * (own.map fun ld => ld.total L).sum
            + (own.map fun ld => ld.momentLeft L x0).sum) * τ := by
    clear hf hm
    induction own with
    | nil => simp
    | cons a l ih =>
      simp only [List.map_cons, List.sum_cons]
      rw [ih fun b hb => ho b (List.mem_cons_of_mem _ hb),
        a.work_broken hL hx0 (ho a (by simp)) hE.contV hl hr]
      ring
  rw [e, ← hf, ← hm]
  ring

/-! ### The broken beam -/

/-- **Müller-Breslau** for the internal forces of the continuous problem: the bending moment
and the shear just left of `x0`, acting through the break, do the work of the loads through the
line of the broken beam, with shear-flexible members. -/
theorem shear_mueller_breslau_cut {b : BeamDef ℝ} {ls : List (SpanLoad ℝ)} (hb : b.Uniform ls)
    (hu : b.Unsettled) {u : ℕ → ℝ} {F : ℕ → Vec4 ℝ} {v θ : ℕ → ℝ → ℝ}
    (h : ShearBeam b ls u F v θ) (j : ℕ) (hj : j < b.members.length) (x0 : ℝ)
    (hx0 : x0 ∈ Icc 0 b.members[j].L) {δ τ : ℝ} {y : ℕ → ℝ} {G : ℕ → Vec4 ℝ} {ηl φl : ℝ → ℝ}
    {η φ : ℕ → ℝ → ℝ} (hm : BrokenShearBeam b j x0 δ τ y G ηl φl η φ) :
    cutM b.members[j].L (ownLoads j ls) (F j) x0 * τ - cutV b.members[j].L (ownLoads j ls) (F j) x0 * δ
      = loadWork b ls (brokenLine j x0 ηl η) (brokenLine j x0 φl φ) := by
  have ha := h.admissible hb
  -- the forces of the loaded beam through the broken line
  have w1 : ∀ i : Fin b.members.length, (∫ x in (0 : ℝ)..b.members[i].L,
        cutM b.members[i].L (ownLoads i ls) (F i) x
          * (cutM b.members[i].L [] (G i) x / b.members[i].flexRig))
        - (∫ x in (0 : ℝ)..b.members[i].L, cutV b.members[i].L (ownLoads i ls) (F i) x
          * -(b.members[i].shearFlex * cutV b.members[i].L [] (G i) x))
      = F i 0 * y (2 * i) + F i 1 * y (2 * i + 1) + F i 2 * y (2 * i + 2) + F i 3 * y (2 * i + 3)
        + ((ownLoads i ls).map fun ld => ld.work b.members[i].L (brokenLine j x0 ηl η i)
            (brokenLine j x0 φl φ i)).sum
        + (if (i : ℕ) = j then cutV b.members[j].L (ownLoads j ls) (F j) x0 * δ
            - cutM b.members[j].L (ownLoads j ls) (F j) x0 * τ else 0) := by
    intro i
    have hE := h.elastic hb i i.2
    have hL := hb.pos _ (List.getElem_mem i.2)
    have hc := (Uniform.const hb i i.2).2
    have e1 : F i 1 * (if (i : ℕ) = j then φl 0 else φ i 0) = F i 1 * y (2 * i + 1) := by
      have hr := h.rotLeft i i.2
      have hr' := hm.rotLeft i i.2
      by_cases hf : b.members[(i : ℕ)].et.freeLeft
      · rw [if_pos hf] at hr
        rw [hr]
        ring
      · rw [if_neg hf] at hr'
        rw [hr']
    have e2 : F i 3 * φ i b.members[(i : ℕ)].L = F i 3 * y (2 * i + 3) := by
      have hr := h.rotRight i i.2
      have hr' := hm.rotRight i i.2
      by_cases hf : b.members[(i : ℕ)].et.freeRight
      · rw [if_pos hf] at hr
        rw [hr]
        ring
      · rw [if_neg hf] at hr'
        rw [hr']
    have e0 := hm.left i i.2
    simp only [Fin.getElem_fin]
    by_cases hij : (i : ℕ) = j
    · obtain ⟨i, hi⟩ := i
      simp only at hij
      subst hij
      have hB := hm.broken hi _ hc
      have hw := broken_shear_work hL hx0 (ownLoads i ls) (F i) (Uniform.onSpan hb i hi) hE.force
        hE.moment hB
      simp only [if_true] at e0 e1 ⊢
      rw [hw, e0, e1, hm.right i hi, e2]
      have ej : ∀ f : ℝ → ℝ, ∀ g : ℕ → ℝ → ℝ,
          brokenLine i x0 f g i = fun x => if x < x0 then f x else g i x := by
        intro f g
        funext x
        simp only [brokenLine, true_and]
      rw [ej, ej]
      ring
    · have hw := shear_span_virtual_work hL.le (ownLoads i ls) (F i) (Uniform.onSpan hb i i.2) hE.force
        hE.moment ((hm.span i i.2 _ hc hij).shape hL.le)
      rw [if_neg hij] at e0 e1 ⊢
      rw [hw, e0, e1, hm.right i i.2, e2, add_zero]
      have ej : ∀ f : ℝ → ℝ, ∀ g : ℕ → ℝ → ℝ, brokenLine j x0 f g i = g i := by
        intro f g
        funext x
        simp only [brokenLine, hij, false_and, if_false]
      rw [ej, ej]
  -- the forces of the broken beam through the line of the loaded beam
  have w2 : ∀ i : Fin b.members.length, (∫ x in (0 : ℝ)..b.members[i].L,
        cutM b.members[i].L [] (G i) x * lineKappa b ls F i x)
        - (∫ x in (0 : ℝ)..b.members[i].L,
        cutV b.members[i].L [] (G i) x * lineGamma b ls F i x)
      = G i 0 * u (2 * i) + G i 1 * u (2 * i + 1) + G i 2 * u (2 * i + 2) + G i 3 * u (2 * i + 3) := by
    intro i
    have hL := hb.pos _ (List.getElem_mem i.2)
    have hc := (Uniform.const hb i i.2).2
    have hq : G i 0 + G i 2 = 0 ∧ G i 1 + G i 3 + G i 2 * b.members[(i : ℕ)].L = 0 := by
      by_cases hij : (i : ℕ) = j
      · obtain ⟨i, hi⟩ := i
        simp only at hij
        subst hij
        have hB := hm.broken hi _ hc
        exact ⟨hB.force, hB.moment⟩
      · have hB := hm.span i i.2 _ hc hij
        exact ⟨by simpa using hB.force, by simpa using hB.moment⟩
    have hw := shear_span_virtual_work hL.le [] (G i) (by simp) (by simpa using hq.1)
      (by simpa using hq.2) (ha.shape i i.2)
    have e1 : G i 1 * θ i 0 = G i 1 * u (2 * i + 1) := by
      have hr := h.rotLeft i i.2
      have hr' := hm.rotLeft i i.2
      by_cases hf : b.members[(i : ℕ)].et.freeLeft
      · rw [if_pos hf] at hr'
        rw [hr']
        ring
      · rw [if_neg hf] at hr
        rw [hr]
    have e2 : G i 3 * θ i b.members[(i : ℕ)].L = G i 3 * u (2 * i + 3) := by
      have hr := h.rotRight i i.2
      have hr' := hm.rotRight i i.2
      by_cases hf : b.members[(i : ℕ)].et.freeRight
      · rw [if_pos hf] at hr'
        rw [hr']
        ring
      · rw [if_neg hf] at hr
        rw [hr]
    simp only [Fin.getElem_fin] at hw ⊢
    rw [hw, h.left i i.2, h.right i i.2, e1, e2]
    simp
  have n1 := node_work b u y F
  have n2 := node_work b y u G
  have z1 : ∑ k ∈ Finset.range (b.members.length + 1), ∑ c : Fin 2,
      y (2 * k + c) * nodeSum b u F k c = 0 := by
    refine shear_node_work_zero h fun p hp hcon => ?_
    rcases hpr : b.presc.getD p none with _ | w
    · rw [hpr] at hcon
      exact hm.rigid p hp hpr (hcon.resolve_left (by simp))
    · rw [hm.prescribed p hp w hpr, hu p w hpr]
  have z2 : ∑ k ∈ Finset.range (b.members.length + 1), ∑ c : Fin 2,
      u (2 * k + c) * nodeSum b y G k c = 0 := by
    refine Finset.sum_eq_zero fun k hk => Finset.sum_eq_zero fun c _ => ?_
    have hk' : k ≤ b.members.length := by have := Finset.mem_range.1 hk; omega
    have hlt : 2 * k + (c : ℕ) < 2 * b.members.length + 2 := by omega
    rcases hpr : b.presc.getD (2 * k + c) none with _ | w
    · by_cases hr : b.restraints.getD (2 * k + c) 0 < 0
      · rw [h.rigid _ hlt hpr hr, zero_mul]
      · rw [hm.free k hk' c hpr (not_lt.1 hr), mul_zero]
    · rw [h.prescribed _ hlt w hpr, hu _ w hpr, zero_mul]
  rw [z1] at n1
  rw [z2] at n2
  have ei : ∑ i : Fin b.members.length, ((∫ x in (0 : ℝ)..b.members[i].L,
        cutM b.members[i].L (ownLoads i ls) (F i) x
          * (cutM b.members[i].L [] (G i) x / b.members[i].flexRig))
        - ∫ x in (0 : ℝ)..b.members[i].L, cutV b.members[i].L (ownLoads i ls) (F i) x
          * -(b.members[i].shearFlex * cutV b.members[i].L [] (G i) x))
      = ∑ i : Fin b.members.length, ((∫ x in (0 : ℝ)..b.members[i].L,
        cutM b.members[i].L [] (G i) x * lineKappa b ls F i x)
        - ∫ x in (0 : ℝ)..b.members[i].L,
        cutV b.members[i].L [] (G i) x * lineGamma b ls F i x) := by
    refine Finset.sum_congr rfl fun i _ => ?_
    congr 1
    · congr 1
      funext x
      rw [lineKappa_eq b ls F i i.2]
      exact mul_div_swap _ _ _
    · congr 1
      funext x
      rw [lineGamma_eq b ls F i i.2]
      simp only [Fin.getElem_fin]
      ring
  have es : ∑ q ∈ Finset.range (2 * b.members.length + 2), b.springK q * u q * y q
      = ∑ q ∈ Finset.range (2 * b.members.length + 2), b.springK q * y q * u q :=
    Finset.sum_congr rfl fun q _ => by ring
  have ec : ∑ i : Fin b.members.length, (if (i : ℕ) = j
        then cutV b.members[j].L (ownLoads j ls) (F j) x0 * δ
            - cutM b.members[j].L (ownLoads j ls) (F j) x0 * τ else 0)
      = cutV b.members[j].L (ownLoads j ls) (F j) x0 * δ
            - cutM b.members[j].L (ownLoads j ls) (F j) x0 * τ := by
    rw [Finset.sum_eq_single ⟨j, hj⟩]
    · simp
    · intro k _ hk
      rw [if_neg]
      intro he
      exact hk (Fin.ext he)
    · simp
  simp_rw [w1, w2] at ei
  rw [Finset.sum_add_distrib, Finset.sum_add_distrib, ec] at ei
  simp only [loadWork]
  linarith

/-! ### The broken beam exists -/

/-- The system of a beam without its loads: the same stiffness, no fixed-end forces. -/
theorem system_unloaded {b : BeamDef ℝ} {s : System ℝ} (hs : b.system = .ok s) :
    ∃ s0 : System ℝ, ({ b with LM := [] } : BeamDef ℝ).system = .ok s0 ∧
      (∀ i, i < b.members.length → s0.kb i = s.kb i) ∧
      ∀ i, i < b.members.length → s0.ref i = 0 := by
  obtain ⟨s0, h0⟩ : ∃ s0, ({ b with LM := [] } : BeamDef ℝ).system = .ok s0 := by
    have hl : ({ b with LM := [] } : BeamDef ℝ).setLoads = .ok [] := by
      simp [BeamDef.setLoads, parseLM]
    have hm : ∀ l : List (Member ℝ × ℕ), ∃ r,
        mapE (fun mi : Member ℝ × ℕ => mi.1.refSum mi.2 []) l = .ok r := by
      intro l
      induction l with
      | nil => exact ⟨[], rfl⟩
      | cons a l ih =>
        obtain ⟨r, hr⟩ := ih
        have e : a.1.refSum a.2 ([] : List (SpanLoad ℝ)) = .ok ⟨0, 0, 0, 0⟩ := rfl
        exact ⟨⟨0, 0, 0, 0⟩ :: r, by rw [mapE, hr]; rfl⟩
    obtain ⟨r, hr⟩ := hm b.members.zipIdx
    unfold BeamDef.system at hs ⊢
    rw [hl]
    dsimp only
    rw [hr]
    split at hs
    · cases hs
    split at hs
    · cases hs
    split at hs
    · cases hs
    split at hs
    · cases hs
    rename_i hn
    rw [if_neg hn]
    exact ⟨_, rfl⟩
  obtain ⟨_, hk, _⟩ := BeamDef.system_ok hs
  obtain ⟨_, hk', ⟨ls, hls, href⟩, _⟩ := BeamDef.system_ok h0
  refine ⟨s0, h0, fun i hi => ?_, fun i hi => ?_⟩
  · exact Except.ok.inj ((hk' i hi).symm.trans (hk i hi))
  · obtain ⟨c, hc, e⟩ := href i hi
    have : ls = [] := by
      have : ({ b with LM := [] } : BeamDef ℝ).setLoads = .ok [] := by
        simp [BeamDef.setLoads, parseLM]
      exact Except.ok.inj (hls.symm.trans this)
    subst this
    rw [e, ← Except.ok.inj hc]
    ext p
    fin_cases p <;> rfl

/-- A beam that is no mechanism can be broken: the continuous problem has a solution. -/
theorem brokenShear_exists {b : BeamDef ℝ} {ls : List (SpanLoad ℝ)} (hb : b.Uniform ls)
    {s : System ℝ} (hs : b.system = .ok s)
    (hns : s.Nonsingular) (j : ℕ) (hj : j < b.members.length) (x0 : ℝ)
    (hx0 : x0 ∈ Icc 0 b.members[j].L) (δ τ : ℝ) :
    ∃ y G ηl φl η φ, BrokenShearBeam b j x0 δ τ y G ηl φl η φ := by
  obtain ⟨hn, hk, _, hr, hp, _, _⟩ := BeamDef.system_ok hs
  set J : Vec4 ℝ := ![0, 0, δ + τ * (b.members[j].L - x0), τ] with hJ
  set s' : System ℝ := { s with ref := fun i => if i = j then -(s.kb i *ᵥ J) else 0 } with hs'
  obtain ⟨d, hd, hf⟩ := System.exists_solution (s := s') hns
  obtain ⟨s0, hs0, hk0, hr0⟩ := system_unloaded hs
  have hb0 : ({ b with LM := [] } : BeamDef ℝ).Uniform [] :=
    ⟨hb.pos, hb.prismatic, fun i hi l hl => absurd hl (List.not_mem_nil)⟩
  have hF : ∀ i, i < b.members.length → s'.endForces d i
      = s.kb i *ᵥ (elemVec d i - if i = j then J else 0) := by
    intro i hi
    simp only [System.endForces, hs']
    by_cases hij : i = j
    · simp only [hij, if_true, Matrix.mulVec_sub]
      rw [sub_eq_add_neg]
    · simp [hij]
  have key : ∀ i, ∃ V T : ℝ → ℝ, ∀ hi : i < b.members.length,
      ShearSpan b.members[i].flexRig b.members[i].shearFlex b.members[i].L [] (s'.endForces d i) V T ∧
      V 0 = d (2 * i) ∧ V b.members[i].L = d (2 * i + 2) - (if i = j then J 2 else 0) ∧
      (if b.members[i].et.freeLeft then s'.endForces d i 1 = 0 else T 0 = d (2 * i + 1)) ∧
      (if b.members[i].et.freeRight then s'.endForces d i 3 = 0
        else T b.members[i].L = d (2 * i + 3) - (if i = j then J 3 else 0)) := by
    intro i
    by_cases hi : i < b.members.length
    · have hL := hb.pos _ (List.getElem_mem hi)
      obtain ⟨he, hc⟩ := Uniform.const hb i hi
      -- displacements of the nodes that give member `i` its displacements less the break
      have e0 : (if i = j then J else 0) 0 = 0 := by split <;> simp [hJ]
      have e1 : (if i = j then J else 0) 1 = 0 := by split <;> simp [hJ]
      have e2 : (if i = j then J else 0) 2 = if i = j then J 2 else 0 := by split <;> simp
      have e3 : (if i = j then J else 0) 3 = if i = j then J 3 else 0 := by split <;> simp
      set d0 : ℕ → ℝ := fun p => d p - if p = 2 * i + 2 then (if i = j then J 2 else 0)
        else if p = 2 * i + 3 then (if i = j then J 3 else 0) else 0 with hd0
      have ev : elemVec d0 i = elemVec d i - if i = j then J else 0 := by
        ext p
        rw [Pi.sub_apply]
        fin_cases p
        · simp only [elemVec, hd0, Fin.zero_eta, e0]
          simp
        · simp only [elemVec, hd0, Fin.mk_one, e1]
          simp
        · simp only [elemVec, hd0, Fin.reduceFinMk, e2]
          simp
        · simp only [elemVec, hd0, Fin.reduceFinMk, e3]
          simp
      have hF0 : s'.endForces d i = s0.endForces d0 i := by
        rw [hF i hi, System.endForces, hr0 i hi, hk0 i hi, ev, add_zero]
      obtain ⟨d', g1, g2, g3⟩ := (hb0.memberForces (s := s0) (by simp [BeamDef.setLoads, parseLM])
        (BeamDef.shearBalanced_nil _) hs0 i hi _ hc d0 _).1 hF0
      obtain ⟨V, T, k1, k2, k3, k4, k5⟩ := shearSpan_of_stiffness he.ne' hL
        (own := []) (by simp) _ _ g3
      have r0 : d' 0 = d (2 * i) := by
        rw [g1 0 (released_defl _).1, ev, Pi.sub_apply, e0, sub_zero]
        rfl
      have r2 : d' 2 = d (2 * i + 2) - if i = j then J 2 else 0 := by
        rw [g1 2 (released_defl _).2, ev, Pi.sub_apply, e2]
        rfl
      refine ⟨V, T, fun _ => ⟨k1, k2.trans r0, k4.trans r2, ?_, ?_⟩⟩
      · rw [k3]
        by_cases hfr : b.members[i].et.freeLeft
        · rw [if_pos hfr]
          exact g2 1 ((released_left _).2 hfr)
        · rw [if_neg hfr, g1 1 fun hm => hfr ((released_left _).1 hm), ev, Pi.sub_apply, e1, sub_zero]
          rfl
      · rw [k5]
        by_cases hfr : b.members[i].et.freeRight
        · rw [if_pos hfr]
          exact g2 3 ((released_right _).2 hfr)
        · rw [if_neg hfr, g1 3 fun hm => hfr ((released_right _).1 hm), ev, Pi.sub_apply, e3]
          rfl
    · exact ⟨0, 0, fun h => absurd h hi⟩
  choose V T hVT using key
  have e2 : J 2 = δ + τ * (b.members[j].L - x0) := by simp [hJ]
  have e3 : J 3 = τ := by simp [hJ]
  refine ⟨d, s'.endForces d, V j, T j,
    fun i x => if i = j then V j x + (δ + τ * (x - x0)) else V i x,
    fun i x => if i = j then T j x + τ else T i x, ?_, ?_, ?_, ?_, ?_, ?_, ?_, ?_, ?_⟩
  · intro i hi e he hij
    have h1 := (hVT i hi).1
    rw [(Uniform.const hb i hi).2] at he
    cases he
    simpa only [hij, if_false] using h1
  · intro _ e he
    have h1 := (hVT j hj).1
    rw [(Uniform.const hb j hj).2] at he
    cases he
    simp only [if_true]
    refine ⟨fun x hx => h1.slope x ⟨hx.1, hx.2.trans_le hx0.2⟩ (by simp),
      fun x hx => h1.curvature x ⟨hx.1, hx.2.trans_le hx0.2⟩ (by simp),
      ⟨h1.contV.mono (Icc_subset_Icc_right hx0.2), h1.contT.mono (Icc_subset_Icc_right hx0.2)⟩,
      fun x hx => ?_, fun x hx => ?_, ⟨?_, ?_⟩, by simp, rfl, by simpa using h1.force,
      by simpa using h1.moment⟩
    · exact ((h1.slope x ⟨hx0.1.trans_lt hx.1, hx.2⟩ (by simp)).add
        ((((hasDerivAt_id x).sub_const x0).const_mul τ).const_add δ)).congr_deriv (by ring)
    · exact (h1.curvature x ⟨hx0.1.trans_lt hx.1, hx.2⟩ (by simp)).add_const τ
    · exact (h1.contV.mono (Icc_subset_Icc_left hx0.1)).add (by fun_prop)
    · exact (h1.contT.mono (Icc_subset_Icc_left hx0.1)).add (by fun_prop)
  · intro i hi
    have h1 := (hVT i hi).2.1
    by_cases hij : i = j
    · subst hij
      simpa using h1
    · simpa [hij] using h1
  · intro i hi
    have h1 := (hVT i hi).2.2.1
    by_cases hij : i = j
    · subst hij
      simp only [if_true] at h1 ⊢
      rw [h1, e2]
      ring
    · simpa [hij] using h1
  · intro i hi
    have h1 := (hVT i hi).2.2.2.1
    by_cases hij : i = j
    · subst hij
      simpa using h1
    · simpa [hij] using h1
  · intro i hi
    have h1 := (hVT i hi).2.2.2.2
    by_cases hij : i = j
    · subst hij
      simp only [if_true] at h1 ⊢
      by_cases hfr : b.members[i].et.freeRight
      · rw [if_pos hfr] at h1 ⊢
        exact h1
      · rw [if_neg hfr] at h1 ⊢
        rw [h1, e3]
        ring
    · simpa [hij] using h1
  · intro p hpN w hw
    exact hd p (by simp only [System.N, hs', hn]; exact hpN) w (by
      simp only [System.constr, hs', hp, hw])
  · intro p hpN hw hneg
    exact hd p (by simp only [System.N, hs', hn]; exact hpN) 0 (by
      simp only [System.constr, hs', hp, hw, hr, if_pos hneg])
  · intro k hk c hw hpos
    have hc := c.isLt
    have h1 := hf (2 * k + c) (by simp only [System.N, hs', hn]; omega) (by
      simp only [System.constr, hs', hp, hw, hr, if_neg (not_lt.mpr hpos)])
    rw [s'.residual_node d k (by simp only [hs', hn]; exact hk) c] at h1
    have e1 : s'.n = b.members.length := by simp only [hs', hn]
    have e2 : s'.spring (2 * k + c) = max (b.restraints.getD (2 * k + c) 0) 0 := by
      simp only [System.spring, hs', hr]
      rcases lt_or_ge 0 (b.restraints.getD (2 * k + c) 0) with h | h
      · rw [if_pos h, max_eq_left h.le]
      · rw [if_neg (not_lt.mpr h), max_eq_right h]
    rw [e1, e2] at h1
    exact h1

/-! ## C109 -/

/-- **C109**, with shear-flexible members: the beam broken at a point of a span exists, whatever
the break.  Partial: prismatic members. -/
theorem C109_shear_exists_partial (b : BeamDef ℝ) (ls : List (SpanLoad ℝ)) (hb : b.Uniform ls)
    (s : System ℝ) (hs : b.system = .ok s)
    (hns : s.Nonsingular) (j : ℕ) (hj : j < b.members.length) (x0 : ℝ) (h0 : 0 ≤ x0)
    (h1 : x0 ≤ b.members[j].L) (δ τ : ℝ) :
    ∃ y G ηl φl η φ, BrokenShearBeam b j x0 δ τ y G ηl φl η φ :=
  brokenShear_exists hb hs hns j hj x0 ⟨h0, h1⟩ δ τ

/-- **C109**, with shear-flexible members: the shear and bending moment reported at a station are minus the work of the
loads through the line of the beam that is broken there: for the shear the right side is raised
by one unit against the left, for the bending moment it is turned clockwise by one unit (away
from applied couples).  Partial: prismatic members with balanced couples and
pins. -/
theorem C109_shear_internal_partial (b : BeamDef ℝ) (ls : List (SpanLoad ℝ)) (hls : b.setLoads = .ok ls)
    (hb : b.Uniform ls) (hcb : b.ShearBalanced ls) (hu : b.Unsettled)
    (stable : System ℝ → Bool) (solve : Solver ℝ) (hs : solve.Sound) (res : Result ℝ)
    (h : b.analyze stable solve = .ok res) (npts : ℕ) (hn : 0 < npts) (sp : ℕ → List ℝ)
    (rs : List (MRes ℝ)) (hr : b.memberResults res npts sp = .ok rs) (j : ℕ)
    (hj : j < b.members.length) (hj' : j < rs.length) (k : ℕ) (hk : 0 < k) (hk' : k + 1 < rs[j].n)
    (x0 : ℝ) (hx0 : b.nodeX j + x0 = rs[j].x k) :
    (∀ y G ηl φl η φ, BrokenShearBeam b j x0 1 0 y G ηl φl η φ →
      rs[j].V k = -loadWork b ls (brokenLine j x0 ηl η) (brokenLine j x0 φl φ)) ∧
    ((∀ ld ∈ ownLoads j ls, ∀ p ∈ ld.couplesAt, p.2 ≠ x0) →
      ∀ y G ηl φl η φ, BrokenShearBeam b j x0 0 (-1) y G ηl φl η φ →
        rs[j].M k = -loadWork b ls (brokenLine j x0 ηl η) (brokenLine j x0 φl φ)) := by
  obtain ⟨v, θ, hE⟩ := C117_exact_partial b ls hls hb hcb stable solve hs res h
  obtain ⟨rV, rM⟩ := C117_reported b ls hls hb hcb stable solve hs res h npts hn sp rs hr j hj hj' k
    hk hk'
  obtain ⟨ls', kk, t, c, hls', _, _, _, m1, m2, m3, m4, m5, m6, hc⟩ :=
    BeamDef.results_member hs h hr j hj hj'
  have hL := hb.pos _ (List.getElem_mem hj)
  obtain ⟨x1, x2, x3, x4, x5, x6⟩ := c.x_spec (by rw [m1]; exact hL) (by rw [m5]; exact hn)
  have ex : rs[j].x k - b.nodeX j = x0 := by linarith
  rw [ex] at rV rM
  have hxI : x0 ∈ Icc 0 b.members[j].L := by
    have hk2 : k + 1 < c.n := by rw [hc] at hk'; exact hk'
    have e : c.x k = x0 := by
      have : rs[j].x k = c.x k + b.nodeX j := by rw [hc]
      linarith
    rw [← e]
    rw [m1] at x5
    exact ⟨x2 ▸ x6 0 k (by omega) (by omega), x5 ▸ x6 k (c.n - 1) (by omega) (by omega)⟩
  refine ⟨fun y G ηl φl η φ hB => ?_, fun hcp y G ηl φl η φ hB => ?_⟩
  · have := shear_mueller_breslau_cut hb hu hE j hj x0 hxI hB
    rw [rV, ← this]
    ring
  · have := shear_mueller_breslau_cut hb hu hE j hj x0 hxI hB
    rw [rM hcp, ← this]
    ring

/-! ### Influence lines -/

/-- **C109**, influence lines with shear-flexible members: let the influence lines of a beam be created with load `P` and
that of the bending moment or of the shear be read.  Then every ordinate is `P` times the
height, at its position, of the line of the unloaded beam that is broken at the station nearest
to the point of interest: turned clockwise by one unit for the moment, raised by one unit for
the shear.  Partial: prismatic members, and on pinned-pinned members positions at the
ends and the centre only. -/
theorem C109_shear_influence_partial (A : Analyser ℝ) (hsol : A.solve.Sound) (hn : 0 < A.npts)
    (b : BeamB ℝ) (hb : b.ForIL) (hsl : b.toDef.Uniform [])
    (step : Option ℝ) (P : ℝ) (s s' : ILState ℝ)
    (hc : (ILState.new b).create A step P = (s, .ok ())) (hne : s.pos ≠ [])
    (poi : ℝ) (e : ILEffect) (δ τ : ℝ) (he : e = .M ∧ δ = 0 ∧ τ = -1 ∨ e = .V ∧ δ = 1 ∧ τ = 0)
    (x eta : List ℝ) (hg : s.get A poi e = (s', .ok (x, eta))) (j q : ℕ)
    (hst : NearestStation b.lens A.npts poi j q) (y : ℕ → ℝ) (G : ℕ → Vec4 ℝ) (ηl φl : ℝ → ℝ)
    (η φ : ℕ → ℝ → ℝ)
    (hB : BrokenShearBeam b.toDef j (q * (b.lens.getD j 0 / A.npts)) δ τ y G ηl φl η φ) :
    List.Forall₂ (fun z w => 0 ≤ z → z ≤ b.lens.sum → b.ClearOfPins z → HeightFrom b.lens
      (fun i a => P * brokenLine j (q * (b.lens.getD j 0 / A.npts)) ηl η i a) z w) x eta := by
  obtain ⟨c1, c2, c3⟩ := create_ok A (s := ILState.new b) hb.proper step P hc
  change s.beam = b at c1
  change s.pos = [] ++ ilPositions b step at c2
  change List.Forall₂ (Carries A b P) (ilPositions b step) s.res at c3
  rw [List.nil_append] at c2
  rw [← c2] at c3
  have hres : s.res ≠ [] := by
    intro h
    rw [h] at c3
    cases h2 : s.pos with
    | nil => exact hne h2
    | cons a l => rw [h2] at c3; cases c3
  obtain ⟨s1, h1, _, hx, ho⟩ := get_ok hg
  rcases h1 with ⟨_, hs1⟩ | ⟨h1, _⟩
  swap
  · exact absurd h1 hres
  rw [hs1] at hx ho
  subst hx
  rw [c1] at ho
  have hpos : ∀ L ∈ b.lens, 0 < L := hb.proper.pos
  refine (ordinates_spec hsol hb c3 ho).imp ?_
  rintro z w ⟨r, ⟨row, hrun, hrow, _⟩, hread⟩ hy0 hy1 hclear
  obtain ⟨m, k, hm, hnear, hw⟩ : ∃ (m : MRes ℝ) (k : ℕ), r.2[j]? = some m ∧
      (Nearest m poi k ∧ m.x k = (b.lens.take j).sum + (q : ℝ) * (b.lens.getD j 0 / A.npts)) ∧
      (e = .M ∧ w = m.M k ∨ e = .V ∧ w = m.V k) := by
    have key : ∀ (j' : ℕ) (m : MRes ℝ) (k : ℕ), SpanOf b.lens poi j' → r.2[j']? = some m →
        Nearest m poi k → r.2[j]? = some m ∧
          m.x k = (b.lens.take j).sum + (q : ℝ) * (b.lens.getD j 0 / A.npts) := by
      intro j' m k h1 h2 h3
      obtain ⟨_, g2, g3⟩ := runCase_stations hsol hb.proper.inStep hrun j' m h2
      have hst' : NearestStation b.lens A.npts poi j' (k - 1) := by
        obtain ⟨n1, n2, n3, n4⟩ := h3
        refine ⟨h1, by omega, fun q' hq' => ?_, fun q' hq' => ?_⟩
        · have := n3 (q' + 1) (by omega) (by omega)
          rw [g3 k n1 n2, g3 (q' + 1) (by omega) (by omega)] at this
          simpa using this
        · have := n4 (q' + 1) (by omega) (by omega)
          rw [g3 k n1 n2, g3 (q' + 1) (by omega) (by omega)] at this
          simpa using this
      obtain ⟨rfl, rfl⟩ := hst.unique hpos hst'
      exact ⟨h2, g3 k h3.1 h3.2.1⟩
    rcases he with ⟨rfl, -⟩ | ⟨rfl, -⟩
    · obtain ⟨j', m, k, h1, h2, h3, h4⟩ := hread
      obtain ⟨g1, g2⟩ := key j' m k h1 h2 h3
      exact ⟨m, k, g1, ⟨h3, g2⟩, .inl ⟨rfl, h4⟩⟩
    · obtain ⟨j', m, k, h1, h2, h3, h4⟩ := hread
      obtain ⟨g1, g2⟩ := key j' m k h1 h2 h3
      exact ⟨m, k, g1, ⟨h3, g2⟩, .inr ⟨rfl, h4⟩⟩
  obtain ⟨hnear, hmx⟩ := hnear
  obtain ⟨i, hi, a, rfl, hya, ha0, ha1, ha2⟩ := hrow hy0 hy1
  refine ⟨i, hi, a, hya, ha0, ha1, ha2, ?_⟩
  have hlen := toDef_length hb.proper.inStep
  set d : BeamDef ℝ := { b.toDef with LM := [⟨(i : ℤ) + 1, 2, [P, a, 0]⟩] } with hd
  have hls : d.setLoads = .ok [⟨i, .pl P a⟩] := by
    simp [hd, BeamDef.setLoads, parseLM, parseRow]
  have hbs : d.Uniform [⟨i, .pl P a⟩] := by
    refine ⟨hsl.pos, hsl.prismatic, ?_⟩
    intro k hk l hl hlk
    simp only [List.mem_cons, List.not_mem_nil, or_false] at hl
    subst hl
    have : i = k := by simpa using hlk
    subst this
    refine ⟨⟨ha0, ?_⟩, by simp [Load.IsMechanical]⟩
    exact ha1.trans_eq (zipMembers_L _ _ _ _ i hk hi).symm
  have hun : d.Unsettled := by
    intro p v hv
    refine hb.presc v ?_
    rw [List.getD_eq_getElem?_getD] at hv
    rcases hp : b.presc[p]? with _ | o
    · change (b.presc[p]?).getD none = some v at hv
      rw [hp] at hv
      cases hv
    · change (b.presc[p]?).getD none = some v at hv
      rw [hp] at hv
      simp only [Option.getD_some] at hv
      subst hv
      exact List.mem_of_getElem? hp
  obtain ⟨ra, rb⟩ := runCase_ok hrun
  obtain ⟨hj', rfl⟩ := List.getElem?_eq_some_iff.1 hm
  have hj : j < d.members.length := by
    change j < b.toDef.members.length
    rw [hlen]
    exact hst.1.1
  have hxx : d.nodeX j + q * (b.lens.getD j 0 / A.npts) = r.2[j].x k := by
    rw [hmx]
    congr 1
    exact toDef_nodeX hb.proper.inStep j
  have hbal : d.ShearBalanced [⟨i, .pl P a⟩] := by
    have hLi : ∀ hi' : i < d.members.length, d.members[i].L = b.lens[i] := fun hi' =>
      zipMembers_L _ _ _ _ i hi' hi
    refine d.shearBalanced_point hsl.pos i P a (fun hi' het _ _ => ?_) fun hi' =>
      ⟨ha0, ha1.trans_eq (hLi hi').symm⟩
    rcases ha0.eq_or_lt with h0 | h0
    · exact .inl h0.symm
    · rcases ha1.eq_or_lt with h1 | h1
      · exact .inr (.inr (h1.trans (hLi hi').symm))
      · exact .inr (.inl (hclear i hi' het a hya h0 (h1.trans_eq (hLi hi').symm)))
  obtain ⟨kV, kM⟩ := C109_shear_internal_partial d _ hls hbs hbal hun A.stable A.solve hsol
    r.1 ra A.npts hn _ r.2 rb j hj hj' k hnear.1 hnear.2.1 _ hxx
  have hB' : BrokenShearBeam d j (q * (b.lens.getD j 0 / A.npts)) δ τ y G ηl φl η φ :=
    ⟨hB.span, hB.broken, hB.left, hB.right, hB.rotLeft, hB.rotRight, hB.prescribed, hB.rigid, hB.free⟩
  have hi' : i < d.members.length := by
    change i < b.toDef.members.length
    rw [hlen]
    exact hi
  rcases he with ⟨rfl, rfl, rfl⟩ | ⟨rfl, rfl, rfl⟩
  · rcases hw with ⟨-, rfl⟩ | ⟨h, -⟩
    · rw [kM (by
        intro ld hld p hp
        simp only [ownLoads, List.mem_map, List.mem_filter] at hld
        obtain ⟨l, ⟨hl, -⟩, rfl⟩ := hld
        simp only [List.mem_cons, List.not_mem_nil, or_false] at hl
        subst hl
        simp [Load.couplesAt] at hp) y G ηl φl η φ hB', loadWork_point d i hi']
      ring
    · cases h
  · rcases hw with ⟨h, -⟩ | ⟨-, rfl⟩
    · cases h
    · rw [kV y G ηl φl η φ hB', loadWork_point d i hi']
      ring

/-! ### Concrete cases -/

theorem exMBS_created : ∃ s, (ILState.new exMBS).create exMBA (some 1) 3 = (s, .ok ()) ∧
    s.pos.length = 6 ∧ s.beam = exMBS ∧ ∃ r0 rest jk, s.res = r0 :: rest ∧
      ilStation exMBS r0 2 = .ok jk := by
  have hL : exMBS.length = 5 := rfl
  obtain ⟨s, hs, hlen⟩ := exMBS_loop 1 (List.range (pyRound ((5 : ℝ) / 1) + 1).toNat) 3
    ⟨exMBS, [], []⟩ rfl
  have hround : pyRound ((5 : ℝ) / 1) = 5 := by
    simp [pyRound]
  rw [hround] at hlen hs
  have hc : (ILState.new exMBS).create exMBA (some 1) 3 = (s, .ok ()) := by
    simp only [ILState.create, ILState.new, Option.getD_some, hL, one_ne_zero, if_false, hround]
    exact hs
  have hlen : s.pos.length = 6 := by simpa using hlen
  obtain ⟨c1, c2, c3⟩ := create_ok exMBA (s := ILState.new exMBS) exMBS_forIL.proper (some 1) 3 hc
  have c1 : s.beam = exMBS := c1
  change s.pos = [] ++ ilPositions exMBS (some 1) at c2
  change List.Forall₂ (Carries exMBA exMBS 3) (ilPositions exMBS (some 1)) s.res at c3
  rw [List.nil_append] at c2
  rw [← c2] at c3
  have hres := c3.length_eq
  refine ⟨s, hc, hlen, c1, ?_⟩
  rcases hr : s.res with _ | ⟨r0, rest⟩
  · rw [hr, hlen] at hres
    simp at hres
  have hst : ∃ jk, ilStation exMBS r0 2 = .ok jk := by
    rw [hr] at c3
    obtain ⟨y, _, ⟨row, hrun, _⟩, _⟩ := List.forall₂_cons_right_iff.1 c3
    obtain ⟨hl, ls, _, hm⟩ := BeamDef.memberResults_ok (runCase_ok hrun).2
    have hl : r0.2.length = 2 := hl
    obtain ⟨c, hc, he⟩ := hm 1 (by simp [exMBS, BeamB.toDef, zipMembers]) (by omega)
    have hloc : (exMBS.localCoords 2).1 = 1 := by
      simp [BeamB.localCoords, exMBS, List.findIdx?, List.findIdx?.go]
      norm_num
    have hget : r0.2[(1 : ℕ)]? = some r0.2[1] := List.getElem?_eq_getElem (by omega)
    simp only [ilStation, hloc]
    norm_num
    rw [hget]
    simp only
    have hn : 2 < r0.2[1].n := by
      obtain ⟨_, _, _, _, hnp, hsp, _⟩ := Member.ctx_ok hc
      rw [he]
      change 2 < c.n
      rw [MCtx.n, MCtx.grid, hsp]
      simp [memberGrid, shearPairs, uniformGrid]
    have hne' : ∀ (f : ℕ → ℝ), ∃ k, nearestIdx (2 : ℝ) ((List.range (r0.2[1].n - 2)).map f) = .ok k := by
      intro f
      obtain ⟨n, hn⟩ : ∃ n, r0.2[1].n - 2 = n + 1 := ⟨r0.2[1].n - 3, by omega⟩
      rw [hn, List.range_succ_eq_map]
      exact ⟨_, rfl⟩
    obtain ⟨k, hk⟩ := hne' fun k => r0.2[1].x (k + 1)
    rw [hk]
    exact ⟨_, _, rfl⟩
  obtain ⟨jk, hjk⟩ := hst
  exact ⟨r0, rest, jk, rfl, hjk⟩

theorem exMBS_near : NearestStation exMBS.lens exMBA.npts 2 1 0 := exMB_nearest

/-- The influence lines of the moment over the inner support and of the shear right of it are
read on a beam with a shear-flexible span, the broken beams exist, and the theorem applies to them. -/
example (e : ILEffect) (δ τ : ℝ) (he : e = .M ∧ δ = 0 ∧ τ = -1 ∨ e = .V ∧ δ = 1 ∧ τ = 0) :
    ∃ s s1 x eta y G ηl φl η φ, (ILState.new exMBS).create exMBA (some 1) 3 = (s, .ok ()) ∧
      s.get exMBA 2 e = (s1, .ok (x, eta)) ∧ x.length = 6 ∧ eta.length = 6 ∧
      BrokenShearBeam exMBS.toDef 1 0 δ τ y G ηl φl η φ ∧
      List.Forall₂ (fun z w => 0 ≤ z → z ≤ exMBS.lens.sum →
        HeightFrom exMBS.lens (fun i a => 3 * brokenLine 1 0 ηl η i a) z w) x eta := by
  obtain ⟨s, hc, hlen, hb, r0, rest, ⟨j, k⟩, hr, hjk⟩ := exMBS_created
  obtain ⟨eta, hord⟩ : ∃ eta, s.get exMBA 2 e = (s, .ok (s.pos, eta)) := by
    unfold ILState.get
    rw [hr]
    simp only [List.isEmpty_cons, Bool.false_eq_true, if_false, hb, hr, ilOrdinates, hjk]
    rcases he with ⟨rfl, -⟩ | ⟨rfl, -⟩
    · exact ⟨_, rfl⟩
    · exact ⟨_, rfl⟩
  obtain ⟨sy, hsy⟩ : ∃ sy, exMBS.toDef.system = .ok sy := by
    have : exMBS.toDef.setLoads = .ok [] := by simp [BeamDef.setLoads, BeamB.toDef, exMBS, parseLM]
    rw [BeamDef.system, this]
    simp [exMBS, BeamB.toDef, zipMembers, mapE, Member.spanK, Member.refSum, condenseFor]
  have hpp : ∀ m ∈ exMBS.toDef.members, m.et ≠ .PP := by simp [exMBS, BeamB.toDef, zipMembers]
  obtain ⟨y, G, ηl, φl, η, φ, hB⟩ := C109_shear_exists_partial exMBS.toDef [] exMBS_uniform sy hsy
    (exMBS_nons (LM := exMBS.toDef.LM) (pr := exMBS.toDef.presc) hsy) 1
    (by simp [exMBS, BeamB.toDef, zipMembers]) 0 le_rfl
    (exMBS_uniform.pos _ (List.getElem_mem _)).le δ τ
  have e0 : (((0 : ℕ) : ℝ) * (exMBS.lens.getD 1 0 / (exMBA.npts : ℝ))) = 0 := by simp
  have := C109_shear_influence_partial exMBA anySolver_sound (by simp [exMBA]) exMBS exMBS_forIL exMBS_uniform
    (some 1) 3 s s hc (by
      intro h0
      rw [h0] at hlen
      simp at hlen) 2 e δ τ he s.pos eta hord 1 0 exMBS_near y G ηl φl η φ (by rw [e0]; exact hB)
  rw [e0] at this
  replace this := this.imp fun z w h a c => h a c (BeamB.clearOfPins_of exMBS hpp z)
  exact ⟨s, s, s.pos, eta, y, G, ηl, φl, η, φ, hc, hord, hlen, this.length_eq ▸ hlen, hB, this⟩

end PyCBA
