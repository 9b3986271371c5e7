import Verif.Exact.ImposedAny
import Verif.Exact.Work
import Verif.Exact.Shear

set_option linter.unusedSectionVars false
set_option linter.unusedSimpArgs false

/-!
Beams with members of variable section: the analysis beside the continuous problem.
-/

namespace PyCBA

open MeasureTheory Set Matrix

/-! ### The continuous problem -/

/-- The elastic line of a slender span of rigidity `EI x`: the curvature is the bending moment over
the rigidity there, wherever the rigidity is continuous and no couple acts. -/
structure TaperSpan (EI : ℝ → ℝ) (L : ℝ) (own : List (Load ℝ)) (F : Vec4 ℝ)
    (v θ : ℝ → ℝ) : Prop where
  slope : ∀ x ∈ Ioo 0 L, HasDerivAt v (θ x) x
  curvature : ∀ x ∈ Ioo 0 L, ContinuousAt EI x → (∀ ld ∈ own, ∀ p ∈ ld.couplesAt, p.2 ≠ x) →
    HasDerivAt θ (cutM L own F x / EI x) x
  contV : ContinuousOn v (Icc 0 L)
  contT : ContinuousOn θ (Icc 0 L)
  force : F 0 + F 2 = (own.map fun ld => ld.total L).sum
  moment : F 1 + F 3 + F 2 * L = (own.map fun ld => ld.momentAboutLeft L).sum

/-- A state of the continuous beam: nodal displacements `u`, member end forces `F` and elastic
lines `v`, `θ`, joined at the nodes, supported and in equilibrium. -/
structure TaperBeam (b : BeamDef ℝ) (ls : List (SpanLoad ℝ)) (u : ℕ → ℝ) (F : ℕ → Vec4 ℝ)
    (v θ : ℕ → ℝ → ℝ) : Prop where
  span : ∀ i (hi : i < b.members.length), TaperSpan b.members[i].EI.eval b.members[i].L
    (ownLoads i ls) (F i) (v i) (θ i)
  left : ∀ i < b.members.length, v i 0 = u (2 * i)
  right : ∀ i (hi : i < b.members.length), v i b.members[i].L = u (2 * i + 2)
  rotLeft : ∀ i (hi : i < b.members.length),
    if b.members[i].et.freeLeft then F i 1 = 0 else θ i 0 = u (2 * i + 1)
  rotRight : ∀ i (hi : i < b.members.length),
    if b.members[i].et.freeRight then F i 3 = 0 else θ i b.members[i].L = u (2 * i + 3)
  prescribed : ∀ p < 2 * b.members.length + 2, ∀ w, b.presc.getD p none = some w → u p = w
  rigid : ∀ p < 2 * b.members.length + 2, b.presc.getD p none = none →
    b.restraints.getD p 0 < 0 → u p = 0
  free : ∀ j ≤ b.members.length, ∀ c : Fin 2, b.presc.getD (2 * j + c) none = none →
    0 ≤ b.restraints.getD (2 * j + c) 0 → nodeSum b u F j c = 0

/-- Bending moment of a unit couple at the left (`0`) or right (`1`) end of a simple span. -/
noncomputable def unitM (L : ℝ) (j : Fin 2) (x : ℝ) : ℝ := if j = 0 then 1 - x / L else -x / L

/-- The exact flexibility coefficients of a span. -/
noncomputable def exactFlex (EI : ℝ → ℝ) (L : ℝ) (j k : Fin 2) : ℝ :=
  ∫ x in (0 : ℝ)..L, unitM L j x * unitM L k x / EI x

/-- The exact end rotations of a simple span under a load. -/
noncomputable def exactRot (EI : ℝ → ℝ) (L : ℝ) (ld : Load ℝ) (j : Fin 2) : ℝ :=
  ∫ x in (0 : ℝ)..L, unitM L j x * (ld.ssM L x / EI x)

/-- Error of the integration of the flexibility coefficients. -/
noncomputable def flexErr (s : SecData ℝ) (L : ℝ) : ℝ :=
  |exactFlex s.eval L 0 0 - flexibility s.nodes L 0 0|
    + |exactFlex s.eval L 0 1 - flexibility s.nodes L 0 1|
    + |exactFlex s.eval L 1 1 - flexibility s.nodes L 1 1|

/-- Error of the integration of the primary end rotations of a load. -/
noncomputable def rotErr (s : SecData ℝ) (L : ℝ) (ld : Load ℝ) : ℝ :=
  |(theta0 ld (.section s) none L).1 - exactRot s.eval L ld 0|
    + |(theta0 ld (.section s) none L).2 - exactRot s.eval L ld 1|

/-- The integration errors of a member in a state with end forces `F`: those of the primary
rotations, and those of the flexibility times the end moments.  A prismatic member has none. -/
noncomputable def Member.taperErr (m : Member ℝ) (own : List (Load ℝ)) (F : Vec4 ℝ) : ℝ :=
  match m.EI with
  | .const _ => 0
  | .section s => flexErr s m.L * (|F 1| + |F 3|) + (own.map fun ld => rotErr s m.L ld).sum

/-- A rigidity the continuous problem makes sense for: bounded away from zero, with finitely many
jumps. -/
def Rigidity.Sensible (L : ℝ) (r : Rigidity ℝ) : Prop :=
  Measurable r.eval ∧ (∃ e, 0 < e ∧ ∀ x ∈ Icc 0 L, e ≤ r.eval x) ∧
    {x | x ∈ Ioo 0 L ∧ ¬ ContinuousAt r.eval x}.Finite

/-! ### One span -/

theorem unitM_tame (L : ℝ) (j : Fin 2) : Tame L (unitM L j) := by
  refine Tame.of_continuous ?_
  unfold unitM
  split_ifs <;> fun_prop

theorem sensible_tame {L : ℝ} {r : Rigidity ℝ} (h : r.Sensible L) : Tame L fun x => (r.eval x)⁻¹ := by
  obtain ⟨hm, ⟨e, he, hb⟩, _⟩ := h
  refine ⟨hm.inv, e⁻¹, fun x hx => ?_⟩
  have := hb x hx
  rw [abs_of_pos (inv_pos.2 (he.trans_le this))]
  exact inv_anti₀ he this

theorem couples_finite (own : List (Load ℝ)) :
    {x | ∃ ld ∈ own, ∃ p ∈ ld.couplesAt, p.2 = x}.Finite := by
  refine ((own.flatMap fun ld => ld.couplesAt.map Prod.snd).toFinset.finite_toSet).subset ?_
  rintro x ⟨ld, h1, p, h2, rfl⟩
  simp only [List.coe_toFinset, List.mem_flatMap, List.mem_map, mem_ofPred_eq]
  exact ⟨ld, h1, p, h2, rfl⟩

theorem TaperSpan.shape {r : Rigidity ℝ} {L : ℝ} (hL : 0 < L) (hr : r.Sensible L)
    {own : List (Load ℝ)} {F : Vec4 ℝ} {v θ : ℝ → ℝ} (h : TaperSpan r.eval L own F v θ) :
    Shape L v θ fun x => cutM L own F x / r.eval x := by
  have t : Tame L fun x => cutM L own F x / r.eval x := by
    simpa only [div_eq_mul_inv] using (cutM_tame L own F).mul (sensible_tame hr)
  refine ⟨h.slope, ⟨{x | x ∈ Ioo 0 L ∧ ¬ ContinuousAt r.eval x} ∪ {x | ∃ ld ∈ own, ∃ p ∈ ld.couplesAt, p.2 = x}, ?_, ?_⟩,
    h.contV, h.contT, t.integrable hL.le, ?_⟩
  · exact hr.2.2.union (couples_finite own)
  · intro x hx hs
    simp only [mem_union, mem_ofPred_eq, not_or, not_exists, not_and] at hs
    exact h.curvature x hx (not_not.1 (hs.1 hx)) fun ld h1 p h2 => hs.2 ld h1 p h2
  · simpa only [sq] using (t.mul t).integrable hL.le

/-- The end rotations relative to the chord. -/
theorem TaperSpan.chord {r : Rigidity ℝ} {L : ℝ} (hL : 0 < L) (hr : r.Sensible L)
    {own : List (Load ℝ)} {F : Vec4 ℝ} {v θ : ℝ → ℝ} (h : TaperSpan r.eval L own F v θ) :
    (v 0 - v L) / L + θ 0 = -∫ x in (0 : ℝ)..L, unitM L 0 x * (cutM L own F x / r.eval x) ∧
    (v 0 - v L) / L + θ L = -∫ x in (0 : ℝ)..L, unitM L 1 x * (cutM L own F x / r.eval x) := by
  have hs := h.shape hL hr
  have hL0 := hL.ne'
  constructor
  · have := span_virtual_work hL.le [] ![1 / L, 1, -1 / L, 0] (by simp)
      (by simp [neg_div]) (by simp; field_simp; simp) hs
    have e : ∀ x, cutM L [] ![1 / L, 1, -1 / L, 0] x = -unitM L 0 x := by
      intro x
      simp [cutM, unitM]
      field_simp
      ring
    simp only [e, neg_mul, intervalIntegral.integral_neg, List.map_nil, List.sum_nil] at this
    rw [this]
    simp
    field_simp
    ring
  · have := span_virtual_work hL.le [] ![1 / L, 0, -1 / L, 1] (by simp)
      (by simp [neg_div]) (by simp; field_simp; simp) hs
    have e : ∀ x, cutM L [] ![1 / L, 0, -1 / L, 1] x = -unitM L 1 x := by
      intro x
      simp [cutM, unitM]
      field_simp
    simp only [e, neg_mul, intervalIntegral.integral_neg, List.map_nil, List.sum_nil] at this
    rw [this]
    simp
    field_simp
    ring

/-- The left shear of a span in terms of its end moments. -/
theorem TaperSpan.shears {EI : ℝ → ℝ} {L : ℝ} (hL : 0 < L)
    {own : List (Load ℝ)} (hown : ∀ ld ∈ own, ld.Plain L) {F : Vec4 ℝ} {v θ : ℝ → ℝ}
    (h : TaperSpan EI L own F v θ) :
    F 0 = (own.map fun ld => (ld.ss L 0).V).sum + (F 1 + F 3) / L ∧
    F 2 = (clampedSum L own).Vb + ((clampedSum L own).Ma + (clampedSum L own).Mb) / L
      - (F 1 + F 3) / L ∧
    (own.map fun ld => (ld.ss L 0).V).sum
      = (clampedSum L own).Va - ((clampedSum L own).Ma + (clampedSum L own).Mb) / L := by
  have hL0 := hL.ne'
  obtain ⟨b1, b2⟩ := clampedSum_balance hL hown
  have f1 := h.force
  have f2 := h.moment
  rw [b1] at f1
  rw [b2] at f2
  have e : (own.map fun ld => (ld.ss L 0).V).sum
      = (clampedSum L own).Va - ((clampedSum L own).Ma + (clampedSum L own).Mb) / L := by
    clear f1 f2 h b1 b2
    have hh : own.map (fun ld => (ld.ss L 0).V)
        = own.map fun ld => (ld.clamped L).Va - ((ld.clamped L).Ma + (ld.clamped L).Mb) / L :=
      List.map_congr_left fun ld hld => ((hown ld hld).start hL).1
    rw [hh]
    clear hh hown
    induction own with
    | nil => simp [clampedSum]
    | cons a l ih =>
      simp only [clampedSum, List.map_cons, List.sum_cons] at ih ⊢
      rw [ih]
      ring
  refine ⟨?_, ?_, e⟩
  · rw [e]
    field_simp
    linear_combination L * f1 - f2
  · field_simp
    linear_combination f2

/-- The bending moment of a span: that of the loads on the simple span less that of the end
moments. -/
theorem TaperSpan.cut {EI : ℝ → ℝ} {L : ℝ} (hL : 0 < L)
    {own : List (Load ℝ)} (hown : ∀ ld ∈ own, ld.Plain L) {F : Vec4 ℝ} {v θ : ℝ → ℝ}
    (h : TaperSpan EI L own F v θ) (x : ℝ) :
    cutM L own F x = (own.map fun ld => (ld.ss L 0).V * x - ld.momentLeft L x).sum
      - F 1 * unitM L 0 x - F 3 * unitM L 1 x := by
  obtain ⟨h0, _, _⟩ := h.shears hL hown
  rw [list_sum_sub, list_sum_mul, cutM, h0]
  simp only [unitM, if_true, if_neg (show (1 : Fin 2) ≠ 0 by decide)]
  field_simp
  ring

/-- The moments of a load on the simple span, as the free-body cut gives them, have the same
integral as the diagram the code samples. -/
theorem exactRot_eq {r : Rigidity ℝ} {L : ℝ} (hL : 0 < L) {ld : Load ℝ} (h : ld.Plain L)
    (j : Fin 2) :
    ∫ x in (0 : ℝ)..L, ((ld.ss L 0).V * x - ld.momentLeft L x) * (unitM L j x * (r.eval x)⁻¹)
      = exactRot r.eval L ld j := by
  unfold exactRot
  refine intervalIntegral.integral_congr_ae ?_
  have hfin := couples_finite [ld]
  have : ∀ᵐ x ∂(volume : Measure ℝ), x ∉ {x | ∃ l ∈ [ld], ∃ p ∈ l.couplesAt, p.2 = x} :=
    (Set.Finite.measure_zero hfin volume : _) |> fun h => by
      rw [ae_iff]
      simpa using h
  filter_upwards [this] with x hx hI
  rw [uIoc_of_le hL.le] at hI
  simp only [List.mem_singleton, exists_eq_left, mem_ofPred_eq, not_exists, not_and] at hx
  have := (ld.cut L hL h.1 h.2.1 h.2.2 x ⟨hI.1.le, hI.2⟩).2 hx
  have e : ld.ssM L x = (ld.ss L x).M := by
    simp only [Load.ssM, Load.ss]
    cases ld.stn L x <;> rfl
  rw [e, this]
  ring

/-- **Flexibility equations** of a span: the end rotations relative to the chord are those of the
end moments less those of the loads. -/
theorem TaperSpan.flexibility {r : Rigidity ℝ} {L : ℝ} (hL : 0 < L) (hr : r.Sensible L)
    {own : List (Load ℝ)} (hown : ∀ ld ∈ own, ld.Plain L) {F : Vec4 ℝ} {v θ : ℝ → ℝ}
    (h : TaperSpan r.eval L own F v θ) :
    (v 0 - v L) / L + θ 0 = F 1 * exactFlex r.eval L 0 0 + F 3 * exactFlex r.eval L 0 1
      - (own.map fun ld => exactRot r.eval L ld 0).sum ∧
    (v 0 - v L) / L + θ L = F 1 * exactFlex r.eval L 0 1 + F 3 * exactFlex r.eval L 1 1
      - (own.map fun ld => exactRot r.eval L ld 1).sum := by
  have hi := sensible_tame hr
  have key : ∀ j : Fin 2, -∫ x in (0 : ℝ)..L, unitM L j x * (cutM L own F x / r.eval x)
      = F 1 * exactFlex r.eval L 0 j + F 3 * exactFlex r.eval L 1 j
        - (own.map fun ld => exactRot r.eval L ld j).sum := by
    intro j
    have hk : IntervalIntegrable (fun x => unitM L j x * (r.eval x)⁻¹) volume 0 L :=
      ((unitM_tame L j).mul hi).integrable hL.le
    have hld : ∀ ld ∈ own, Tame L fun x => (ld.ss L 0).V * x - ld.momentLeft L x := by
      intro ld _
      have h1 : Tame L fun x => (ld.ss L 0).V * x := Tame.of_continuous (by fun_prop)
      have h3 := (Tame.of_continuous (L := L) (f := fun _ => (-1 : ℝ)) continuous_const).mul
        (ld.momentLeft_tame L)
      have := h1.add h3
      simpa [sub_eq_add_neg] using this
    have hsum := integral_list_sum hL.le own (fun ld x => (ld.ss L 0).V * x - ld.momentLeft L x)
      hld hk
    have e1 : own.map (fun ld => ∫ x in (0 : ℝ)..L,
        ((ld.ss L 0).V * x - ld.momentLeft L x) * (unitM L j x * (r.eval x)⁻¹))
        = own.map fun ld => exactRot r.eval L ld j :=
      List.map_congr_left fun ld hl => exactRot_eq hL (hown ld hl) j
    rw [e1] at hsum
    have i0 := (((unitM_tame L 0).mul (unitM_tame L j)).mul hi).integrable hL.le
    have i1 := (((unitM_tame L 1).mul (unitM_tame L j)).mul hi).integrable hL.le
    have is := (Tame.list_sum own (fun ld x => (ld.ss L 0).V * x - ld.momentLeft L x)
      hld).mul_integrable hL.le hk
    rw [← hsum, exactFlex, exactFlex, ← intervalIntegral.integral_const_mul,
      ← intervalIntegral.integral_const_mul, ← intervalIntegral.integral_neg]
    simp only [div_eq_mul_inv]
    rw [← intervalIntegral.integral_add (i0.const_mul _) (i1.const_mul _),
      ← intervalIntegral.integral_sub ((i0.const_mul _).add (i1.const_mul _)) is]
    refine intervalIntegral.integral_congr fun x _ => ?_
    rw [h.cut hL hown x]
    ring
  have hsym : exactFlex r.eval L 1 0 = exactFlex r.eval L 0 1 := by
    unfold exactFlex
    refine intervalIntegral.integral_congr fun x _ => ?_
    ring
  obtain ⟨c0, c1⟩ := h.chord hL hr
  rw [c0, c1, key 0, key 1, hsym]
  exact ⟨rfl, rfl⟩

/-! ### Members -/

/-- The clamped end forces the code gives a load on a member of variable section. -/
noncomputable def taperRef (Kth : Matrix (Fin 2) (Fin 2) ℝ) (s : SecData ℝ) (L : ℝ) (ld : Load ℝ) :
    CNL ℝ :=
  refFF (ld.clamped L)
    (Kth 0 0 * (theta0 ld (.section s) none L).1 + Kth 0 1 * (theta0 ld (.section s) none L).2)
    (Kth 1 0 * (theta0 ld (.section s) none L).1 + Kth 1 1 * (theta0 ld (.section s) none L).2) L

theorem Load.Plain.cnl {m : Member ℝ} {ld : Load ℝ} (hL : 0 < m.L) (h : ld.Plain m.L) :
    m.cnl ld = .ok (ld.clamped m.L) := by
  have := h.2.1
  cases ld <;> first | exact this.elim | (simp only [Member.cnl, h.getCnl hL])

theorem list_sum_lin {α : Type*} (l : List α) (f g : α → ℝ) (a b : ℝ) :
    (l.map fun x => a * f x + b * g x).sum = a * (l.map f).sum + b * (l.map g).sum := by
  induction l with
  | nil => simp
  | cons x l ih =>
    simp only [List.map_cons, List.sum_cons, ih]
    ring

theorem list_abs_sum_le {α : Type*} (l : List α) (f : α → ℝ) :
    |(l.map f).sum| ≤ (l.map fun x => |f x|).sum := by
  induction l with
  | nil => simp
  | cons x l ih =>
    simp only [List.map_cons, List.sum_cons]
    exact (abs_add_le _ _).trans (by linarith)

/-- The sum of the clamped end forces of the code. -/
theorem taperRef_sum (Kth : Matrix (Fin 2) (Fin 2) ℝ) (s : SecData ℝ) (L : ℝ)
    (own : List (Load ℝ)) (T0 T1 : ℝ)
    (h0 : T0 = (own.map fun ld => (theta0 ld (.section s) none L).1).sum)
    (h1 : T1 = (own.map fun ld => (theta0 ld (.section s) none L).2).sum) :
    (own.map fun ld => (taperRef Kth s L ld).Ma).sum = Kth 0 0 * T0 + Kth 0 1 * T1 ∧
    (own.map fun ld => (taperRef Kth s L ld).Mb).sum = Kth 1 0 * T0 + Kth 1 1 * T1 ∧
    (own.map fun ld => (taperRef Kth s L ld).Va).sum
      = (clampedSum L own).Va - ((clampedSum L own).Ma + (clampedSum L own).Mb) / L
        + (Kth 0 0 * T0 + Kth 0 1 * T1 + (Kth 1 0 * T0 + Kth 1 1 * T1)) / L ∧
    (own.map fun ld => (taperRef Kth s L ld).Vb).sum
      = (clampedSum L own).Vb + ((clampedSum L own).Ma + (clampedSum L own).Mb) / L
        - (Kth 0 0 * T0 + Kth 0 1 * T1 + (Kth 1 0 * T0 + Kth 1 1 * T1)) / L := by
  subst h0 h1
  induction own with
  | nil => simp [clampedSum]
  | cons a l ih =>
    obtain ⟨i1, i2, i3, i4⟩ := ih
    simp only [clampedSum, List.map_cons, List.sum_cons] at i1 i2 i3 i4 ⊢
    rw [i1, i2, i3, i4]
    simp only [taperRef, refFF]
    refine ⟨by ring, by ring, by ring, by ring⟩

theorem taper_TtKT (Kth : Matrix (Fin 2) (Fin 2) ℝ) (L : ℝ) (d : Vec4 ℝ) :
    TtKT Kth L *ᵥ d = ![
      (Kth 0 0 * ((d 0 - d 2) / L + d 1) + Kth 0 1 * ((d 0 - d 2) / L + d 3)
        + (Kth 1 0 * ((d 0 - d 2) / L + d 1) + Kth 1 1 * ((d 0 - d 2) / L + d 3))) / L,
      Kth 0 0 * ((d 0 - d 2) / L + d 1) + Kth 0 1 * ((d 0 - d 2) / L + d 3),
      -(Kth 0 0 * ((d 0 - d 2) / L + d 1) + Kth 0 1 * ((d 0 - d 2) / L + d 3)
        + (Kth 1 0 * ((d 0 - d 2) / L + d 1) + Kth 1 1 * ((d 0 - d 2) / L + d 3))) / L,
      Kth 1 0 * ((d 0 - d 2) / L + d 1) + Kth 1 1 * ((d 0 - d 2) / L + d 3)] := by
  ext p
  rw [mulVec4, TtKT_apply]
  fin_cases p <;> simp <;> ring

theorem taper_abs1 {f1 f3 x y z φ ρ : ℝ} (hx : |x| ≤ φ) (hy : |y| ≤ φ) (hz : |z| ≤ ρ) :
    |f1 * x + f3 * y + z| ≤ φ * (|f1| + |f3|) + ρ := by
  have w1 := abs_add_le (f1 * x + f3 * y) z
  have w2 := abs_add_le (f1 * x) (f3 * y)
  rw [abs_mul, abs_mul] at w2
  have w3 := mul_le_mul_of_nonneg_left hx (abs_nonneg f1)
  have w4 := mul_le_mul_of_nonneg_left hy (abs_nonneg f3)
  linarith [mul_add φ |f1| |f3|, mul_comm φ |f1|, mul_comm φ |f3|]

theorem taper_abs2 (k00 k01 k10 k11 : ℝ) {a0 a1 L B : ℝ} (hL : 0 < L) (b0 : |a0| ≤ B)
    (b1 : |a1| ≤ B) :
    |-(k00 * a0 + k01 * a1)| ≤ (1 + 2 / L) * (|k00| + |k01| + |k10| + |k11|) * B ∧
    |-(k10 * a0 + k11 * a1)| ≤ (1 + 2 / L) * (|k00| + |k01| + |k10| + |k11|) * B ∧
    |(-(k00 * a0 + k01 * a1) + -(k10 * a0 + k11 * a1)) / L|
      ≤ (1 + 2 / L) * (|k00| + |k01| + |k10| + |k11|) * B := by
  have hB0 : 0 ≤ B := (abs_nonneg _).trans b0
  have p00 := abs_nonneg k00
  have p01 := abs_nonneg k01
  have p10 := abs_nonneg k10
  have p11 := abs_nonneg k11
  have hrow : ∀ x y : ℝ, |-(x * a0 + y * a1)| ≤ (|x| + |y|) * B := by
    intro x y
    rw [abs_neg]
    have w := abs_add_le (x * a0) (y * a1)
    rw [abs_mul, abs_mul] at w
    have w3 := mul_le_mul_of_nonneg_left b0 (abs_nonneg x)
    have w4 := mul_le_mul_of_nonneg_left b1 (abs_nonneg y)
    linarith [add_mul |x| |y| B]
  generalize hr1 : -(k00 * a0 + k01 * a1) = r1
  generalize hr3 : -(k10 * a0 + k11 * a1) = r3
  have z1 := hrow k00 k01
  have z3 := hrow k10 k11
  rw [hr1] at z1
  rw [hr3] at z3
  generalize hS : |k00| + |k01| + |k10| + |k11| = S
  have z1' : |r1| ≤ S * B := z1.trans (mul_le_mul_of_nonneg_right (by linarith) hB0)
  have z3' : |r3| ≤ S * B := z3.trans (mul_le_mul_of_nonneg_right (by linarith) hB0)
  have hSB : 0 ≤ S * B := (abs_nonneg _).trans z1'
  have hLp : 0 ≤ 2 / L * (S * B) := by positivity
  have e : (1 + 2 / L) * S * B = S * B + 2 / L * (S * B) := by ring
  rw [e]
  refine ⟨by linarith, by linarith, ?_⟩
  rw [abs_div, abs_of_pos hL]
  have w := abs_add_le r1 r3
  have h2 : |r1 + r3| / L ≤ 2 * (S * B) / L := div_le_div_of_nonneg_right (by linarith) hL.le
  have e2 : 2 * (S * B) / L = 2 / L * (S * B) := by ring
  linarith

/-- How far the clamped member of the code is from the continuous one. -/
theorem TaperSpan.defect {s : SecData ℝ} {L : ℝ} (hL : 0 < L) (hr : (Rigidity.section s).Sensible L)
    {Kth : Matrix (Fin 2) (Fin 2) ℝ} (hK : inv2 (PyCBA.flexibility s.nodes L) = .ok Kth)
    {own : List (Load ℝ)} (hown : ∀ ld ∈ own, ld.Plain L) {F : Vec4 ℝ} {v θ : ℝ → ℝ}
    (h : TaperSpan s.eval L own F v θ) :
    ∃ r : CNL ℝ,
      F = TtKT Kth L *ᵥ ![v 0, θ 0, v L, θ L]
        + CNL.vec ⟨(own.map fun ld => (taperRef Kth s L ld).Va).sum + r.Va,
          (own.map fun ld => (taperRef Kth s L ld).Ma).sum + r.Ma,
          (own.map fun ld => (taperRef Kth s L ld).Vb).sum + r.Vb,
          (own.map fun ld => (taperRef Kth s L ld).Mb).sum + r.Mb⟩ ∧
      ∀ q, |r.vec q| ≤ (1 + 2 / L) * (|Kth 0 0| + |Kth 0 1| + |Kth 1 0| + |Kth 1 1|)
        * (flexErr s L * (|F 1| + |F 3|) + (own.map fun ld => rotErr s L ld).sum) := by
  obtain ⟨c0, c1⟩ : (v 0 - v L) / L + θ 0
        = F 1 * exactFlex s.eval L 0 0 + F 3 * exactFlex s.eval L 0 1
          - (own.map fun ld => exactRot s.eval L ld 0).sum ∧
      (v 0 - v L) / L + θ L = F 1 * exactFlex s.eval L 0 1 + F 3 * exactFlex s.eval L 1 1
          - (own.map fun ld => exactRot s.eval L ld 1).sum :=
    TaperSpan.flexibility (r := .section s) hL hr hown h
  obtain ⟨s0, s2, s3⟩ := h.shears hL hown
  obtain ⟨t1, t2, t3, t4⟩ := taperRef_sum Kth s L own _ _ rfl rfl
  set T0 := (own.map fun ld => (theta0 ld (.section s) none L).1).sum with hT0
  set T1 := (own.map fun ld => (theta0 ld (.section s) none L).2).sum with hT1
  set E0 := (own.map fun ld => exactRot s.eval L ld 0).sum with hE0
  set E1 := (own.map fun ld => exactRot s.eval L ld 1).sum with hE1
  obtain ⟨⟨k1, k2, k3, k4⟩, _⟩ := inv2_eqs hK
  have hsym : PyCBA.flexibility s.nodes L 1 0 = PyCBA.flexibility s.nodes L 0 1 := by
    simp [PyCBA.flexibility]
  rw [hsym] at k1 k3
  set g00 := PyCBA.flexibility s.nodes L 0 0 with hg00
  set g01 := PyCBA.flexibility s.nodes L 0 1 with hg01
  set g11 := PyCBA.flexibility s.nodes L 1 1 with hg11
  -- the two errors
  set a0 := F 1 * (exactFlex s.eval L 0 0 - g00) + F 3 * (exactFlex s.eval L 0 1 - g01) + (T0 - E0)
    with ha0
  set a1 := F 1 * (exactFlex s.eval L 0 1 - g01) + F 3 * (exactFlex s.eval L 1 1 - g11) + (T1 - E1)
    with ha1
  have m0 : F 1 = Kth 0 0 * ((v 0 - v L) / L + θ 0 + T0) + Kth 0 1 * ((v 0 - v L) / L + θ L + T1)
      - (Kth 0 0 * a0 + Kth 0 1 * a1) := by
    rw [c0, c1, ha0, ha1]
    linear_combination (-F 1) * k1 - F 3 * k2
  have m1 : F 3 = Kth 1 0 * ((v 0 - v L) / L + θ 0 + T0) + Kth 1 1 * ((v 0 - v L) / L + θ L + T1)
      - (Kth 1 0 * a0 + Kth 1 1 * a1) := by
    rw [c0, c1, ha0, ha1]
    linear_combination (-F 1) * k3 - F 3 * k4
  set r1 := -(Kth 0 0 * a0 + Kth 0 1 * a1) with hr1
  set r3 := -(Kth 1 0 * a0 + Kth 1 1 * a1) with hr3
  refine ⟨⟨(r1 + r3) / L, r1, -(r1 + r3) / L, r3⟩, ?_, ?_⟩
  · rw [taper_TtKT, t1, t2, t3, t4]
    ext p
    fin_cases p
    · simp only [CNL.vec, Pi.add_apply, Matrix.cons_val, Fin.zero_eta]
      rw [s0, s3]
      linear_combination (m0 + m1) / L
    · simp only [CNL.vec, Pi.add_apply, Matrix.cons_val, Fin.mk_one]
      linear_combination m0
    · simp only [CNL.vec, Pi.add_apply, Matrix.cons_val, Fin.reduceFinMk]
      rw [s2]
      linear_combination -(m0 + m1) / L
    · simp only [CNL.vec, Pi.add_apply, Matrix.cons_val, Fin.reduceFinMk]
      linear_combination m1
  · set B := flexErr s L * (|F 1| + |F 3|) + (own.map fun ld => rotErr s L ld).sum with hB
    have hrot : |T0 - E0| + |T1 - E1| ≤ (own.map fun ld => rotErr s L ld).sum := by
      have d0 : T0 - E0 = (own.map fun ld => (theta0 ld (.section s) none L).1
          - exactRot s.eval L ld 0).sum := by rw [list_sum_sub]
      have d1 : T1 - E1 = (own.map fun ld => (theta0 ld (.section s) none L).2
          - exactRot s.eval L ld 1).sum := by rw [list_sum_sub]
      have e : (own.map fun ld => rotErr s L ld).sum
          = (own.map fun ld => |(theta0 ld (.section s) none L).1 - exactRot s.eval L ld 0|).sum
            + (own.map fun ld => |(theta0 ld (.section s) none L).2 - exactRot s.eval L ld 1|).sum := by
        have := list_sum_lin own
          (fun ld => |(theta0 ld (.section s) none L).1 - exactRot s.eval L ld 0|)
          (fun ld => |(theta0 ld (.section s) none L).2 - exactRot s.eval L ld 1|) 1 1
        simpa [rotErr] using this
      rw [d0, d1, e]
      exact add_le_add (list_abs_sum_le _ _) (list_abs_sum_le _ _)
    have hflex : ∀ y ∈ [exactFlex s.eval L 0 0 - g00, exactFlex s.eval L 0 1 - g01,
        exactFlex s.eval L 1 1 - g11], |y| ≤ flexErr s L := by
      intro y hy
      simp only [List.mem_cons, List.not_mem_nil, or_false] at hy
      have q0 := abs_nonneg (exactFlex s.eval L 0 0 - g00)
      have q1 := abs_nonneg (exactFlex s.eval L 0 1 - g01)
      have q2 := abs_nonneg (exactFlex s.eval L 1 1 - g11)
      simp only [flexErr, ← hg00, ← hg01, ← hg11]
      rcases hy with rfl | rfl | rfl <;> linarith
    have n0 := abs_nonneg (T0 - E0)
    have n1 := abs_nonneg (T1 - E1)
    have b0 : |a0| ≤ B := taper_abs1 (hflex _ (by simp)) (hflex _ (by simp)) (by linarith)
    have b1 : |a1| ≤ B := taper_abs1 (hflex _ (by simp)) (hflex _ (by simp)) (by linarith)
    obtain ⟨w1, w3, w0⟩ := taper_abs2 (Kth 0 0) (Kth 0 1) (Kth 1 0) (Kth 1 1) hL b0 b1
    intro q
    fin_cases q
    · exact w0
    · exact w1
    · have e : CNL.vec ⟨(r1 + r3) / L, r1, -(r1 + r3) / L, r3⟩ ⟨2, by omega⟩ = -((r1 + r3) / L) := by
        simp only [CNL.vec, Fin.reduceFinMk, Matrix.cons_val]
        ring
      exact (congrArg abs e).trans_le ((abs_neg _).trans_le w0)
    · exact w3

/-- Releasing an end magnifies the defect of a member by a factor that depends on its stiffness
only. -/
theorem release_defect (kff : Mat4 ℝ) (et : EType) (het : et ≠ .PP) (e1 : kff 1 1 ≠ 0)
    (e3 : kff 3 3 ≠ 0) : ∃ D : ℝ, 0 ≤ D ∧ ∀ (r : CNL ℝ) (ε : ℝ), (∀ q, |r.vec q| ≤ ε) →
      ∃ r' : CNL ℝ, IsReleasedForce kff r r' et.released ∧ ∀ q, |r'.vec q| ≤ D * ε := by
  have single : ∀ a : Fin 4, kff a a ≠ 0 → ∃ D : ℝ, 0 ≤ D ∧ ∀ (r : CNL ℝ) (ε : ℝ),
      (∀ q, |r.vec q| ≤ ε) →
      ∃ r' : CNL ℝ, IsReleasedForce kff r r' [a] ∧ ∀ q, |r'.vec q| ≤ D * ε := by
    intro a ha
    refine ⟨1 + ∑ q, |kff q a / kff a a|, by positivity, fun r ε hr => ?_⟩
    refine ⟨⟨r.vec 0 - kff 0 a * (r.vec a / kff a a), r.vec 1 - kff 1 a * (r.vec a / kff a a),
      r.vec 2 - kff 2 a * (r.vec a / kff a a), r.vec 3 - kff 3 a * (r.vec a / kff a a)⟩, ?_, ?_⟩
    · refine releasedForce_single kff _ _ a ha fun p => ?_
      fin_cases p <;> rfl
    · have key : ∀ q, |r.vec q - kff q a * (r.vec a / kff a a)|
          ≤ (1 + ∑ q, |kff q a / kff a a|) * ε := by
        intro q
        have h0 : 0 ≤ ε := (abs_nonneg _).trans (hr q)
        have h1 : |kff q a / kff a a| ≤ ∑ q, |kff q a / kff a a| :=
          Finset.single_le_sum (f := fun q => |kff q a / kff a a|)
            (fun _ _ => abs_nonneg _) (Finset.mem_univ q)
        have h2 := abs_sub (r.vec q) (kff q a * (r.vec a / kff a a))
        have e : kff q a * (r.vec a / kff a a) = kff q a / kff a a * r.vec a := by ring
        have h3 : |kff q a * (r.vec a / kff a a)| ≤ (∑ q, |kff q a / kff a a|) * ε := by
          rw [e, abs_mul]
          exact mul_le_mul h1 (hr a) (abs_nonneg _) ((abs_nonneg _).trans h1)
        linarith [hr q]
      intro q
      have := key q
      fin_cases q <;> exact this
  cases et with
  | PP => exact absurd rfl het
  | FF =>
    refine ⟨1, by norm_num, fun r ε hr => ⟨r, ⟨⟨0, by simp, by simp [EType.released]⟩,
      fun th h1 _ => ?_⟩, fun q => by simpa using hr q⟩⟩
    have : th = 0 := funext fun p => h1 p (by simp [EType.released])
    subst this
    simp
  | FP => exact single 3 e3
  | PF => exact single 1 e1

/-- What is asked of a member: a slender one of positive length, not pinned at both ends, whose
rigidity is positive at the integration nodes, and bounded away from zero with finitely many jumps
along the member. -/
structure Member.Tapered (m : Member ℝ) : Prop where
  good : m.Good
  slender : m.GAv = none
  pins : m.et ≠ .PP
  sensible : m.EI.Sensible m.L

/-- The members of the code beside the continuous ones: the end forces of a state of the continuous
span are those of the code for the same displacements, but for a multiple of the integration
errors. -/
theorem Member.Tapered.defect {m : Member ℝ} (hm : m.Tapered) :
    ∃ D : ℝ, 0 ≤ D ∧ ∀ (k : Mat4 ℝ), m.spanK = .ok k → ∀ (i : ℕ) (ls : List (SpanLoad ℝ)),
      (∀ ld ∈ ownLoads i ls, ld.Plain m.L) → ∀ c : CNL ℝ, m.refSum i ls = .ok c →
      ∀ (d F : Vec4 ℝ) (v θ : ℝ → ℝ), TaperSpan m.EI.eval m.L (ownLoads i ls) F v θ →
      v 0 = d 0 → v m.L = d 2 → (if m.et.freeLeft then F 1 = 0 else θ 0 = d 1) →
      (if m.et.freeRight then F 3 = 0 else θ m.L = d 3) →
      ∀ q, |(k *ᵥ d + c.vec) q - F q| ≤ D * m.taperErr (ownLoads i ls) F := by
  obtain ⟨hgood, hG, het, hsens⟩ := hm
  have hL : 0 < m.L := hgood.1
  rcases hEI : m.EI with e | s
  · -- prismatic
    refine ⟨0, le_rfl, ?_⟩
    intro k hk i ls hown c hc d F v θ h hv0 hvL hl hr q
    have he : 0 < e := by
      have := hgood.2.1
      rw [hEI] at this
      exact this
    rw [spanK_kOf hEI hG] at hk
    cases hk
    rw [refSum_clamped hL hEI hG i ls hown c hc]
    have hS : ElasticSpan e m.L (ownLoads i ls) F v θ :=
      ⟨h.slope, fun x hx hcp => h.curvature x hx continuousAt_const hcp, h.contV,
        h.contT, h.force, h.moment⟩
    have h1 := hS.stiffness he.ne' hL hown
    rw [hv0, hvL] at h1
    have h2 := (release_iff he hL m.et (clampedSum m.L (ownLoads i ls))
      (fun h => absurd h het) F d).2 ⟨θ 0, θ m.L, h1, hl, hr⟩
    rw [← h2]
    simp
  · -- variable section
    obtain ⟨Kth, hK, hPD⟩ := (flexibility_PD2 s.nodes (by
      have := hgood.2.1
      rw [hEI] at this
      exact this) m.L hL).inv
    obtain ⟨p0, p1, _⟩ := hPD.det_pos
    have e1 : TtKT Kth m.L 1 1 ≠ 0 := by rw [TtKT_apply]; simpa using p0.ne'
    have e3 : TtKT Kth m.L 3 3 ≠ 0 := by rw [TtKT_apply]; simpa using p1.ne'
    obtain ⟨D, hD, hrel⟩ := release_defect (TtKT Kth m.L) m.et het e1 e3
    refine ⟨D * ((1 + 2 / m.L) * (|Kth 0 0| + |Kth 0 1| + |Kth 1 0| + |Kth 1 1|)),
      by positivity, ?_⟩
    intro k hk i ls hown c hc d F v θ h hv0 hvL hl hr q
    have hkr : condenseFor (TtKT Kth m.L) m.et = .ok k := by
      simpa only [Member.spanK, hG, hEI, kNonprismatic, hK] using hk
    have hR := condenseFor_release _ _ _ hkr
    have hkFF : kNonprismatic s m.L .FF = .ok (TtKT Kth m.L) := by
      simp only [kNonprismatic, hK, condenseFor]
    rw [hEI] at hsens
    obtain ⟨r, hF, hb⟩ := TaperSpan.defect hL hsens hK hown h
    obtain ⟨r', hr', hb'⟩ := hrel r _ hb
    have hsum := refSum_released hR i (taperRef Kth s m.L) ls (by
      intro l hl' hli c' hc'
      have hp : l.load.Plain m.L := hown _ (by
        simp only [ownLoads, List.mem_map, List.mem_filter, decide_eq_true_eq]
        exact ⟨l, ⟨hl', hli⟩, rfl⟩)
      obtain ⟨c'', h1, h2⟩ := releaseRef_release (taperRef Kth s m.L l.load) (TtKT Kth m.L) m.L
        m.et het e1 e3
      have : m.ref l.load = .ok c'' := by
        simp only [Member.ref, hp.cnl hL, hG, hEI, hK, hkFF]
        exact h1
      rw [this] at hc'
      cases hc'
      exact h2) c hc
    have hfin := (released_iff hR (hsum.add hr') F d).2 ⟨![v 0, θ 0, v m.L, θ m.L], ?_, ?_, hF⟩
    · have hq : (k *ᵥ d + c.vec) q - F q = -(r'.vec q) := by
        rw [hfin]
        have hv : CNL.vec ⟨c.Va + r'.Va, c.Ma + r'.Ma, c.Vb + r'.Vb, c.Mb + r'.Mb⟩
            = c.vec + r'.vec := by
          ext p
          fin_cases p <;> rfl
        rw [hv]
        simp only [Pi.add_apply]
        ring
      rw [hq, abs_neg, Member.taperErr, hEI, mul_assoc]
      exact hb' q
    · intro p hp
      cases het' : m.et <;> rw [het'] at hp hl hr <;>
        simp only [EType.freeLeft, EType.freeRight, if_true, if_false, Bool.false_eq_true] at hl hr <;>
        fin_cases p <;> simp [EType.released] at hp ⊢ <;> assumption
    · intro p hp
      cases het' : m.et <;> rw [het'] at hp hl hr <;>
        simp only [EType.freeLeft, EType.freeRight, if_true, if_false, Bool.false_eq_true] at hl hr <;>
        fin_cases p <;> simp [EType.released] at hp ⊢ <;> assumption

/-! ### Beams -/

/-- Nodal displacements and end forces of a state of the continuous beam solve the equations of the
code with other fixed-end forces. -/
theorem TaperBeam.solution {b : BeamDef ℝ} {ls : List (SpanLoad ℝ)} {s : System ℝ}
    (hs : b.system = .ok s) {u : ℕ → ℝ} {F : ℕ → Vec4 ℝ} {v θ : ℕ → ℝ → ℝ}
    (h : TaperBeam b ls u F v θ) :
    (∀ i, (s.under (fun i => F i - s.kb i *ᵥ elemVec u i) s.presc).endForces u i = F i) ∧
    (s.under (fun i => F i - s.kb i *ᵥ elemVec u i) s.presc).IsSolution u := by
  obtain ⟨hn, hk, _, hr, hp, _, _⟩ := BeamDef.system_ok hs
  set R : ℕ → Vec4 ℝ := fun i => F i - s.kb i *ᵥ elemVec u i with hRd
  have hN : (s.under R s.presc).N = 2 * b.members.length + 2 := by
    simp only [System.N, System.under, hn]
  have hF : ∀ i, (s.under R s.presc).endForces u i = F i := by
    intro i
    simp only [System.endForces, System.under, hRd]
    abel
  refine ⟨hF, fun p hpN w hw => ?_, fun p hpN hc => ?_⟩
  · simp only [System.constr, System.under, hp, hr] at hw
    rcases hq : b.presc.getD p none with _ | w'
    · rw [hq] at hw
      simp only at hw
      split_ifs at hw with hneg
      cases hw
      exact h.rigid p (by omega) hq hneg
    · rw [hq] at hw
      cases hw
      exact h.prescribed p (by omega) w hq
  · simp only [System.constr, System.under, hp, hr] at hc
    rcases hq : b.presc.getD p none with _ | w'
    · rw [hq] at hc
      simp only at hc
      split_ifs at hc with hneg
      have e : 2 * (p / 2) + ((⟨p % 2, Nat.mod_lt _ (by norm_num)⟩ : Fin 2) : ℕ) = p := by
        simp only; omega
      have := h.free (p / 2) (by omega) ⟨p % 2, Nat.mod_lt _ (by norm_num)⟩ (by rw [e]; exact hq)
        (by rw [e]; exact not_lt.mp hneg)
      have e2 := nodeSum_under hs R s.presc u (p / 2) (by omega) ⟨p % 2, Nat.mod_lt _ (by norm_num)⟩
      rw [e] at e2
      rw [← e2, ← this]
      simp only [nodeSum, hF]
    · rw [hq] at hc
      cases hc

theorem exists_common_bound {α : Type*} (l : List α) (P : α → ℝ → Prop)
    (hmono : ∀ a D D', D ≤ D' → P a D → P a D') (h : ∀ a ∈ l, ∃ D, 0 ≤ D ∧ P a D) :
    ∃ D, 0 ≤ D ∧ ∀ a ∈ l, P a D := by
  induction l with
  | nil => exact ⟨0, le_rfl, by simp⟩
  | cons a l ih =>
    obtain ⟨D1, h1, h2⟩ := h a (by simp)
    obtain ⟨D2, h3, h4⟩ := ih fun x hx => h x (List.mem_cons_of_mem _ hx)
    refine ⟨D1 + D2, by positivity, fun x hx => ?_⟩
    rcases List.mem_cons.1 hx with rfl | hx
    · exact hmono _ _ _ (by linarith) h2
    · exact hmono _ _ _ (by linarith) (h4 x hx)

theorem Member.taperErr_nonneg (m : Member ℝ) (own : List (Load ℝ)) (F : Vec4 ℝ) :
    0 ≤ m.taperErr own F := by
  unfold Member.taperErr
  split
  · exact le_rfl
  · have : 0 ≤ (own.map fun ld => rotErr ‹SecData ℝ› m.L ld).sum := List.sum_nonneg fun y hy => by
      obtain ⟨ld, _, rfl⟩ := List.mem_map.1 hy
      unfold rotErr
      positivity
    unfold flexErr
    positivity

/-- **C151, partial**: for every beam of slender members, tapered or prismatic, none pinned at both
ends, that is not a mechanism, there is one constant `C`, depending on members and supports only,
such that, whatever the loads and the prescribed values, the displacements and member end forces
of a completed analysis are within `C ε` of those of every state of the continuous beam, where
`ε` bounds the integration errors of every member: those of the primary end rotations, and those of
the flexibility coefficients times the end moments.  Missing are shear-flexible tapered members,
imposed curvatures, and members pinned at both ends, for which it is false
(`C91_pinned_pinned_violation`). -/
theorem C151_tapered_partial (b₀ : BeamDef ℝ) (s₀ : System ℝ) (h₀ : b₀.system = .ok s₀)
    (hns : s₀.Nonsingular) (hm : ∀ m ∈ b₀.members, m.Tapered) :
    ∃ C : ℝ, 0 < C ∧ ∀ (LM : List (Row ℝ)) (P : List (Option ℝ)),
      P.map Option.isSome = b₀.presc.map Option.isSome →
      ∀ (b : BeamDef ℝ), b = ⟨b₀.members, b₀.restraints, P, LM⟩ →
      ∀ (ls : List (SpanLoad ℝ)), b.setLoads = .ok ls →
      (∀ i (hi : i < b.members.length), ∀ ld ∈ ownLoads i ls, ld.Plain b.members[i].L) →
      ∀ (stable : System ℝ → Bool) (solve : Solver ℝ), solve.Sound → ∀ res : Result ℝ,
      b.analyze stable solve = .ok res →
      ∀ (u : ℕ → ℝ) (F : ℕ → Vec4 ℝ) (v θ : ℕ → ℝ → ℝ), TaperBeam b ls u F v θ →
      ∀ ε : ℝ, (∀ i (hi : i < b.members.length),
        b.members[i].taperErr (ownLoads i ls) (F i) ≤ ε) → 0 ≤ ε →
      (∀ p < 2 * b.members.length + 2, |res.d p - u p| ≤ C * ε) ∧
      ∀ i < b.members.length, ∀ q, |res.fmbr i q - F i q| ≤ C * ε := by
  obtain ⟨C, hC, hw⟩ := s₀.wellPosed hns
  obtain ⟨hn₀, hk₀, _, hr₀, hp₀, _, _⟩ := BeamDef.system_ok h₀
  obtain ⟨D, hD0, hD⟩ := exists_common_bound b₀.members
    (fun m D => ∀ (k : Mat4 ℝ), m.spanK = .ok k → ∀ (i : ℕ) (ls : List (SpanLoad ℝ)),
      (∀ ld ∈ ownLoads i ls, ld.Plain m.L) → ∀ c : CNL ℝ, m.refSum i ls = .ok c →
      ∀ (d F : Vec4 ℝ) (v θ : ℝ → ℝ), TaperSpan m.EI.eval m.L (ownLoads i ls) F v θ →
      v 0 = d 0 → v m.L = d 2 → (if m.et.freeLeft then F 1 = 0 else θ 0 = d 1) →
      (if m.et.freeRight then F 3 = 0 else θ m.L = d 3) →
      ∀ q, |(k *ᵥ d + c.vec) q - F q| ≤ D * m.taperErr (ownLoads i ls) F)
    (fun m D D' hDD h k hk i ls hown c hc d F v θ hS h0 hL hl hr q =>
      (h k hk i ls hown c hc d F v θ hS h0 hL hl hr q).trans
        (mul_le_mul_of_nonneg_right hDD (m.taperErr_nonneg _ _)))
    (fun m hmm => (hm m hmm).defect)
  refine ⟨C * (D + 1), by positivity, ?_⟩
  intro LM P hP b hb ls hls hown stable solve hso res ha u F v θ hT ε hε hε0
  have hbm : b.members = b₀.members := by rw [hb]
  have hbr : b.restraints = b₀.restraints := by rw [hb]
  have hbp : b.presc = P := by rw [hb]
  obtain ⟨s, h1, h2⟩ := BeamDef.analyze_ok ha
  obtain ⟨hn, hk, ⟨l1, hl1, href⟩, hr, hp, _, _⟩ := BeamDef.system_ok h1
  rw [hls] at hl1; cases hl1
  have es : s = s₀.under s.ref s.presc := BeamDef.system_under (b := b₀) (b' := b) hbm hbr h₀ h1
  obtain ⟨a1, _, _, a4, _⟩ := System.analyze_ok hso h2
  have hsome : ∀ p, (s.presc p).isSome = (s₀.presc p).isSome := by
    intro p
    rw [hp₀, hp, hbp]
    have := congrArg (fun l => l.getD p false) hP
    have e : ∀ l : List (Option ℝ), (l.map Option.isSome).getD p false = (l.getD p none).isSome := by
      intro l
      rw [List.getD_eq_getElem?_getD, List.getD_eq_getElem?_getD, List.getElem?_map]
      cases l[p]? <;> rfl
    simp only [e] at this
    exact this
  obtain ⟨hF, hsol⟩ := hT.solution h1
  set R : ℕ → Vec4 ℝ := fun i => F i - s.kb i *ᵥ elemVec u i with hRd
  have hx : s.under R s.presc = s₀.under R s.presc := by
    conv_lhs => rw [es]
    rfl
  rw [hx] at hsol hF
  have hd : (s₀.under s.ref s.presc).IsSolution res.d := by rw [← es]; exact a1
  obtain ⟨w1, w2⟩ := hw s.ref R s.presc s.presc (fun p _ => hsome p)
    (fun p _ => hsome p) res.d u hd hsol ((D + 1) * ε) (by positivity)
    (fun i hi q => by
      rw [hn₀, ← hbm] at hi
      obtain ⟨c, g1, g2⟩ := href i hi
      have hmem : b.members[i] ∈ b₀.members := hbm ▸ List.getElem_mem hi
      have key := hD _ hmem (s.kb i) (hk i hi) i ls (hown i hi) c g1 (elemVec u i) (F i) (v i) (θ i)
        (hT.span i hi) (hT.left i hi) (hT.right i hi) (hT.rotLeft i hi) (hT.rotRight i hi) q
      have e : s.ref i q - R i q = (s.kb i *ᵥ elemVec u i + c.vec) q - F i q := by
        rw [g2]
        simp only [hRd, Pi.add_apply, Pi.sub_apply]
        ring
      rw [e]
      refine key.trans ?_
      have := mul_le_mul_of_nonneg_left (hε i hi) hD0
      linarith)
    (fun p _ v v' hv hv' => by
      rw [hv] at hv'
      cases hv'
      simp only [sub_self, abs_zero]
      positivity)
  rw [← es, ← a4] at w2
  have hN : s₀.N = 2 * b.members.length + 2 := by simp only [System.N, hn₀, hbm]
  rw [hN] at w1
  rw [hn₀, ← hbm] at w2
  rw [mul_assoc]
  refine ⟨w1, fun i hi q => ?_⟩
  have := w2 i hi q
  rw [hF i] at this
  exact this

end PyCBA
