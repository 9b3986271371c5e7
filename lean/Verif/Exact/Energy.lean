import Verif.Exact.Work

set_option linter.unusedSectionVars false
set_option linter.unusedSimpArgs false

/-!
Energy principles for the whole beam: the analysed deflections minimise the potential energy
(C98), the work of the loads is the stored energy and stiffening never increases it (C99).
-/

namespace PyCBA

open MeasureTheory Set

/-! ### Specification -/

/-- The rigidity of a prismatic member. -/
def Member.flexRig (m : Member ℝ) : ℝ :=
  match m.EI with
  | .const e => e
  | _ => 0

/-- Deflected shapes of the spans that fit together at the nodes; a released end may rotate
against its node. -/
structure Compatible (b : BeamDef ℝ) (u : ℕ → ℝ) (v θ κ : ℕ → ℝ → ℝ) : Prop where
  shape : ∀ i (hi : i < b.members.length), Shape b.members[i].L (v i) (θ i) (κ i)
  left : ∀ i < b.members.length, v i 0 = u (2 * i)
  right : ∀ i (hi : i < b.members.length), v i b.members[i].L = u (2 * i + 2)
  rotLeft : ∀ i (hi : i < b.members.length), b.members[i].et.freeLeft = false →
    θ i 0 = u (2 * i + 1)
  rotRight : ∀ i (hi : i < b.members.length), b.members[i].et.freeRight = false →
    θ i b.members[i].L = u (2 * i + 3)

/-- Compatible shapes that honour the supports and the prescribed displacements. -/
structure Admissible (b : BeamDef ℝ) (u : ℕ → ℝ) (v θ κ : ℕ → ℝ → ℝ) : Prop extends
    Compatible b u v θ κ where
  prescribed : ∀ p < 2 * b.members.length + 2, ∀ w, b.presc.getD p none = some w → u p = w
  rigid : ∀ p < 2 * b.members.length + 2, b.presc.getD p none = none →
    b.restraints.getD p 0 < 0 → u p = 0

/-- Stiffness of the spring at a degree of freedom. -/
noncomputable def BeamDef.springK (b : BeamDef ℝ) (p : ℕ) : ℝ := max (b.restraints.getD p 0) 0

/-- Twice the strain energy of the members and springs. -/
noncomputable def stored (b : BeamDef ℝ) (u : ℕ → ℝ) (κ : ℕ → ℝ → ℝ) : ℝ :=
  (∑ i : Fin b.members.length, b.members[i].flexRig * ∫ x in (0 : ℝ)..b.members[i].L, κ i x ^ 2)
    + ∑ p ∈ Finset.range (2 * b.members.length + 2), b.springK p * u p ^ 2

/-- The work of all loads. -/
noncomputable def loadWork (b : BeamDef ℝ) (ls : List (SpanLoad ℝ)) (v θ : ℕ → ℝ → ℝ) : ℝ :=
  ∑ i : Fin b.members.length,
    ((ownLoads i ls).map fun ld => ld.work b.members[i].L (v i) (θ i)).sum

/-- The potential energy of the beam in a deflected shape. -/
noncomputable def potential (b : BeamDef ℝ) (ls : List (SpanLoad ℝ)) (u : ℕ → ℝ)
    (v θ κ : ℕ → ℝ → ℝ) : ℝ :=
  stored b u κ / 2 - loadWork b ls v θ

/-- The curvature of the elastic lines with end forces `F`. -/
noncomputable def lineKappa (b : BeamDef ℝ) (ls : List (SpanLoad ℝ)) (F : ℕ → Vec4 ℝ) (i : ℕ)
    (x : ℝ) : ℝ :=
  cutM ((b.members.map Member.L).getD i 0) (ownLoads i ls) (F i) x
    / (b.members.map Member.flexRig).getD i 0

/-! ### Virtual work -/

theorem lineKappa_eq (b : BeamDef ℝ) (ls : List (SpanLoad ℝ)) (F : ℕ → Vec4 ℝ) (i : ℕ)
    (hi : i < b.members.length) (x : ℝ) :
    lineKappa b ls F i x
      = cutM b.members[i].L (ownLoads i ls) (F i) x / b.members[i].flexRig := by
  simp [lineKappa, hi]

/-- Forces at the nodes do the work of the end forces and the springs. -/
theorem node_work (b : BeamDef ℝ) (u y : ℕ → ℝ) (F : ℕ → Vec4 ℝ) :
    ∑ j ∈ Finset.range (b.members.length + 1), ∑ c : Fin 2, y (2 * j + c) * nodeSum b u F j c
      = (∑ i : Fin b.members.length, (F i 0 * y (2 * i) + F i 1 * y (2 * i + 1)
          + F i 2 * y (2 * i + 2) + F i 3 * y (2 * i + 3)))
        + ∑ p ∈ Finset.range (2 * b.members.length + 2), b.springK p * u p * y p := by
  set n := b.members.length with hn
  have h1 : ∑ j ∈ Finset.range (n + 1), (if 0 < j then F (j - 1) 2 * y (2 * j)
      + F (j - 1) 3 * y (2 * j + 1) else 0)
      = ∑ i ∈ Finset.range n, (F i 2 * y (2 * i + 2) + F i 3 * y (2 * i + 3)) := by
    rw [Finset.sum_range_succ']
    simp only [lt_irrefl, if_false, add_zero, Nat.succ_pos, if_true, Nat.add_sub_cancel]
    rfl
  have h2 : ∑ j ∈ Finset.range (n + 1), (if j < n then F j 0 * y (2 * j)
      + F j 1 * y (2 * j + 1) else 0)
      = ∑ i ∈ Finset.range n, (F i 0 * y (2 * i) + F i 1 * y (2 * i + 1)) := by
    rw [Finset.sum_range_succ]
    simp only [lt_irrefl, if_false, add_zero]
    exact Finset.sum_congr rfl fun i hi => by rw [if_pos (Finset.mem_range.1 hi)]
  have h3 : ∀ m, ∑ j ∈ Finset.range m, (b.springK (2 * j) * u (2 * j) * y (2 * j)
      + b.springK (2 * j + 1) * u (2 * j + 1) * y (2 * j + 1))
      = ∑ p ∈ Finset.range (2 * m), b.springK p * u p * y p := by
    intro m
    induction m with
    | zero => simp
    | succ m ih =>
      rw [Finset.sum_range_succ, ih, show 2 * (m + 1) = 2 * m + 1 + 1 by ring, Finset.sum_range_succ,
        Finset.sum_range_succ]
      ring
  rw [show 2 * n + 2 = 2 * (n + 1) by ring, ← h3,
    Fin.sum_univ_eq_sum_range (fun i => F i 0 * y (2 * i) + F i 1 * y (2 * i + 1)
      + F i 2 * y (2 * i + 2) + F i 3 * y (2 * i + 3)) n]
  have h4 : ∑ i ∈ Finset.range n, (F i 0 * y (2 * i) + F i 1 * y (2 * i + 1)
      + F i 2 * y (2 * i + 2) + F i 3 * y (2 * i + 3))
      = (∑ i ∈ Finset.range n, (F i 0 * y (2 * i) + F i 1 * y (2 * i + 1)))
        + ∑ i ∈ Finset.range n, (F i 2 * y (2 * i + 2) + F i 3 * y (2 * i + 3)) := by
    rw [← Finset.sum_add_distrib]
    exact Finset.sum_congr rfl fun i _ => by ring
  rw [h4, ← h1, ← h2, ← Finset.sum_add_distrib, ← Finset.sum_add_distrib]
  refine Finset.sum_congr rfl fun j _ => ?_
  simp only [Fin.sum_univ_two, nodeSum, BeamDef.springK, Fin.val_zero, Fin.val_one, add_zero, ← hn]
  by_cases a : 0 < j <;> by_cases c : j < n <;> simp only [a, c, if_true, if_false] <;>
    first
    | (show y (2 * j) * (F (j - 1) 2 + F j 0 + _) + y (2 * j + 1) * (F (j - 1) 3 + F j 1 + _) = _
       ring)
    | (show y (2 * j) * (F (j - 1) 2 + 0 + _) + y (2 * j + 1) * (F (j - 1) 3 + 0 + _) = _
       ring)
    | (show y (2 * j) * (0 + F j 0 + _) + y (2 * j + 1) * (0 + F j 1 + _) = _
       ring)
    | ring

theorem ElasticBeam.const {b : BeamDef ℝ} {ls : List (SpanLoad ℝ)} (hb : b.Slender ls) (i : ℕ)
    (hi : i < b.members.length) :
    0 < b.members[i].flexRig ∧ b.members[i].EI = .const b.members[i].flexRig := by
  obtain ⟨_, e, he, h⟩ := hb.prismatic _ (List.getElem_mem hi)
  simp only [Member.flexRig, h]
  exact ⟨he, trivial⟩

theorem ElasticBeam.elastic {b : BeamDef ℝ} {ls : List (SpanLoad ℝ)} (hb : b.Slender ls)
    {u : ℕ → ℝ} {F : ℕ → Vec4 ℝ} {v θ : ℕ → ℝ → ℝ} (h : ElasticBeam b ls u F v θ) (i : ℕ)
    (hi : i < b.members.length) :
    ElasticSpan b.members[i].flexRig b.members[i].L (ownLoads i ls) (F i) (v i) (θ i) :=
  h.span i hi _ (ElasticBeam.const hb i hi).2

theorem Slender.onSpan {b : BeamDef ℝ} {ls : List (SpanLoad ℝ)} (hb : b.Slender ls) (i : ℕ)
    (hi : i < b.members.length) : ∀ ld ∈ ownLoads i ls, ld.OnSpan b.members[i].L := by
  intro ld hld
  simp only [ownLoads, List.mem_map, List.mem_filter, decide_eq_true_eq] at hld
  obtain ⟨l, ⟨h1, h2⟩, rfl⟩ := hld
  exact (hb.loads i hi l h1 h2).1

/-- **Virtual work of the beam**: the moments and springs of a solution, acting through any
compatible shapes, do the work of the loads and of the forces at the nodes. -/
theorem beam_virtual_work {b : BeamDef ℝ} {ls : List (SpanLoad ℝ)} (hb : b.Slender ls)
    {u : ℕ → ℝ} {F : ℕ → Vec4 ℝ} {v θ : ℕ → ℝ → ℝ} (h : ElasticBeam b ls u F v θ)
    {y : ℕ → ℝ} {η φ κ : ℕ → ℝ → ℝ} (hc : Compatible b y η φ κ) :
    (∑ i : Fin b.members.length, ∫ x in (0 : ℝ)..b.members[i].L,
        cutM b.members[i].L (ownLoads i ls) (F i) x * κ i x)
      + ∑ p ∈ Finset.range (2 * b.members.length + 2), b.springK p * u p * y p
      = (∑ j ∈ Finset.range (b.members.length + 1), ∑ c : Fin 2,
          y (2 * j + c) * nodeSum b u F j c) + loadWork b ls η φ := by
  rw [node_work, loadWork, add_right_comm, ← Finset.sum_add_distrib]
  congr 1
  refine Finset.sum_congr rfl fun i _ => ?_
  have hE := h.elastic hb i i.2
  have hL := hb.pos _ (List.getElem_mem i.2)
  have hw := span_virtual_work hL.le (ownLoads i ls) (F i) (Slender.onSpan hb i i.2) hE.force
    hE.moment (hc.shape i i.2)
  have e1 : F i 1 * φ i 0 = F i 1 * y (2 * i + 1) := by
    have hr := h.rotLeft i i.2
    by_cases hf : b.members[(i : ℕ)].et.freeLeft
    · rw [if_pos hf] at hr
      rw [hr]
      ring
    · rw [hc.rotLeft i i.2 (by simpa using hf)]
  have e2 : F i 3 * φ i b.members[(i : ℕ)].L = F i 3 * y (2 * i + 3) := by
    have hr := h.rotRight i i.2
    by_cases hf : b.members[(i : ℕ)].et.freeRight
    · rw [if_pos hf] at hr
      rw [hr]
      ring
    · rw [hc.rotRight i i.2 (by simpa using hf)]
  simp only [Fin.getElem_fin] at hw ⊢
  rw [hw, hc.left i i.2, hc.right i i.2, e1, e2]

/-- Forces at the nodes do no work through a displacement that vanishes wherever the
solution is constrained. -/
theorem node_work_zero {b : BeamDef ℝ} {ls : List (SpanLoad ℝ)} {u : ℕ → ℝ} {F : ℕ → Vec4 ℝ}
    {v θ : ℕ → ℝ → ℝ} (h : ElasticBeam b ls u F v θ) {y : ℕ → ℝ}
    (hy : ∀ p < 2 * b.members.length + 2, (b.presc.getD p none).isSome ∨ b.restraints.getD p 0 < 0 →
      y p = 0) :
    ∑ j ∈ Finset.range (b.members.length + 1), ∑ c : Fin 2, y (2 * j + c) * nodeSum b u F j c = 0 := by
  refine Finset.sum_eq_zero fun j hj => Finset.sum_eq_zero fun c _ => ?_
  have hj' : j ≤ b.members.length := by have := Finset.mem_range.1 hj; omega
  have hlt : 2 * j + (c : ℕ) < 2 * b.members.length + 2 := by omega
  rcases hp : b.presc.getD (2 * j + c) none with _ | w
  · by_cases hr : b.restraints.getD (2 * j + c) 0 < 0
    · rw [hy _ hlt (.inr hr), zero_mul]
    · rw [h.free j hj' c hp (not_lt.1 hr), mul_zero]
  · rw [hy _ hlt (.inl (by rw [hp]; rfl)), zero_mul]

/-- The solution is itself an admissible shape. -/
theorem ElasticBeam.admissible {b : BeamDef ℝ} {ls : List (SpanLoad ℝ)} (hb : b.Slender ls)
    {u : ℕ → ℝ} {F : ℕ → Vec4 ℝ} {v θ : ℕ → ℝ → ℝ} (h : ElasticBeam b ls u F v θ) :
    Admissible b u v θ (lineKappa b ls F) where
  shape i hi := by
    have := (h.elastic hb i hi).shape (hb.pos _ (List.getElem_mem hi)).le
    rwa [show lineKappa b ls F i = _ from funext fun x => lineKappa_eq b ls F i hi x]
  left := h.left
  right := h.right
  rotLeft i hi hf := by
    have := h.rotLeft i hi
    rwa [if_neg (by simp [hf])] at this
  rotRight i hi hf := by
    have := h.rotRight i hi
    rwa [if_neg (by simp [hf])] at this
  prescribed := h.prescribed
  rigid := h.rigid

/-! ### Differences of shapes -/

theorem Shape.sub {L : ℝ} (hL : 0 ≤ L) {v θ κ v' θ' κ' : ℝ → ℝ} (h : Shape L v θ κ)
    (h' : Shape L v' θ' κ') :
    Shape L (fun x => v x - v' x) (fun x => θ x - θ' x) (fun x => κ x - κ' x) where
  slope x hx := (h.slope x hx).sub (h'.slope x hx)
  bend := by
    obtain ⟨s, hs, hd⟩ := h.bend
    obtain ⟨s', hs', hd'⟩ := h'.bend
    refine ⟨s ∪ s', hs.union hs', fun x hx hn => ?_⟩
    simp only [mem_union, not_or] at hn
    exact (hd x hx hn.1).sub (hd' x hx hn.2)
  contV := h.contV.sub h'.contV
  contT := h.contT.sub h'.contT
  int := h.int.sub h'.int
  sq := by
    have h1 := h.sq
    have h2 := h'.sq
    have h3 := h.int.sub h'.int
    rw [intervalIntegrable_iff_integrableOn_Ioc_of_le hL] at h1 h2 h3 ⊢
    refine ((h1.const_mul 2).add (h2.const_mul 2)).mono (h3.aestronglyMeasurable.pow 2) ?_
    filter_upwards with x
    simp only [Real.norm_eq_abs, Pi.add_apply, Pi.pow_apply]
    rw [abs_of_nonneg (by positivity), abs_of_nonneg (by positivity)]
    nlinarith [sq_nonneg (κ x + κ' x)]

theorem Load.work_sub {L : ℝ} (hL : 0 ≤ L) (ld : Load ℝ) {v θ v' θ' : ℝ → ℝ}
    (h : ContinuousOn v (Icc 0 L)) (h' : ContinuousOn v' (Icc 0 L)) :
    ld.work L (fun x => v x - v' x) (fun x => θ x - θ' x) = ld.work L v θ - ld.work L v' θ' := by
  have i1 := (intensity_tame ld L).mul_integrable hL
    (ContinuousOn.intervalIntegrable (by rw [uIcc_of_le hL]; exact h))
  have i2 := (intensity_tame ld L).mul_integrable hL
    (ContinuousOn.intervalIntegrable (by rw [uIcc_of_le hL]; exact h'))
  have e : ∫ x in (0 : ℝ)..L, ld.intensity L x * (v x - v' x)
      = (∫ x in (0 : ℝ)..L, ld.intensity L x * v x) - ∫ x in (0 : ℝ)..L, ld.intensity L x * v' x := by
    rw [← intervalIntegral.integral_sub i1 i2]
    congr 1
    funext x
    ring
  simp only [Load.work, e]
  cases ld <;> simp [Load.forces, Load.couplesAt] <;> ring

theorem Compatible.sub {b : BeamDef ℝ} {ls : List (SpanLoad ℝ)} (hb : b.Slender ls)
    {u u' : ℕ → ℝ} {v θ κ v' θ' κ' : ℕ → ℝ → ℝ} (h : Compatible b u v θ κ)
    (h' : Compatible b u' v' θ' κ') :
    Compatible b (fun p => u p - u' p) (fun i x => v i x - v' i x) (fun i x => θ i x - θ' i x)
      (fun i x => κ i x - κ' i x) where
  shape i hi := (h.shape i hi).sub (hb.pos _ (List.getElem_mem hi)).le (h'.shape i hi)
  left i hi := by simp only [h.left i hi, h'.left i hi]
  right i hi := by simp only [h.right i hi, h'.right i hi]
  rotLeft i hi hf := by simp only [h.rotLeft i hi hf, h'.rotLeft i hi hf]
  rotRight i hi hf := by simp only [h.rotRight i hi hf, h'.rotRight i hi hf]

theorem loadWork_sub {b : BeamDef ℝ} {ls : List (SpanLoad ℝ)} (hb : b.Slender ls)
    {u u' : ℕ → ℝ} {v θ κ v' θ' κ' : ℕ → ℝ → ℝ} (h : Compatible b u v θ κ)
    (h' : Compatible b u' v' θ' κ') :
    loadWork b ls (fun i x => v i x - v' i x) (fun i x => θ i x - θ' i x)
      = loadWork b ls v θ - loadWork b ls v' θ' := by
  simp only [loadWork, ← Finset.sum_sub_distrib]
  refine Finset.sum_congr rfl fun i _ => ?_
  rw [← list_sum_sub]
  congr 1
  refine List.map_congr_left fun ld _ => ?_
  exact ld.work_sub (hb.pos _ (List.getElem_mem i.2)).le (h.shape i i.2).contV (h'.shape i i.2).contV

/-! ### Minimum of the potential energy -/

/-- Away from the solution the potential energy grows by the energy stored in the
difference. -/
theorem potential_expand {b : BeamDef ℝ} {ls : List (SpanLoad ℝ)} (hb : b.Slender ls)
    {u : ℕ → ℝ} {F : ℕ → Vec4 ℝ} {v θ : ℕ → ℝ → ℝ} (h : ElasticBeam b ls u F v θ)
    {u' : ℕ → ℝ} {v' θ' κ' : ℕ → ℝ → ℝ} (h' : Admissible b u' v' θ' κ') :
    potential b ls u' v' θ' κ' = potential b ls u v θ (lineKappa b ls F)
      + stored b (fun p => u' p - u p) (fun i x => κ' i x - lineKappa b ls F i x) / 2 := by
  have ha := h.admissible hb
  have hd := h'.toCompatible.sub hb ha.toCompatible
  have hw := beam_virtual_work hb h hd
  rw [node_work_zero h (y := fun p => u' p - u p) (by
    intro p hp hcon
    rcases hpr : b.presc.getD p none with _ | w
    · rcases hcon with hs | hr
      · rw [hpr] at hs; cases hs
      · simp only [h'.rigid p hp hpr hr, h.rigid p hp hpr hr, sub_self]
    · simp only [h'.prescribed p hp w hpr, h.prescribed p hp w hpr, sub_self]), zero_add,
    loadWork_sub hb h'.toCompatible ha.toCompatible] at hw
  have hspan : ∀ i : Fin b.members.length,
      b.members[i].flexRig * ∫ x in (0 : ℝ)..b.members[i].L, κ' i x ^ 2
      = (b.members[i].flexRig * ∫ x in (0 : ℝ)..b.members[i].L, lineKappa b ls F i x ^ 2)
        + 2 * (∫ x in (0 : ℝ)..b.members[i].L,
          cutM b.members[i].L (ownLoads i ls) (F i) x * (κ' i x - lineKappa b ls F i x))
        + b.members[i].flexRig * ∫ x in (0 : ℝ)..b.members[i].L,
          (κ' i x - lineKappa b ls F i x) ^ 2 := by
    intro i
    have hL := (hb.pos _ (List.getElem_mem i.2)).le
    have hE := (ElasticBeam.const hb i i.2).1
    have i1 := (ha.shape i i.2).sq
    have i2 := (cutM_tame b.members[(i : ℕ)].L (ownLoads i ls) (F i)).mul_integrable hL
      (hd.shape i i.2).int
    have i3 := (hd.shape i i.2).sq
    simp only [Fin.getElem_fin]
    rw [← intervalIntegral.integral_const_mul, ← intervalIntegral.integral_const_mul,
      ← intervalIntegral.integral_const_mul, ← intervalIntegral.integral_const_mul,
      ← intervalIntegral.integral_add (i1.const_mul _) (i2.const_mul _),
      ← intervalIntegral.integral_add ((i1.const_mul _).add (i2.const_mul _)) (i3.const_mul _)]
    congr 1
    funext x
    rw [lineKappa_eq b ls F i i.2]
    field_simp
    ring
  have hspr : ∑ p ∈ Finset.range (2 * b.members.length + 2), b.springK p * u' p ^ 2
      = (∑ p ∈ Finset.range (2 * b.members.length + 2), b.springK p * u p ^ 2)
        + 2 * (∑ p ∈ Finset.range (2 * b.members.length + 2), b.springK p * u p * (u' p - u p))
        + ∑ p ∈ Finset.range (2 * b.members.length + 2), b.springK p * (u' p - u p) ^ 2 := by
    rw [Finset.mul_sum, ← Finset.sum_add_distrib, ← Finset.sum_add_distrib]
    exact Finset.sum_congr rfl fun p _ => by ring
  have hmem : ∑ i : Fin b.members.length,
      b.members[i].flexRig * ∫ x in (0 : ℝ)..b.members[i].L, κ' i x ^ 2
      = (∑ i : Fin b.members.length,
          b.members[i].flexRig * ∫ x in (0 : ℝ)..b.members[i].L, lineKappa b ls F i x ^ 2)
        + 2 * (∑ i : Fin b.members.length, ∫ x in (0 : ℝ)..b.members[i].L,
          cutM b.members[i].L (ownLoads i ls) (F i) x * (κ' i x - lineKappa b ls F i x))
        + ∑ i : Fin b.members.length, b.members[i].flexRig * ∫ x in (0 : ℝ)..b.members[i].L,
          (κ' i x - lineKappa b ls F i x) ^ 2 := by
    rw [Finset.mul_sum, ← Finset.sum_add_distrib, ← Finset.sum_add_distrib]
    exact Finset.sum_congr rfl fun i _ => hspan i
  simp only [potential, stored]
  rw [hmem, hspr]
  linear_combination hw

theorem stored_nonneg {b : BeamDef ℝ} {ls : List (SpanLoad ℝ)} (hb : b.Slender ls) (u : ℕ → ℝ)
    (κ : ℕ → ℝ → ℝ) : 0 ≤ stored b u κ := by
  refine add_nonneg (Finset.sum_nonneg fun i _ => ?_) (Finset.sum_nonneg fun p _ => ?_)
  · exact mul_nonneg (ElasticBeam.const hb i i.2).1.le
      (intervalIntegral.integral_nonneg (hb.pos _ (List.getElem_mem i.2)).le fun x _ => sq_nonneg _)
  · exact mul_nonneg (le_max_right _ _) (sq_nonneg _)

/-- A shape without stored energy is a rigid motion. -/
theorem Shape.rigid {L : ℝ} (hL : 0 ≤ L) {v θ κ : ℝ → ℝ} (h : Shape L v θ κ)
    (h0 : ∫ x in (0 : ℝ)..L, κ x ^ 2 = 0) (x : ℝ) (hx : x ∈ Icc 0 L) :
    θ x = θ L ∧ v x = v L - (L - x) * θ L := by
  have hae : κ =ᵐ[volume.restrict (Ioc 0 L)] 0 := by
    rw [intervalIntegral.integral_of_le hL] at h0
    have hi := h.sq
    rw [intervalIntegrable_iff_integrableOn_Ioc_of_le hL] at hi
    have := (integral_eq_zero_iff_of_nonneg (fun x => sq_nonneg (κ x)) hi).1 h0
    filter_upwards [this] with y hy
    simpa using hy
  have hz : ∀ f : ℝ → ℝ, ∫ y in x..L, f y * κ y = 0 := by
    intro f
    rw [intervalIntegral.integral_of_le hx.2]
    have h1 : κ =ᵐ[volume.restrict (Ioc x L)] 0 :=
      hae.filter_mono (ae_mono (Measure.restrict_mono (Ioc_subset_Ioc_left hx.1) le_rfl))
    refine integral_eq_zero_of_ae ?_
    filter_upwards [h1] with y hy
    simp [hy]
  have k0 := h.int_kappa x hx
  have k1 := h.int_xkappa x hx
  have z0 := hz fun _ => 1
  simp only [one_mul] at z0
  rw [z0] at k0
  rw [hz] at k1
  exact ⟨by linarith, by linarith⟩

/-- An admissible shape with no more potential energy than a solution solves the beam
problem with the same end forces. -/
theorem ElasticBeam.of_potential {b : BeamDef ℝ} {ls : List (SpanLoad ℝ)} (hb : b.Slender ls)
    {u : ℕ → ℝ} {F : ℕ → Vec4 ℝ} {v θ : ℕ → ℝ → ℝ} (h : ElasticBeam b ls u F v θ)
    {u' : ℕ → ℝ} {v' θ' κ' : ℕ → ℝ → ℝ} (h' : Admissible b u' v' θ' κ')
    (hle : potential b ls u' v' θ' κ' ≤ potential b ls u v θ (lineKappa b ls F)) :
    ElasticBeam b ls u' F v' θ' := by
  have ha := h.admissible hb
  have hd := h'.toCompatible.sub hb ha.toCompatible
  rw [potential_expand hb h h'] at hle
  have hnn := stored_nonneg hb (fun p => u' p - u p) (fun i x => κ' i x - lineKappa b ls F i x)
  have hz : stored b (fun p => u' p - u p) (fun i x => κ' i x - lineKappa b ls F i x) = 0 := by
    linarith
  have n1 : ∀ i : Fin b.members.length, 0 ≤ b.members[i].flexRig *
      ∫ x in (0 : ℝ)..b.members[i].L, (κ' i x - lineKappa b ls F i x) ^ 2 := fun i =>
    mul_nonneg (ElasticBeam.const hb i i.2).1.le
      (intervalIntegral.integral_nonneg (hb.pos _ (List.getElem_mem i.2)).le fun x _ => sq_nonneg _)
  have n2 : ∀ p, 0 ≤ b.springK p * (u' p - u p) ^ 2 := fun p =>
    mul_nonneg (le_max_right _ _) (sq_nonneg _)
  have s1 := Finset.sum_nonneg fun i (_ : i ∈ Finset.univ) => n1 i
  have s2 := Finset.sum_nonneg fun p (_ : p ∈ Finset.range (2 * b.members.length + 2)) => n2 p
  have z1 : ∑ i : Fin b.members.length, b.members[i].flexRig *
      ∫ x in (0 : ℝ)..b.members[i].L, (κ' i x - lineKappa b ls F i x) ^ 2 = 0 := by
    simp only [stored] at hz
    linarith
  have z2 : ∑ p ∈ Finset.range (2 * b.members.length + 2), b.springK p * (u' p - u p) ^ 2 = 0 := by
    simp only [stored] at hz
    linarith
  have hrig : ∀ i (hi : i < b.members.length), ∀ x ∈ Icc 0 b.members[i].L,
      θ' i x = θ i x + (θ' i b.members[i].L - θ i b.members[i].L) := by
    intro i hi x hx
    have e := (Finset.sum_eq_zero_iff_of_nonneg fun i _ => n1 i).1 z1 ⟨i, hi⟩ (Finset.mem_univ _)
    have e' := (mul_eq_zero.1 e).resolve_left (ElasticBeam.const hb i hi).1.ne'
    have := ((hd.shape i hi).rigid (hb.pos _ (List.getElem_mem hi)).le e' x hx).1
    linarith
  have hspr : ∀ p < 2 * b.members.length + 2, b.springK p * u' p = b.springK p * u p := by
    intro p hp
    have e := (Finset.sum_eq_zero_iff_of_nonneg fun p _ => n2 p).1 z2 p (Finset.mem_range.2 hp)
    rcases mul_eq_zero.1 e with e | e
    · rw [e]; ring
    · have : u' p = u p := by have := pow_eq_zero_iff (two_ne_zero) |>.1 e; linarith
      rw [this]
  refine ⟨fun i hi e he => ?_, h'.left, h'.right, fun i hi => ?_, fun i hi => ?_, h'.prescribed,
    h'.rigid, fun j hj c hp hr => ?_⟩
  · have hE := h.span i hi e he
    have hS := h'.shape i hi
    refine ⟨hS.slope, fun x hx hcp => ?_, hS.contV, hS.contT, hE.force, hE.moment⟩
    have hev : θ' i =ᶠ[nhds x] fun y => θ i y + (θ' i b.members[i].L - θ i b.members[i].L) := by
      filter_upwards [Ioo_mem_nhds hx.1 hx.2] with y hy
      exact hrig i hi y ⟨hy.1.le, hy.2.le⟩
    exact ((hE.curvature x hx hcp).add_const _).congr_of_eventuallyEq hev
  · have := h.rotLeft i hi
    by_cases hf : b.members[i].et.freeLeft
    · rw [if_pos hf] at this ⊢
      exact this
    · rw [if_neg hf]
      exact h'.rotLeft i hi (by simpa using hf)
  · have := h.rotRight i hi
    by_cases hf : b.members[i].et.freeRight
    · rw [if_pos hf] at this ⊢
      exact this
    · rw [if_neg hf]
      exact h'.rotRight i hi (by simpa using hf)
  · have := h.free j hj c hp hr
    simp only [nodeSum] at this ⊢
    have e := hspr (2 * j + c) (by omega)
    simp only [BeamDef.springK] at e
    rw [e]
    exact this

/-! ## C98 -/

/-- **C98**: the deflected shape of a completed analysis has the least potential energy of
all shapes that honour the supports, the prescribed displacements and the continuity of the
beam.  Partial: slender prismatic members with at most one moment release each. -/
theorem C98_minimum_partial (b : BeamDef ℝ) (ls : List (SpanLoad ℝ)) (hls : b.setLoads = .ok ls)
    (hb : b.Slender ls) (hpp : b.PinsBalanced ls) (stable : System ℝ → Bool)
    (solve : Solver ℝ) (hs : solve.Sound) (res : Result ℝ)
    (h : b.analyze stable solve = .ok res) :
    ∃ v θ κ : ℕ → ℝ → ℝ, ElasticBeam b ls res.d res.fmbr v θ ∧ Admissible b res.d v θ κ ∧
      ∀ u' v' θ' κ', Admissible b u' v' θ' κ' →
        potential b ls res.d v θ κ ≤ potential b ls u' v' θ' κ' := by
  obtain ⟨v, θ, hE⟩ := C91_exact_partial b ls hls hb hpp stable solve hs res h
  refine ⟨v, θ, lineKappa b ls res.fmbr, hE, hE.admissible hb, fun u' v' θ' κ' h' => ?_⟩
  rw [potential_expand hb hE h']
  have := stored_nonneg hb (fun p => u' p - res.d p) (fun i x => κ' i x - lineKappa b ls res.fmbr i x)
  linarith

/-- **C98**, uniqueness: on a regular structure every other admissible shape has more. -/
theorem C98_only_minimum (b : BeamDef ℝ) (ls : List (SpanLoad ℝ)) (hls : b.setLoads = .ok ls)
    (hb : b.Slender ls) (hpp : b.PinsBalanced ls) (s : System ℝ) (hsys : b.system = .ok s)
    (hns : s.Nonsingular) (u u' : ℕ → ℝ) (v θ κ v' θ' κ' : ℕ → ℝ → ℝ)
    (h : Admissible b u v θ κ) (h' : Admissible b u' v' θ' κ')
    (hmin : ∀ u'' v'' θ'' κ'', Admissible b u'' v'' θ'' κ'' →
      potential b ls u v θ κ ≤ potential b ls u'' v'' θ'' κ'')
    (hle : potential b ls u' v' θ' κ' ≤ potential b ls u v θ κ) :
    (∀ p < 2 * b.members.length + 2, u' p = u p) ∧
    ∀ i (hi : i < b.members.length), ∀ x ∈ Icc 0 b.members[i].L, v' i x = v i x ∧ θ' i x = θ i x := by
  obtain ⟨d, hd⟩ := System.exists_solution hns
  obtain ⟨v0, θ0, hE⟩ := elasticBeam_of_solution hls hb hpp hsys hd
  have hmin0 : ∀ {u1 v1 θ1 κ1}, Admissible b u1 v1 θ1 κ1 →
      potential b ls u1 v1 θ1 κ1 ≤ potential b ls u v θ κ →
      ElasticBeam b ls u1 (s.endForces d) v1 θ1 := fun h1 hle1 =>
    hE.of_potential hb h1 (hle1.trans (hmin _ _ _ _ (hE.admissible hb)))
  have e1 := hmin0 h le_rfl
  have e2 := hmin0 h' hle
  obtain ⟨hu, hm⟩ := C91_unique b ls hls hb hpp s hsys hns _ _ _ _ _ _ _ _ e2 e1
  exact ⟨hu, fun i hi => (hm i hi).2⟩

/-! ## C99 -/

/-- **C99**, balance: the energy stored in a solution is half the work of the loads and of
the forces at the settling supports. -/
theorem ElasticBeam.balance {b : BeamDef ℝ} {ls : List (SpanLoad ℝ)} (hb : b.Slender ls)
    {u : ℕ → ℝ} {F : ℕ → Vec4 ℝ} {v θ : ℕ → ℝ → ℝ} (h : ElasticBeam b ls u F v θ) :
    stored b u (lineKappa b ls F) = loadWork b ls v θ
      + ∑ j ∈ Finset.range (b.members.length + 1), ∑ c : Fin 2,
          (b.presc.getD (2 * j + c) none).getD 0 * nodeSum b u F j c := by
  have hw := beam_virtual_work hb h (h.admissible hb).toCompatible
  have e1 : ∑ i : Fin b.members.length, ∫ x in (0 : ℝ)..b.members[i].L,
        cutM b.members[i].L (ownLoads i ls) (F i) x * lineKappa b ls F i x
      = ∑ i : Fin b.members.length,
        b.members[i].flexRig * ∫ x in (0 : ℝ)..b.members[i].L, lineKappa b ls F i x ^ 2 := by
    refine Finset.sum_congr rfl fun i _ => ?_
    rw [← intervalIntegral.integral_const_mul]
    congr 1
    funext x
    have hE := (ElasticBeam.const hb i i.2).1
    rw [lineKappa_eq b ls F i i.2]
    simp only [Fin.getElem_fin]
    field_simp
  have e2 : ∑ j ∈ Finset.range (b.members.length + 1), ∑ c : Fin 2, u (2 * j + c) * nodeSum b u F j c
      = ∑ j ∈ Finset.range (b.members.length + 1), ∑ c : Fin 2,
          (b.presc.getD (2 * j + c) none).getD 0 * nodeSum b u F j c := by
    refine Finset.sum_congr rfl fun j hj => Finset.sum_congr rfl fun c _ => ?_
    have hj' : j ≤ b.members.length := by have := Finset.mem_range.1 hj; omega
    have hlt : 2 * j + (c : ℕ) < 2 * b.members.length + 2 := by omega
    rcases hp : b.presc.getD (2 * j + c) none with _ | w
    · by_cases hr : b.restraints.getD (2 * j + c) 0 < 0
      · rw [h.rigid _ hlt hp hr]; rfl
      · rw [h.free j hj' c hp (not_lt.1 hr)]; simp
    · rw [h.prescribed _ hlt w hp]; rfl
  have e3 : ∑ p ∈ Finset.range (2 * b.members.length + 2), b.springK p * u p * u p
      = ∑ p ∈ Finset.range (2 * b.members.length + 2), b.springK p * u p ^ 2 :=
    Finset.sum_congr rfl fun p _ => by ring
  rw [e1, e2, e3] at hw
  simp only [stored]
  linarith

/-- **C99**, balance: the strain energy of a completed analysis is half the work done by the
loads and the settling supports.  Partial: slender prismatic members with at most one moment
release each. -/
theorem C99_energy_balance_partial (b : BeamDef ℝ) (ls : List (SpanLoad ℝ))
    (hls : b.setLoads = .ok ls) (hb : b.Slender ls) (hpp : b.PinsBalanced ls)
    (stable : System ℝ → Bool) (solve : Solver ℝ) (hs : solve.Sound) (res : Result ℝ)
    (h : b.analyze stable solve = .ok res) :
    ∃ v θ κ : ℕ → ℝ → ℝ, ElasticBeam b ls res.d res.fmbr v θ ∧ Admissible b res.d v θ κ ∧
      stored b res.d κ = loadWork b ls v θ
        + ∑ j ∈ Finset.range (b.members.length + 1), ∑ c : Fin 2,
            (b.presc.getD (2 * j + c) none).getD 0 * nodeSum b res.d res.fmbr j c := by
  obtain ⟨v, θ, hE⟩ := C91_exact_partial b ls hls hb hpp stable solve hs res h
  exact ⟨v, θ, _, hE, hE.admissible hb, hE.balance hb⟩

/-- Nothing settles. -/
def BeamDef.Unsettled (b : BeamDef ℝ) : Prop := ∀ p w, b.presc.getD p none = some w → w = 0

/-- A degree of freedom that cannot move freely. -/
def BeamDef.Held (b : BeamDef ℝ) (p : ℕ) : Prop :=
  (b.presc.getD p none).isSome ∨ b.restraints.getD p 0 < 0

/-- `b'` is the beam `b` made stiffer: larger rigidities, fewer releases, more supports,
stiffer springs (or a support in their place). -/
structure Stiffer (b b' : BeamDef ℝ) : Prop where
  count : b'.members.length = b.members.length
  len : ∀ i (hi : i < b.members.length) (hi' : i < b'.members.length),
    b'.members[i].L = b.members[i].L
  rig : ∀ i (hi : i < b.members.length) (hi' : i < b'.members.length),
    b.members[i].flexRig ≤ b'.members[i].flexRig
  relLeft : ∀ i (hi : i < b.members.length) (hi' : i < b'.members.length),
    b'.members[i].et.freeLeft → b.members[i].et.freeLeft
  relRight : ∀ i (hi : i < b.members.length) (hi' : i < b'.members.length),
    b'.members[i].et.freeRight → b.members[i].et.freeRight
  held : ∀ p < 2 * b.members.length + 2, b.Held p → b'.Held p
  spring : ∀ p < 2 * b.members.length + 2, b.springK p ≤ b'.springK p ∨ b'.Held p

theorem Admissible.held {b : BeamDef ℝ} (hu : b.Unsettled) {u : ℕ → ℝ} {v θ κ : ℕ → ℝ → ℝ}
    (h : Admissible b u v θ κ) (p : ℕ) (hp : p < 2 * b.members.length + 2) (hh : b.Held p) :
    u p = 0 := by
  rcases hpr : b.presc.getD p none with _ | w
  · rcases hh with hs | hr
    · rw [hpr] at hs; cases hs
    · exact h.rigid p hp hpr hr
  · rw [h.prescribed p hp w hpr, hu p w hpr]

/-- A shape of the stiffer beam is one of the softer beam. -/
theorem Stiffer.admissible {b b' : BeamDef ℝ} (hst : Stiffer b b') (hu : b.Unsettled)
    (hu' : b'.Unsettled) {u : ℕ → ℝ} {v θ κ : ℕ → ℝ → ℝ} (h : Admissible b' u v θ κ) :
    Admissible b u v θ κ where
  shape i hi := by
    have hi' : i < b'.members.length := by rw [hst.count]; exact hi
    have := h.shape i hi'
    rwa [hst.len i hi hi'] at this
  left i hi := h.left i (by rw [hst.count]; exact hi)
  right i hi := by
    have hi' : i < b'.members.length := by rw [hst.count]; exact hi
    rw [← hst.len i hi hi']
    exact h.right i hi'
  rotLeft i hi hf := by
    have hi' : i < b'.members.length := by rw [hst.count]; exact hi
    refine h.rotLeft i hi' ?_
    by_contra hc
    rw [hst.relLeft i hi hi' (by simpa using hc)] at hf
    cases hf
  rotRight i hi hf := by
    have hi' : i < b'.members.length := by rw [hst.count]; exact hi
    rw [← hst.len i hi hi']
    refine h.rotRight i hi' ?_
    by_contra hc
    rw [hst.relRight i hi hi' (by simpa using hc)] at hf
    cases hf
  prescribed p hp w hw := by
    rw [hu p w hw]
    exact h.held hu' p (by rw [hst.count]; exact hp) (hst.held p hp (.inl (by rw [hw]; rfl)))
  rigid p hp _ hr := h.held hu' p (by rw [hst.count]; exact hp) (hst.held p hp (.inr hr))

theorem Stiffer.loadWork {b b' : BeamDef ℝ} (hst : Stiffer b b') (ls : List (SpanLoad ℝ))
    (v θ : ℕ → ℝ → ℝ) : loadWork b' ls v θ = loadWork b ls v θ := by
  have h1 : PyCBA.loadWork b ls v θ = ∑ i ∈ Finset.range b.members.length,
      ((ownLoads i ls).map fun ld => ld.work ((b.members.map Member.L).getD i 0) (v i) (θ i)).sum := by
    rw [PyCBA.loadWork, Finset.sum_range]
    refine Finset.sum_congr rfl fun i _ => ?_
    simp
  have h2 : PyCBA.loadWork b' ls v θ = ∑ i ∈ Finset.range b'.members.length,
      ((ownLoads i ls).map fun ld => ld.work ((b'.members.map Member.L).getD i 0) (v i) (θ i)).sum := by
    rw [PyCBA.loadWork, Finset.sum_range]
    refine Finset.sum_congr rfl fun i _ => ?_
    simp
  rw [h1, h2, hst.count]
  refine Finset.sum_congr rfl fun i hi => ?_
  have hi := Finset.mem_range.1 hi
  have hi' : i < b'.members.length := by rw [hst.count]; exact hi
  have : (b'.members.map Member.L).getD i 0 = (b.members.map Member.L).getD i 0 := by
    simp [hi, hi', hst.len i hi hi']
  rw [this]

/-- A shape of the stiffer beam stores at least as much there. -/
theorem Stiffer.stored_le {b b' : BeamDef ℝ} (hst : Stiffer b b') {ls : List (SpanLoad ℝ)}
    (hb : b.Slender ls) (hu' : b'.Unsettled) {u : ℕ → ℝ} {v θ κ : ℕ → ℝ → ℝ}
    (h : Admissible b' u v θ κ) : stored b u κ ≤ stored b' u κ := by
  have h1 : ∀ b : BeamDef ℝ, ∑ i : Fin b.members.length,
      b.members[i].flexRig * ∫ x in (0 : ℝ)..b.members[i].L, κ i x ^ 2
      = ∑ i ∈ Finset.range b.members.length, (b.members.map Member.flexRig).getD i 0
        * ∫ x in (0 : ℝ)..(b.members.map Member.L).getD i 0, κ i x ^ 2 := by
    intro b
    rw [Finset.sum_range]
    refine Finset.sum_congr rfl fun i _ => ?_
    simp
  rw [stored, stored, h1, h1, hst.count]
  refine add_le_add (Finset.sum_le_sum fun i hi => ?_) (Finset.sum_le_sum fun p hp => ?_)
  · have hi := Finset.mem_range.1 hi
    have hi' : i < b'.members.length := by rw [hst.count]; exact hi
    have e1 : (b'.members.map Member.L).getD i 0 = (b.members.map Member.L).getD i 0 := by
      simp [hi, hi', hst.len i hi hi']
    have e2 : (b.members.map Member.flexRig).getD i 0 ≤ (b'.members.map Member.flexRig).getD i 0 := by
      simp [hi, hi', hst.rig i hi hi']
    rw [e1]
    refine mul_le_mul_of_nonneg_right e2 (intervalIntegral.integral_nonneg ?_ fun x _ => sq_nonneg _)
    simpa [hi] using (hb.pos _ (List.getElem_mem hi)).le
  · have hp := Finset.mem_range.1 hp
    rcases hst.spring p hp with hk | hk
    · exact mul_le_mul_of_nonneg_right hk (sq_nonneg _)
    · rw [h.held hu' p (by rw [hst.count]; exact hp) hk]
      simp

/-- **C99**, stiffening: under the same loads a stiffer beam lets the loads do no more
work. -/
theorem C99_stiffening (b b' : BeamDef ℝ) (hst : Stiffer b b') (hu : b.Unsettled)
    (hu' : b'.Unsettled) (ls : List (SpanLoad ℝ)) (hls : b.setLoads = .ok ls)
    (hls' : b'.setLoads = .ok ls) (hb : b.Slender ls) (hb' : b'.Slender ls)
    (hpp : b.PinsBalanced ls) (hpp' : b'.PinsBalanced ls)
    (stable stable' : System ℝ → Bool) (solve solve' : Solver ℝ) (hs : solve.Sound)
    (hs' : solve'.Sound) (res res' : Result ℝ) (h : b.analyze stable solve = .ok res)
    (h' : b'.analyze stable' solve' = .ok res') :
    (∃ v θ v' θ' : ℕ → ℝ → ℝ, ElasticBeam b ls res.d res.fmbr v θ ∧
      ElasticBeam b' ls res'.d res'.fmbr v' θ') ∧
    ∀ v θ v' θ' : ℕ → ℝ → ℝ, ElasticBeam b ls res.d res.fmbr v θ →
      ElasticBeam b' ls res'.d res'.fmbr v' θ' → loadWork b' ls v' θ' ≤ loadWork b ls v θ := by
  obtain ⟨v, θ, hE⟩ := C91_exact_partial b ls hls hb hpp stable solve hs res h
  obtain ⟨v', θ', hE'⟩ := C91_exact_partial b' ls hls' hb' hpp' stable' solve' hs' res' h'
  refine ⟨⟨v, θ, v', θ', hE, hE'⟩, ?_⟩
  clear! v θ v' θ'
  intro v θ v' θ' hE hE'
  have ha' := hE'.admissible hb'
  have h0 : ∀ {b : BeamDef ℝ} {u F}, b.Unsettled → ∑ j ∈ Finset.range (b.members.length + 1),
      ∑ c : Fin 2, (b.presc.getD (2 * j + c) none).getD 0 * nodeSum b u F j c = 0 := by
    intro b u F hu
    refine Finset.sum_eq_zero fun j _ => Finset.sum_eq_zero fun c _ => ?_
    rcases hp : b.presc.getD (2 * j + c) none with _ | w
    · simp
    · simp [hu _ w hp]
  have e1 := hE.balance hb
  have e2 := hE'.balance hb'
  rw [h0 hu, add_zero] at e1
  rw [h0 hu', add_zero] at e2
  have e3 := potential_expand hb hE (hst.admissible hu hu' ha')
  have e4 := stored_nonneg hb (fun p => res'.d p - res.d p)
    (fun i x => lineKappa b' ls res'.fmbr i x - lineKappa b ls res.fmbr i x)
  have e5 := hst.stored_le hb hu' ha'
  have e6 := hst.loadWork ls v' θ'
  simp only [potential] at e3
  rw [e6] at e2 ⊢
  linarith

/-- **C99**, stiffening: the deflection under a single point load never grows when the beam
is made stiffer. -/
theorem C99_point_load (b b' : BeamDef ℝ) (hst : Stiffer b b') (hu : b.Unsettled)
    (hu' : b'.Unsettled) (i : ℕ) (hi : i < b.members.length) (P a : ℝ) (hP : 0 < P)
    (hls : b.setLoads = .ok [⟨i, .pl P a⟩]) (hls' : b'.setLoads = .ok [⟨i, .pl P a⟩])
    (hb : b.Slender [⟨i, .pl P a⟩]) (hb' : b'.Slender [⟨i, .pl P a⟩])
    (hpp : b.PinsBalanced [⟨i, .pl P a⟩]) (hpp' : b'.PinsBalanced [⟨i, .pl P a⟩])
    (stable stable' : System ℝ → Bool) (solve solve' : Solver ℝ) (hs : solve.Sound)
    (hs' : solve'.Sound) (res res' : Result ℝ) (h : b.analyze stable solve = .ok res)
    (h' : b'.analyze stable' solve' = .ok res') :
    (∃ v θ v' θ' : ℕ → ℝ → ℝ, ElasticBeam b [⟨i, .pl P a⟩] res.d res.fmbr v θ ∧
      ElasticBeam b' [⟨i, .pl P a⟩] res'.d res'.fmbr v' θ') ∧
    ∀ v θ v' θ' : ℕ → ℝ → ℝ, ElasticBeam b [⟨i, .pl P a⟩] res.d res.fmbr v θ →
      ElasticBeam b' [⟨i, .pl P a⟩] res'.d res'.fmbr v' θ' → -v' i a ≤ -v i a := by
  obtain ⟨h1, h2⟩ := C99_stiffening b b' hst hu hu' _ hls hls' hb hb' hpp hpp'
    stable stable' solve solve' hs hs' res res' h h'
  refine ⟨h1, fun v θ v' θ' hE hE' => ?_⟩
  have hw := h2 v θ v' θ' hE hE'
  have key : ∀ {b : BeamDef ℝ} (_ : i < b.members.length) (v θ : ℕ → ℝ → ℝ),
      loadWork b [⟨i, .pl P a⟩] v θ = -(P * v i a) := by
    intro b hi v θ
    rw [loadWork, Finset.sum_eq_single ⟨i, hi⟩]
    · simp [ownLoads, Load.work, Load.intensity, Load.forces, Load.couplesAt]
    · intro k _ hk
      have : ¬ (i : ℤ) = ((k : ℕ) : ℤ) := by
        intro he
        apply hk
        ext
        simp only at he ⊢
        omega
      simp [ownLoads, this]
    · simp
  rw [key hi, key (by rw [hst.count]; exact hi)] at hw
  have := (mul_le_mul_iff_right₀ hP).1 (neg_le_neg_iff.1 hw)
  linarith

/-! ### Concrete cases -/

/-- Unbroken members on adequate supports, without prescribed displacements, are analysed. -/
theorem BeamDef.completes_adequate {b : BeamDef ℝ} {s : System ℝ} (hs : b.system = .ok s)
    (hgood : ∀ m ∈ b.members, m.Good ∧ m.et = .FF) (hp : ∀ i, b.presc.getD i none = none) (i j : ℕ)
    (hi : i ≤ b.members.length) (hj : j ≤ b.members.length) (h0 : b.restraints.getD (2 * i) 0 < 0)
    (h1 : (i < j ∧ b.restraints.getD (2 * j) 0 < 0) ∨ b.restraints.getD (2 * j + 1) 0 < 0) :
    ∃ solve : Solver ℝ, solve.Sound ∧ ∃ res, b.analyze (fun _ => true) solve = .ok res := by
  have hns := C77_adequate_supports b hgood s hs i j hi hj h0 h1
  obtain ⟨_, _, _, _, hpr, _, _⟩ := BeamDef.system_ok hs
  exact BeamDef.completes hs hns (by
    simp only [System.validate, hpr, hp]
    simp)

/-- C98 and the balance of C99 at two spans with a uniform load and a couple. -/
example : ∃ (solve : Solver ℝ) (res : Result ℝ) (v θ κ : ℕ → ℝ → ℝ), solve.Sound ∧
    exTwoSpan.analyze (fun _ => true) solve = .ok res ∧
    Admissible exTwoSpan res.d v θ κ ∧
    (∀ u' v' θ' κ', Admissible exTwoSpan u' v' θ' κ' →
      potential exTwoSpan [⟨0, .udl 3⟩, ⟨1, .ml 5 1⟩] res.d v θ κ
        ≤ potential exTwoSpan [⟨0, .udl 3⟩, ⟨1, .ml 5 1⟩] u' v' θ' κ') := by
  obtain ⟨solve, res, _, _, hs, h, _⟩ := exTwoSpan_analysed
  obtain ⟨v, θ, κ, _, h1, h2⟩ := C98_minimum_partial exTwoSpan _ exTwoSpan_loads exTwoSpan_slender
    (exTwoSpan.pinsBalanced_of (by
      intro m hm
      simp only [exTwoSpan, List.mem_cons, List.not_mem_nil, or_false] at hm
      rcases hm with rfl | rfl <;> simp) _) _ solve hs res h
  exact ⟨solve, res, v, θ, κ, hs, h, h1, h2⟩

/-- A span of length 3 with a point load; rigidity `e`, restraint `r` of the left rotation. -/
noncomputable def exOneSpan (e r : ℝ) : BeamDef ℝ :=
  ⟨[⟨.const e, 3, .FF, none⟩], [-1, r, -1, 0], [none, none, none, none], [⟨1, 2, [9, 1]⟩]⟩

theorem exOneSpan_ready (e r : ℝ) (he : 0 < e) :
    (exOneSpan e r).setLoads = .ok [⟨(0 : ℕ), .pl 9 1⟩] ∧
    (exOneSpan e r).Slender [⟨(0 : ℕ), .pl 9 1⟩] ∧
    (exOneSpan e r).PinsBalanced [⟨(0 : ℕ), .pl 9 1⟩] ∧ (exOneSpan e r).Unsettled ∧
    ∃ solve : Solver ℝ, solve.Sound ∧ ∃ res, (exOneSpan e r).analyze (fun _ => true) solve = .ok res := by
  have hls : (exOneSpan e r).setLoads = .ok [⟨(0 : ℕ), .pl 9 1⟩] := by
    simp [BeamDef.setLoads, exOneSpan, parseLM, parseRow]
  have hp : ∀ i, (exOneSpan e r).presc.getD i none = none := by
    intro i
    rcases i with _ | _ | _ | _ | i <;> simp [exOneSpan]
  refine ⟨hls, ⟨by simp [exOneSpan], ?_, ?_⟩,
    BeamDef.pinsBalanced_of (by simp [exOneSpan]) _, ?_, ?_⟩
  · simp [exOneSpan, he]
  · intro i hi l hl _
    have : i = 0 := by simpa [exOneSpan] using hi
    subst this
    simp only [List.mem_cons, List.not_mem_nil, or_false] at hl
    subst hl
    simp [exOneSpan, Load.OnSpan, Load.IsMechanical]
  · intro p w hw
    rw [hp] at hw
    cases hw
  · obtain ⟨s, hs⟩ : ∃ s, (exOneSpan e r).system = .ok s := by
      rw [BeamDef.system, hls]
      simp [exOneSpan, mapE, Member.spanK, Member.refSum, Member.ref, Member.cnl, Load.getCnl]
    exact BeamDef.completes_adequate hs (by simp [exOneSpan, Member.Good, Rigidity.Good, he]) hp 0 1
      (by simp) (by simp [exOneSpan]) (by simp [exOneSpan]) (.inl (by simp [exOneSpan]))

/-- The hypotheses of the stiffening theorems: a simple span against a stiffer one whose left
end is clamped, or held by a spring. -/
example : Stiffer (exOneSpan 6 0) (exOneSpan 8 (-1)) ∧ Stiffer (exOneSpan 6 2) (exOneSpan 6 5) := by
  constructor
  · refine ⟨rfl, ?_, ?_, ?_, ?_, ?_, ?_⟩
    all_goals simp only [exOneSpan, List.length_cons, List.length_nil]
    · intro i hi _
      have : i = 0 := by omega
      subst this
      simp
    · intro i hi _
      have : i = 0 := by omega
      subst this
      simp [Member.flexRig]
      norm_num
    · intro i hi _
      have : i = 0 := by omega
      subst this; simp [EType.freeLeft]
    · intro i hi _
      have : i = 0 := by omega
      subst this; simp [EType.freeRight]
    · intro p hp
      have : p = 0 ∨ p = 1 ∨ p = 2 ∨ p = 3 := by omega
      rcases this with rfl | rfl | rfl | rfl <;> simp [BeamDef.Held]
    · intro p hp
      have : p = 0 ∨ p = 1 ∨ p = 2 ∨ p = 3 := by omega
      rcases this with rfl | rfl | rfl | rfl <;> simp [BeamDef.Held, BeamDef.springK]
  · refine ⟨rfl, ?_, ?_, ?_, ?_, ?_, ?_⟩
    all_goals simp only [exOneSpan, List.length_cons, List.length_nil]
    · intro i hi _
      have : i = 0 := by omega
      subst this
      simp
    · intro i hi _
      have : i = 0 := by omega
      subst this
      simp [Member.flexRig]
    · intro i hi _
      have : i = 0 := by omega
      subst this; simp [EType.freeLeft]
    · intro i hi _
      have : i = 0 := by omega
      subst this; simp [EType.freeRight]
    · intro p hp
      have : p = 0 ∨ p = 1 ∨ p = 2 ∨ p = 3 := by omega
      rcases this with rfl | rfl | rfl | rfl <;> simp [BeamDef.Held]
    · intro p hp
      have : p = 0 ∨ p = 1 ∨ p = 2 ∨ p = 3 := by omega
      rcases this with rfl | rfl | rfl | rfl <;> simp [BeamDef.Held, BeamDef.springK] <;> norm_num

end PyCBA
