import Verif.Exact.Report
import Mathlib.MeasureTheory.Integral.DivergenceTheorem

set_option linter.unusedSectionVars false
set_option linter.unusedSimpArgs false

/-!
The principle of virtual work for one span: the bending moments of a free-body cut, acting
through any deflected shape, do the work of the end forces and the loads.
-/

namespace PyCBA

open MeasureTheory Set

/-! ### Specification -/

/-- A deflected shape of a span: deflection `v`, rotation `θ`, curvature `κ` (which may be
undefined at finitely many points, and has a finite energy). -/
structure Shape (L : ℝ) (v θ κ : ℝ → ℝ) : Prop where
  slope : ∀ x ∈ Ioo 0 L, HasDerivAt v (θ x) x
  bend : ∃ s : Set ℝ, s.Finite ∧ ∀ x ∈ Ioo 0 L, x ∉ s → HasDerivAt θ (κ x) x
  contV : ContinuousOn v (Icc 0 L)
  contT : ContinuousOn θ (Icc 0 L)
  int : IntervalIntegrable κ volume 0 L
  sq : IntervalIntegrable (fun x => κ x ^ 2) volume 0 L

/-- The work a load does when its span takes the shape `v`, `θ` (`v` upward, the load
downward, couples and rotations anticlockwise). -/
noncomputable def Load.work (L : ℝ) (ld : Load ℝ) (v θ : ℝ → ℝ) : ℝ :=
  -(∫ x in (0 : ℝ)..L, ld.intensity L x * v x) - (ld.forces.map fun p => p.1 * v p.2).sum
    + (ld.couplesAt.map fun p => p.1 * θ p.2).sum

/-! ### Bounded measurable functions -/

/-- Measurable, and bounded on the span. -/
def Tame (L : ℝ) (f : ℝ → ℝ) : Prop := Measurable f ∧ ∃ C, ∀ x ∈ Icc 0 L, |f x| ≤ C

theorem Tame.of_continuous {L : ℝ} {f : ℝ → ℝ} (h : Continuous f) : Tame L f := by
  refine ⟨h.measurable, ?_⟩
  obtain ⟨C, hC⟩ := isCompact_Icc.exists_bound_of_continuousOn (s := Icc 0 L) h.continuousOn
  exact ⟨C, fun x hx => by simpa using hC x hx⟩

theorem Tame.add {L : ℝ} {f g : ℝ → ℝ} (hf : Tame L f) (hg : Tame L g) :
    Tame L fun x => f x + g x := by
  obtain ⟨hf, C, hC⟩ := hf
  obtain ⟨hg, D, hD⟩ := hg
  exact ⟨hf.add hg, C + D, fun x hx => (abs_add_le _ _).trans (add_le_add (hC x hx) (hD x hx))⟩

theorem Tame.mul {L : ℝ} {f g : ℝ → ℝ} (hf : Tame L f) (hg : Tame L g) :
    Tame L fun x => f x * g x := by
  obtain ⟨hf, C, hC⟩ := hf
  obtain ⟨hg, D, hD⟩ := hg
  refine ⟨hf.mul hg, C * D, fun x hx => ?_⟩
  rw [abs_mul]
  exact mul_le_mul (hC x hx) (hD x hx) (abs_nonneg _) ((abs_nonneg _).trans (hC x hx))

theorem Tame.list_sum {α : Type*} {L : ℝ} (l : List α) (f : α → ℝ → ℝ)
    (h : ∀ a ∈ l, Tame L (f a)) : Tame L fun x => (l.map fun a => f a x).sum := by
  induction l with
  | nil => simpa using Tame.of_continuous (L := L) (f := fun _ => 0) continuous_const
  | cons a l ih =>
    simp only [List.map_cons, List.sum_cons]
    exact (h a (by simp)).add (ih fun b hb => h b (List.mem_cons_of_mem _ hb))

theorem Tame.mul_integrable {L : ℝ} (hL : 0 ≤ L) {f κ : ℝ → ℝ} (hf : Tame L f)
    (hκ : IntervalIntegrable κ volume 0 L) :
    IntervalIntegrable (fun x => f x * κ x) volume 0 L := by
  obtain ⟨hm, C, hC⟩ := hf
  rw [intervalIntegrable_iff_integrableOn_Ioc_of_le hL] at hκ ⊢
  refine hκ.bdd_mul (c := C) hm.aestronglyMeasurable ?_
  rw [ae_restrict_iff' measurableSet_Ioc]
  filter_upwards with x hx
  simpa using hC x ⟨hx.1.le, hx.2⟩

theorem Tame.integrable {L : ℝ} (hL : 0 ≤ L) {f : ℝ → ℝ} (hf : Tame L f) :
    IntervalIntegrable f volume 0 L := by
  have := hf.mul_integrable hL (κ := fun _ => 1) (by simp)
  simpa using this

/-! ### Distributed loads -/

theorem intensity_measurable (ld : Load ℝ) (L : ℝ) : Measurable (ld.intensity L) := by
  obtain ⟨g, p, q, hg, h | h⟩ := intensity_eq_indicator ld L
  · rw [show ld.intensity L = g from funext h]
    exact hg.measurable
  · rw [h]
    exact hg.measurable.indicator measurableSet_Icc

theorem intensity_continuousAt (ld : Load ℝ) (L : ℝ) :
    ∃ s : Set ℝ, s.Finite ∧ ∀ x ∉ s, ContinuousAt (ld.intensity L) x := by
  obtain ⟨g, p, q, hg, h | h⟩ := intensity_eq_indicator ld L
  · refine ⟨∅, finite_empty, fun x _ => ?_⟩
    rw [show ld.intensity L = g from funext h]
    exact hg.continuousAt
  · refine ⟨{p, q}, by simp, fun x hx => ?_⟩
    simp only [mem_insert_iff, mem_singleton_iff, not_or] at hx
    rw [h]
    rcases lt_or_gt_of_ne hx.1 with h1 | h1
    · have : (Icc p q).indicator g =ᶠ[nhds x] fun _ => 0 := by
        filter_upwards [Iio_mem_nhds h1] with y hy
        simp only [mem_Iio] at hy
        simp [hy]
      exact continuousAt_const.congr this.symm
    · rcases lt_or_gt_of_ne hx.2 with h2 | h2
      · have : (Icc p q).indicator g =ᶠ[nhds x] g := by
          filter_upwards [Ioo_mem_nhds h1 h2] with y hy
          simp [hy.1.le, hy.2.le]
        exact hg.continuousAt.congr this.symm
      · have : (Icc p q).indicator g =ᶠ[nhds x] fun _ => 0 := by
          filter_upwards [Ioi_mem_nhds h2] with y hy
          simp only [mem_Ioi] at hy
          simp [hy]
        exact continuousAt_const.congr this.symm

theorem intensity_tame (ld : Load ℝ) (L : ℝ) : Tame L (ld.intensity L) := by
  refine ⟨intensity_measurable ld L, ?_⟩
  obtain ⟨g, p, q, hg, h | h⟩ := intensity_eq_indicator ld L
  · obtain ⟨C, hC⟩ := (Tame.of_continuous (L := L) hg).2
    exact ⟨C, fun x hx => by rw [h]; exact hC x hx⟩
  · obtain ⟨C, hC⟩ := (Tame.of_continuous (L := L) hg).2
    refine ⟨C, fun x hx => ?_⟩
    rw [h]
    by_cases hm : x ∈ Icc p q
    · simpa [hm] using hC x hx
    · simpa [hm] using (abs_nonneg _).trans (hC x hx)

/-- Cumulative load and its moment. -/
theorem intensity_primitive (ld : Load ℝ) (L : ℝ) :
    Continuous (fun x => ∫ s in (0 : ℝ)..x, ld.intensity L s) ∧
    Continuous (fun x => ∫ s in (0 : ℝ)..x, (x - s) * ld.intensity L s) ∧
    ∀ x, ContinuousAt (ld.intensity L) x →
      HasDerivAt (fun x => ∫ s in (0 : ℝ)..x, ld.intensity L s) (ld.intensity L x) x ∧
      HasDerivAt (fun x => ∫ s in (0 : ℝ)..x, (x - s) * ld.intensity L s)
        (∫ s in (0 : ℝ)..x, ld.intensity L s) x := by
  have h1 : ∀ s t, IntervalIntegrable (ld.intensity L) volume s t := fun s t => by
    simpa using intensity_integrable ld L (fun _ => 1) continuous_const s t
  have h2 : ∀ s t, IntervalIntegrable (fun x => x * ld.intensity L x) volume s t := fun s t =>
    intensity_integrable ld L (fun x => x) continuous_id s t
  have e : (fun x => ∫ s in (0 : ℝ)..x, (x - s) * ld.intensity L s) = fun x =>
      x * (∫ s in (0 : ℝ)..x, ld.intensity L s) - ∫ s in (0 : ℝ)..x, s * ld.intensity L s := by
    funext x
    rw [← intervalIntegral.integral_const_mul, ← intervalIntegral.integral_sub ((h1 0 x).const_mul x)
      (h2 0 x)]
    congr 1
    funext s
    ring
  have c1 := intervalIntegral.continuous_primitive h1 0
  have c2 := intervalIntegral.continuous_primitive h2 0
  have hm := intensity_measurable ld L
  refine ⟨c1, by rw [e]; fun_prop, fun x hx => ?_⟩
  have d1 : HasDerivAt (fun x => ∫ s in (0 : ℝ)..x, ld.intensity L s) (ld.intensity L x) x :=
    intervalIntegral.integral_hasDerivAt_right (h1 0 x)
      hm.stronglyMeasurable.stronglyMeasurableAtFilter hx
  have d2 : HasDerivAt (fun x => ∫ s in (0 : ℝ)..x, s * ld.intensity L s) (x * ld.intensity L x) x :=
    intervalIntegral.integral_hasDerivAt_right (h2 0 x)
      (measurable_id.mul hm).stronglyMeasurable.stronglyMeasurableAtFilter
      (continuousAt_id.mul hx)
  refine ⟨d1, ?_⟩
  rw [e]
  exact (((hasDerivAt_id x).mul d1).sub d2).congr_deriv (by simp)

/-- The distributed part of a load. -/
theorem distributed_work {L : ℝ} (hL : 0 ≤ L) (ld : Load ℝ) {v θ κ : ℝ → ℝ} (h : Shape L v θ κ) :
    ∫ x in (0 : ℝ)..L, (∫ s in (0 : ℝ)..x, (x - s) * ld.intensity L s) * κ x
      = (∫ s in (0 : ℝ)..L, (L - s) * ld.intensity L s) * θ L
        - (∫ s in (0 : ℝ)..L, ld.intensity L s) * v L
        + ∫ x in (0 : ℝ)..L, ld.intensity L x * v x := by
  obtain ⟨c1, c2, hd⟩ := intensity_primitive ld L
  obtain ⟨s, hs, hcs⟩ := intensity_continuousAt ld L
  obtain ⟨t, ht, hbt⟩ := h.bend
  set W : ℝ → ℝ := fun x => ∫ s in (0 : ℝ)..x, ld.intensity L s with hW
  set G : ℝ → ℝ := fun x => ∫ s in (0 : ℝ)..x, (x - s) * ld.intensity L s with hG
  have hv : IntervalIntegrable v volume 0 L :=
    ContinuousOn.intervalIntegrable (by rw [uIcc_of_le hL]; exact h.contV)
  have i1 : IntervalIntegrable (fun x => G x * κ x) volume 0 L :=
    (Tame.of_continuous c2).mul_integrable hL h.int
  have i2 : IntervalIntegrable (fun x => ld.intensity L x * v x) volume 0 L :=
    (intensity_tame ld L).mul_integrable hL hv
  have key := integral_eq_of_hasDerivAt_off_countable_of_le (fun x => G x * θ x - W x * v x)
    (fun x => G x * κ x - ld.intensity L x * v x) hL (s := s ∪ t) (hs.union ht).countable
    ((c2.continuousOn.mul h.contT).sub (c1.continuousOn.mul h.contV)) (by
      intro x hx
      have hx2 : x ∉ s ∧ x ∉ t := by simpa using hx.2
      obtain ⟨d1, d2⟩ := hd x (hcs x hx2.1)
      exact ((d2.mul (hbt x hx.1 hx2.2)).sub (d1.mul (h.slope x hx.1))).congr_deriv (by
        simp only [hW, hG]; ring))
    (i1.sub i2)
  rw [intervalIntegral.integral_sub i1 i2] at key
  have hG0 : G 0 = 0 := by simp [hG]
  have hW0 : W 0 = 0 := by simp [hW]
  rw [hG0, hW0] at key
  simp only [zero_mul, sub_self, sub_zero] at key
  linear_combination key

/-! ### Shapes -/

theorem Shape.int_kappa {L : ℝ} {v θ κ : ℝ → ℝ} (h : Shape L v θ κ) (a : ℝ) (ha : a ∈ Icc 0 L) :
    ∫ x in a..L, κ x = θ L - θ a := by
  obtain ⟨t, ht, hbt⟩ := h.bend
  refine integral_eq_of_hasDerivAt_off_countable_of_le θ κ ha.2 ht.countable
    (h.contT.mono (Icc_subset_Icc_left ha.1)) (fun x hx => hbt x ⟨ha.1.trans_lt hx.1.1, hx.1.2⟩ hx.2) ?_
  exact h.int.mono_set (by
    rw [uIcc_of_le ha.2, uIcc_of_le (ha.1.trans ha.2)]
    exact Icc_subset_Icc_left ha.1)

theorem Shape.int_xkappa {L : ℝ} {v θ κ : ℝ → ℝ} (h : Shape L v θ κ) (a : ℝ) (ha : a ∈ Icc 0 L) :
    ∫ x in a..L, (x - a) * κ x = (L - a) * θ L - v L + v a := by
  obtain ⟨t, ht, hbt⟩ := h.bend
  have key := integral_eq_of_hasDerivAt_off_countable_of_le (fun x => (x - a) * θ x - v x)
    (fun x => (x - a) * κ x) ha.2 ht.countable
    ((ContinuousOn.mul (by fun_prop) (h.contT.mono (Icc_subset_Icc_left ha.1))).sub
      (h.contV.mono (Icc_subset_Icc_left ha.1))) (by
      intro x hx
      have hx' : x ∈ Ioo 0 L := ⟨ha.1.trans_lt hx.1.1, hx.1.2⟩
      exact ((((hasDerivAt_id x).sub_const a).mul (hbt x hx' hx.2)).sub (h.slope x hx')).congr_deriv
        (by simp)) (by
      have := (Tame.of_continuous (L := L) (f := fun x => x - a) (by fun_prop)).mul_integrable
        (ha.1.trans ha.2) h.int
      exact this.mono_set (by
        rw [uIcc_of_le ha.2, uIcc_of_le (ha.1.trans ha.2)]
        exact Icc_subset_Icc_left ha.1))
  rw [key]
  ring

/-! ### One load -/

/-- A function that vanishes up to `a`. -/
theorem integral_right {L a : ℝ} (ha : a ∈ Icc 0 L) (f : ℝ → ℝ) :
    ∫ x in (0 : ℝ)..L, (if a < x then f x else 0) = ∫ x in a..L, f x := by
  rw [intervalIntegral.integral_of_le (ha.1.trans ha.2), intervalIntegral.integral_of_le ha.2]
  have : (fun x => if a < x then f x else 0) = (Ioi a).indicator f := by
    ext x
    simp [indicator]
  rw [this, setIntegral_indicator measurableSet_Ioi]
  congr 2
  ext x
  simp only [mem_inter_iff, mem_Ioc, mem_Ioi]
  constructor
  · rintro ⟨⟨_, h1⟩, h2⟩
    exact ⟨h2, h1⟩
  · rintro ⟨h1, h2⟩
    exact ⟨⟨ha.1.trans_lt h1, h2⟩, h1⟩

theorem ite_tame {L a : ℝ} {f : ℝ → ℝ} (hf : Continuous f) :
    Tame L fun x => if a < x then f x else 0 := by
  obtain ⟨hm, C, hC⟩ := Tame.of_continuous (L := L) hf
  refine ⟨Measurable.ite measurableSet_Ioi hm measurable_const, C, fun x hx => ?_⟩
  dsimp only
  split
  · exact hC x hx
  · simpa using (abs_nonneg _).trans (hC x hx)

theorem momentLeft_pl (L P a : ℝ) :
    (Load.pl P a).momentLeft L = fun x => if a < x then P * (x - a) else 0 := by
  funext x
  by_cases h : a < x <;> simp [Load.momentLeft, Load.forces, Load.couplesAt, Load.intensity, h]

theorem momentLeft_ml (L m a : ℝ) :
    (Load.ml m a).momentLeft L = fun x => if a < x then m else 0 := by
  funext x
  by_cases h : a < x <;> simp [Load.momentLeft, Load.forces, Load.couplesAt, Load.intensity, h]

theorem momentLeft_dist (L : ℝ) (ld : Load ℝ) (hf : ld.forces = []) (hc : ld.couplesAt = []) :
    ld.momentLeft L = fun x => ∫ s in (0 : ℝ)..x, (x - s) * ld.intensity L s := by
  funext x
  simp [Load.momentLeft, hf, hc]

/-- The moments of a load bound and measure. -/
theorem Load.momentLeft_tame (ld : Load ℝ) (L : ℝ) : Tame L (ld.momentLeft L) := by
  have h0 := Tame.of_continuous (L := L) (intensity_primitive ld L).2.1
  cases ld with
  | pl P a =>
    rw [momentLeft_pl]
    exact ite_tame (by fun_prop)
  | ml m a =>
    rw [momentLeft_ml]
    exact ite_tame (by fun_prop)
  | _ => rw [momentLeft_dist _ _ rfl rfl]; exact h0

/-- The moments of a load, acting through a shape. -/
theorem Load.moment_work {L : ℝ} (hL : 0 ≤ L) (ld : Load ℝ) (ho : ld.OnSpan L) {v θ κ : ℝ → ℝ}
    (h : Shape L v θ κ) :
    ∫ x in (0 : ℝ)..L, ld.momentLeft L x * κ x
      = (L * ld.total L - ld.momentAboutLeft L) * θ L - ld.total L * v L - ld.work L v θ := by
  have hdist : ld.forces = [] → ld.couplesAt = [] → ld.couples = [] →
      ∫ x in (0 : ℝ)..L, ld.momentLeft L x * κ x
      = (L * ld.total L - ld.momentAboutLeft L) * θ L - ld.total L * v L - ld.work L v θ := by
    intro h1 h2 h3
    rw [momentLeft_dist L ld h1 h2, distributed_work hL ld h]
    simp only [Load.total, Load.momentAboutLeft, Load.work, h1, h2, h3, List.map_nil, List.sum_nil]
    have i1 : IntervalIntegrable (ld.intensity L) volume 0 L := by
      simpa using intensity_integrable ld L (fun _ => 1) continuous_const 0 L
    have i2 := intensity_integrable ld L (fun x => x) continuous_id 0 L
    have e : ∫ s in (0 : ℝ)..L, (L - s) * ld.intensity L s
        = L * (∫ s in (0 : ℝ)..L, ld.intensity L s) - ∫ s in (0 : ℝ)..L, s * ld.intensity L s := by
      rw [← intervalIntegral.integral_const_mul, ← intervalIntegral.integral_sub (i1.const_mul L) i2]
      congr 1
      funext s
      ring
    rw [e]
    ring
  cases ld with
  | pl P a =>
    have e : (fun x => (Load.pl P a).momentLeft L x * κ x)
        = fun x => if a < x then P * ((x - a) * κ x) else 0 := by
      funext x
      rw [momentLeft_pl]
      by_cases hx : a < x <;> simp [hx, mul_assoc]
    rw [e, integral_right ho, intervalIntegral.integral_const_mul, h.int_xkappa a ho]
    simp [Load.total, Load.momentAboutLeft, Load.work, Load.forces, Load.couples, Load.couplesAt,
      Load.intensity]
    ring
  | ml m a =>
    have e : (fun x => (Load.ml m a).momentLeft L x * κ x)
        = fun x => if a < x then m * κ x else 0 := by
      funext x
      rw [momentLeft_ml]
      by_cases hx : a < x <;> simp [hx]
    rw [e, integral_right ho, intervalIntegral.integral_const_mul, h.int_kappa a ho]
    simp [Load.total, Load.momentAboutLeft, Load.work, Load.forces, Load.couples, Load.couplesAt,
      Load.intensity]
    ring
  | _ => exact hdist rfl rfl rfl

/-! ### A span -/

theorem integral_list_sum {α : Type*} {L : ℝ} (hL : 0 ≤ L) (l : List α) (f : α → ℝ → ℝ) {κ : ℝ → ℝ}
    (hf : ∀ a ∈ l, Tame L (f a)) (hκ : IntervalIntegrable κ volume 0 L) :
    ∫ x in (0 : ℝ)..L, (l.map fun a => f a x).sum * κ x
      = (l.map fun a => ∫ x in (0 : ℝ)..L, f a x * κ x).sum := by
  induction l with
  | nil => simp
  | cons a l ih =>
    have hl : ∀ b ∈ l, Tame L (f b) := fun b hb => hf b (List.mem_cons_of_mem _ hb)
    simp only [List.map_cons, List.sum_cons, add_mul]
    rw [intervalIntegral.integral_add ((hf a (by simp)).mul_integrable hL hκ)
      ((Tame.list_sum l f hl).mul_integrable hL hκ), ih hl]

theorem cutM_tame (L : ℝ) (own : List (Load ℝ)) (F : Vec4 ℝ) : Tame L (cutM L own F) := by
  have h1 : Tame L fun x => -F 1 + F 0 * x := Tame.of_continuous (by fun_prop)
  have h2 := Tame.list_sum (L := L) own (fun ld => ld.momentLeft L)
    fun ld _ => ld.momentLeft_tame L
  have h3 := (Tame.of_continuous (L := L) (f := fun _ => (-1 : ℝ)) continuous_const).mul h2
  have := h1.add h3
  unfold cutM
  simpa [sub_eq_add_neg] using this

/-- **Virtual work of a span**: in a span in equilibrium the bending moments, acting through
the curvature of any shape, do the work of the end forces and the loads. -/
theorem span_virtual_work {L : ℝ} (hL : 0 ≤ L) (own : List (Load ℝ)) (F : Vec4 ℝ)
    (ho : ∀ ld ∈ own, ld.OnSpan L)
    (hf : F 0 + F 2 = (own.map fun ld => ld.total L).sum)
    (hm : F 1 + F 3 + F 2 * L = (own.map fun ld => ld.momentAboutLeft L).sum)
    {v θ κ : ℝ → ℝ} (h : Shape L v θ κ) :
    ∫ x in (0 : ℝ)..L, cutM L own F x * κ x
      = F 0 * v 0 + F 1 * θ 0 + F 2 * v L + F 3 * θ L + (own.map fun ld => ld.work L v θ).sum := by
  have t1 : Tame L fun x => -F 1 + F 0 * x := Tame.of_continuous (by fun_prop)
  have t2 := Tame.list_sum (L := L) own (fun ld => ld.momentLeft L)
    fun ld _ => ld.momentLeft_tame L
  have e1 : ∫ x in (0 : ℝ)..L, cutM L own F x * κ x
      = (∫ x in (0 : ℝ)..L, (-F 1 + F 0 * x) * κ x)
        - ∫ x in (0 : ℝ)..L, (own.map fun ld => ld.momentLeft L x).sum * κ x := by
    rw [← intervalIntegral.integral_sub (t1.mul_integrable hL h.int) (t2.mul_integrable hL h.int)]
    congr 1
    funext x
    simp only [cutM]
    ring
  have k0 := h.int_kappa 0 ⟨le_rfl, hL⟩
  have k1 := h.int_xkappa 0 ⟨le_rfl, hL⟩
  have tx : Tame L fun x : ℝ => x - 0 := Tame.of_continuous (by fun_prop)
  have e2 : ∫ x in (0 : ℝ)..L, (-F 1 + F 0 * x) * κ x
      = -F 1 * (θ L - θ 0) + F 0 * ((L - 0) * θ L - v L + v 0) := by
    rw [← k0, ← k1, ← intervalIntegral.integral_const_mul, ← intervalIntegral.integral_const_mul,
      ← intervalIntegral.integral_add (h.int.const_mul _) ((tx.mul_integrable hL h.int).const_mul _)]
    congr 1
    funext x
    ring
  have e3 : (own.map fun ld => ∫ x in (0 : ℝ)..L, ld.momentLeft L x * κ x).sum
      = (L * (own.map fun ld => ld.total L).sum - (own.map fun ld => ld.momentAboutLeft L).sum) * θ L
        - (own.map fun ld => ld.total L).sum * v L - (own.map fun ld => ld.work L v θ).sum := by
    clear e1 hf hm t2
    induction own with
    | nil => simp
    | cons a l ih =>
      simp only [List.map_cons, List.sum_cons]
      rw [ih fun b hb => ho b (List.mem_cons_of_mem _ hb), Load.moment_work hL a (ho a (by simp)) h]
      ring
  rw [e1, e2, integral_list_sum hL own _ (fun ld _ => ld.momentLeft_tame L) h.int, e3, ← hf, ← hm]
  ring

/-- The elastic line of a span is a shape, with the curvature of its bending moments. -/
theorem ElasticSpan.shape {EI L : ℝ} (hL : 0 ≤ L) {own : List (Load ℝ)} {F : Vec4 ℝ} {v θ : ℝ → ℝ}
    (h : ElasticSpan EI L own F v θ) : Shape L v θ fun x => cutM L own F x / EI := by
  have ht : Tame L fun x => cutM L own F x / EI := by
    have := (cutM_tame L own F).mul
      (Tame.of_continuous (L := L) (f := fun _ => EI⁻¹) continuous_const)
    simpa [div_eq_mul_inv] using this
  refine ⟨h.slope, ⟨{x | ∃ ld ∈ own, ∃ p ∈ ld.couplesAt, p.2 = x}, ?_, ?_⟩, h.contV, h.contT,
    ht.integrable hL, ?_⟩
  · have : {x | ∃ ld ∈ own, ∃ p ∈ ld.couplesAt, p.2 = x}
        = ⋃ ld ∈ {ld | ld ∈ own}, ⋃ p ∈ {p | p ∈ ld.couplesAt}, {p.2} := by
      ext x
      simp [eq_comm]
    rw [this]
    exact (List.finite_toSet own).biUnion fun ld _ =>
      (List.finite_toSet ld.couplesAt).biUnion fun p _ => finite_singleton _
  · intro x hx hns
    exact h.curvature x hx fun ld hl p hp he => hns ⟨ld, hl, p, hp, he⟩
  · have := (ht.mul ht).integrable hL
    simpa [pow_two] using this

end PyCBA
