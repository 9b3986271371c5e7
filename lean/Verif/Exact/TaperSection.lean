import Verif.Exact.TaperExists
import Verif.Section.Member

set_option linter.unusedSectionVars false
set_option linter.unusedSimpArgs false

/-!
The members of variable section of the code are among those of C151.
-/

namespace PyCBA

open MeasureTheory Set Matrix

/-- What is asked of `np.polynomial.legendre.leggauss`: for two points or more, positive weights,
points within `[-1, 1]`, not all the same. -/
def Leg.Spread (leg : Leg ℝ) : Prop :=
  ∀ n, 2 ≤ n → (∀ q ∈ leg n, 0 < q.2 ∧ -1 ≤ q.1 ∧ q.1 ≤ 1) ∧ ∃ q ∈ leg n, ∃ q' ∈ leg n, q.1 ≠ q'.1

theorem polyval_continuous (cs : List ℝ) : Continuous (polyval cs) := by
  unfold polyval
  have : ∀ f : ℝ → ℝ, Continuous f →
      Continuous fun x => cs.foldl (fun acc c => acc * x + c) (f x) := by
    induction cs with
    | nil => intro f hf; exact hf
    | cons c cs ih =>
      intro f hf
      exact ih (fun x => f x * x + c) (by fun_prop)
  exact this (fun _ => 0) continuous_const

/-- A function given by the first piece whose interval contains the point. -/
noncomputable def pick (ε : ℝ) (ps : List (Piece ℝ)) (f : ℝ → ℝ) (x : ℝ) : ℝ :=
  match ps.find? fun p => decide (p.x0 - ε ≤ x ∧ x ≤ p.x1 + ε) with
  | some p => p.eval x
  | none => f x

theorem pick_cons (ε : ℝ) (p : Piece ℝ) (ps : List (Piece ℝ)) (f : ℝ → ℝ) :
    pick ε (p :: ps) f = fun x => if x ∈ Icc (p.x0 - ε) (p.x1 + ε) then p.eval x else pick ε ps f x := by
  funext x
  unfold pick
  by_cases h : p.x0 - ε ≤ x ∧ x ≤ p.x1 + ε
  · rw [List.find?_cons_of_pos (by simpa using h), if_pos (mem_Icc.2 h)]
  · rw [List.find?_cons_of_neg (by simpa using h), if_neg (fun h' => h (mem_Icc.1 h'))]

theorem pick_measurable (ε : ℝ) (ps : List (Piece ℝ)) (f : ℝ → ℝ) (hf : Measurable f) :
    Measurable (pick ε ps f) := by
  induction ps with
  | nil => exact hf
  | cons p ps ih =>
    rw [pick_cons]
    exact Measurable.ite measurableSet_Icc (polyval_continuous _).measurable ih

theorem continuousAt_ite_Icc {a b : ℝ} {f g : ℝ → ℝ} {x : ℝ} (ha : x ≠ a) (hb : x ≠ b)
    (hf : ContinuousAt f x) (hg : ContinuousAt g x) :
    ContinuousAt (fun x => if x ∈ Icc a b then f x else g x) x := by
  by_cases h : x ∈ Icc a b
  · refine hf.congr ?_
    filter_upwards [Icc_mem_nhds (lt_of_le_of_ne h.1 ha.symm) (lt_of_le_of_ne h.2 hb)] with y hy
    rw [if_pos hy]
  · refine hg.congr ?_
    filter_upwards [isClosed_Icc.isOpen_compl.mem_nhds h] with y hy
    rw [if_neg hy]

theorem pick_jumps (ε : ℝ) (ps : List (Piece ℝ)) (f : ℝ → ℝ) (hf : {x | ¬ ContinuousAt f x}.Finite) :
    {x | ¬ ContinuousAt (pick ε ps f) x}.Finite := by
  induction ps with
  | nil => exact hf
  | cons p ps ih =>
    rw [pick_cons]
    refine ((Set.toFinite {p.x0 - ε, p.x1 + ε}).union ih).subset ?_
    intro x hx
    by_contra hn
    simp only [mem_union, mem_insert_iff, mem_singleton_iff, mem_ofPred_eq, not_or, not_not] at hn
    exact hx (continuousAt_ite_Icc hn.1.1 hn.1.2 (polyval_continuous _).continuousAt hn.2)

/-- The value of a section away from its pieces. -/
noncomputable def Sec.beyond (t : Sec ℝ) (p0 : Piece ℝ) (ps : List (Piece ℝ)) (x : ℝ) : ℝ :=
  if x < t.x0 then p0.eval x else if t.fin < x then (ps.getLastD p0).eval x else 0

theorem Sec.value_pick {t : Sec ℝ} {p0 : Piece ℝ} {ps : List (Piece ℝ)} (h : t.pieces = p0 :: ps) :
    t.value = pick (1 / 10 ^ 12) (p0 :: ps) (t.beyond p0 ps) := by
  funext x
  unfold Sec.value Sec.eval pick Sec.beyond
  simp only [h]
  cases (p0 :: ps).find? fun p => decide (p.x0 - 1 / 10 ^ 12 ≤ x ∧ x ≤ p.x1 + 1 / 10 ^ 12) with
  | some p => rfl
  | none =>
    simp only
    by_cases h1 : x < t.x0
    · simp [h1]
    · by_cases h2 : t.fin < x
      · simp [h1, h2]
      · simp [h1, h2]

theorem continuousAt_ite_lt {a : ℝ} {f g : ℝ → ℝ} {x : ℝ} (ha : x ≠ a)
    (hf : ContinuousAt f x) (hg : ContinuousAt g x) :
    ContinuousAt (fun x => if x < a then f x else g x) x := by
  rcases lt_or_gt_of_ne ha with h | h
  · refine hf.congr ?_
    filter_upwards [Iio_mem_nhds h] with y hy
    rw [if_pos (mem_Iio.1 hy)]
  · refine hg.congr ?_
    filter_upwards [Ioi_mem_nhds h] with y hy
    rw [if_neg (not_lt.2 (mem_Ioi.1 hy).le)]

theorem continuousAt_ite_gt {a : ℝ} {f g : ℝ → ℝ} {x : ℝ} (ha : x ≠ a)
    (hf : ContinuousAt f x) (hg : ContinuousAt g x) :
    ContinuousAt (fun x => if a < x then f x else g x) x := by
  rcases lt_or_gt_of_ne ha with h | h
  · refine hg.congr ?_
    filter_upwards [Iio_mem_nhds h] with y hy
    rw [if_neg (not_lt.2 (mem_Iio.1 hy).le)]
  · refine hf.congr ?_
    filter_upwards [Ioi_mem_nhds h] with y hy
    rw [if_pos (mem_Ioi.1 hy)]

theorem Sec.beyond_measurable (t : Sec ℝ) (p0 : Piece ℝ) (ps : List (Piece ℝ)) :
    Measurable (t.beyond p0 ps) :=
  Measurable.ite measurableSet_Iio (polyval_continuous _).measurable
    (Measurable.ite measurableSet_Ioi (polyval_continuous _).measurable measurable_const)

theorem Sec.beyond_jumps (t : Sec ℝ) (p0 : Piece ℝ) (ps : List (Piece ℝ)) :
    {x | ¬ ContinuousAt (t.beyond p0 ps) x}.Finite := by
  refine (Set.toFinite {t.x0, t.fin}).subset ?_
  intro x hx
  by_contra hn
  simp only [mem_insert_iff, mem_singleton_iff, not_or] at hn
  exact hx (continuousAt_ite_lt hn.1 (polyval_continuous _).continuousAt
    (continuousAt_ite_gt hn.2 (polyval_continuous _).continuousAt continuousAt_const))

/-- Finitely many positive continuous pieces have a common positive lower bound. -/
theorem pieces_floor (ε : ℝ) (ps : List (Piece ℝ))
    (hp : ∀ p ∈ ps, ∀ x ∈ Icc p.x0 (p.x1 + ε), 0 < p.eval x) :
    ∃ e, 0 < e ∧ ∀ p ∈ ps, ∀ x ∈ Icc p.x0 (p.x1 + ε), e ≤ p.eval x := by
  induction ps with
  | nil => exact ⟨1, one_pos, by simp⟩
  | cons p ps ih =>
    obtain ⟨e, he, h⟩ := ih fun q hq => hp q (by simp [hq])
    rcases (Icc p.x0 (p.x1 + ε)).eq_empty_or_nonempty with hE | hN
    · refine ⟨e, he, fun q hq x hx => ?_⟩
      rcases List.mem_cons.1 hq with rfl | hq
      · rw [hE] at hx
        exact hx.elim
      · exact h q hq x hx
    · obtain ⟨z, hz, hmin⟩ := isCompact_Icc.exists_isMinOn hN
        (polyval_continuous p.coeffs).continuousOn
      refine ⟨min e (p.eval z), lt_min he (hp p (by simp) z hz), fun q hq x hx => ?_⟩
      rcases List.mem_cons.1 hq with rfl | hq
      · exact (min_le_right _ _).trans (hmin hx)
      · exact (min_le_left _ _).trans (h q hq x hx)

/-- **C151** (sections): the hypotheses the other theorems make on a member are met by every section
object whose segments abut exactly and whose pieces are positive on their intervals and the `1e-12`
after them where the code still evaluates them, on a span no longer than the section. -/
theorem C151_sections (fit : Fit ℝ) (leg : Leg ℝ) (hleg : leg.Spread) (segs : List (Seg ℝ))
    (t : Sec ℝ) (hne : segs ≠ []) (h : Sec.empty.build fit segs = .ok t) (ha : Abut 0 segs)
    (hpos : ∀ p ∈ t.pieces, ∀ x ∈ Icc p.x0 (p.x1 + 1 / 10 ^ 12), 0 < p.eval x)
    (L : ℝ) (hL : 0 < L) (hfin : L ≤ t.fin) (et : EType) (het : et ≠ .PP) :
    (⟨.section (t.data leg), L, et, none⟩ : Member ℝ).Tapered := by
  obtain ⟨g, n, -⟩ := Sec.build_good segs Sec.empty t Sec.empty_good ha h
  have hn := n (Or.inr hne)
  obtain ⟨_, _, ht⟩ := C53_total_partial fit segs t hne h ha
  obtain ⟨e, he, hfl⟩ := pieces_floor _ _ hpos
  have hval : ∀ x, 0 ≤ x → x ≤ t.fin → e ≤ t.value x := by
    intro x h0 h1
    obtain ⟨p, hpm, a1, a2, hev, -⟩ := ht x h0 h1
    rw [Sec.value, hev]
    exact hfl p hpm x ⟨a1, a2⟩
  have hends := joined_outside t.pieces g.joined
  have hlt : ∀ p ∈ t.pieces, p.x0 < p.x1 := by
    have : ∀ (ps : List (Piece ℝ)) (a b : ℝ), Joined a ps b → ∀ p ∈ ps, p.x0 < p.x1 := by
      intro ps
      induction ps with
      | nil => intro a b _ p hp; simp at hp
      | cons q qs ih =>
        intro a b hj p hp
        rcases List.mem_cons.1 hp with rfl | hp
        · exact hj.2.1
        · exact ih _ _ hj.2.2 p hp
    exact this _ _ _ g.joined
  have hpts : ∀ p : Piece ℝ, 2 ≤ p.points := by
    intro p
    unfold Piece.points
    split
    · exact le_rfl
    · exact le_trans (by norm_num) (le_max_right _ _)
  refine ⟨⟨hL, ⟨?_, ?_⟩, by simp⟩, rfl, het, ?_, ⟨e, he, fun x hx => ?_⟩, ?_⟩
  · intro nd hnd
    obtain ⟨p, hpm, hqm⟩ := List.mem_flatMap.1 hnd
    obtain ⟨q, hq, rfl⟩ := List.mem_map.1 hqm
    obtain ⟨w, lo, hi⟩ := (hleg _ (hpts p)).1 q hq
    have hd := hlt p hpm
    obtain ⟨e1, e2⟩ := hends p hpm
    refine ⟨by simp only; nlinarith [mul_pos (sub_pos.2 hd) w], he.trans_le (hval _ ?_ ?_)⟩
    · nlinarith [mul_nonneg (sub_pos.2 hd).le (by linarith : 0 ≤ q.1 + 1)]
    · nlinarith [mul_nonneg (sub_pos.2 hd).le (by linarith : 0 ≤ 1 - q.1)]
  · obtain ⟨p, hpm⟩ := List.exists_mem_of_ne_nil _ hn
    obtain ⟨q, hq, q', hq', hne'⟩ := (hleg _ (hpts p)).2
    refine ⟨_, List.mem_flatMap.2 ⟨p, hpm, List.mem_map.2 ⟨q, hq, rfl⟩⟩, _,
      List.mem_flatMap.2 ⟨p, hpm, List.mem_map.2 ⟨q', hq', rfl⟩⟩, ?_⟩
    simp only
    intro hx
    have hd := (sub_pos.2 (hlt p hpm)).ne'
    apply hne'
    have : (p.x1 - p.x0) * (q.1 - q'.1) = 0 := by linear_combination 2 * hx
    rcases mul_eq_zero.1 this with h' | h'
    · exact absurd h' hd
    · linarith
  · obtain ⟨p0, ps, hps⟩ := List.exists_cons_of_ne_nil hn
    show Measurable t.value
    rw [Sec.value_pick hps]
    exact pick_measurable _ _ _ (t.beyond_measurable p0 ps)
  · exact hval x hx.1 (hx.2.trans hfin)
  · obtain ⟨p0, ps, hps⟩ := List.exists_cons_of_ne_nil hn
    refine (pick_jumps (1 / 10 ^ 12) (p0 :: ps) _ (t.beyond_jumps p0 ps)).subset ?_
    rintro x ⟨-, hx⟩
    have : ¬ ContinuousAt t.value x := hx
    rw [Sec.value_pick hps] at this
    exact this

theorem leg2_spread : leg2.Spread := by
  intro n _
  have h3 : (1 : ℝ) ≤ √3 := by
    rw [show (1 : ℝ) = √1 by simp]
    exact Real.sqrt_le_sqrt (by norm_num)
  have h0 : (0 : ℝ) < √3 := by linarith
  have h1 : 1 / √3 ≤ (1 : ℝ) := by rw [div_le_one h0]; exact h3
  have h2 : (0 : ℝ) < 1 / √3 := by positivity
  unfold leg2
  refine ⟨?_, (-1 / √3, 1), by simp, (1 / √3, 1), by simp, ?_⟩
  · intro q hq
    simp only [List.mem_cons, List.not_mem_nil, or_false] at hq
    have e : -1 / √3 = -(1 / √3 : ℝ) := by ring
    rcases hq with rfl | rfl
    · simp only [e]; exact ⟨one_pos, by linarith, by linarith⟩
    · exact ⟨one_pos, by simp only; linarith, h1⟩
  · simp only [ne_eq]
    intro h
    have e : -1 / √3 = -(1 / √3 : ℝ) := by ring
    rw [e] at h
    linarith

/-- A haunch that rises from 20 to 60 over 4 m, then stays at 50 up to 10 m. -/
example (fit : Fit ℝ) : ∃ t,
    Sec.empty.build fit [⟨.linear, [0, 4], .values [20, 60], none⟩, ⟨.const, [4, 10], .values [50], none⟩]
      = .ok t ∧ (⟨.section (t.data leg2), 10, .FP, none⟩ : Member ℝ).Tapered := by
  have hb : ∃ t, Sec.empty.build fit
      [⟨.linear, [0, 4], .values [20, 60], none⟩, ⟨.const, [4, 10], .values [50], none⟩] = .ok t ∧
      t.pieces = [⟨0, 4, [10, 20], 1⟩, ⟨4, 10, [50], 0⟩] ∧ t.fin = 10 := by
    refine ⟨⟨[⟨0, 4, [10, 20], 1⟩, ⟨4, 10, [50], 0⟩], [4, 10], [], 0, 10⟩, ?_, rfl, rfl⟩
    simp [Sec.build, Sec.add, Sec.empty, strictly, segPieces, linPieces, allPos]
    norm_num
  obtain ⟨t, h, hp, hf⟩ := hb
  refine ⟨t, h, C151_sections fit leg2 leg2_spread _ t (by simp) h ⟨rfl, rfl, trivial⟩ ?_ 10
    (by norm_num) hf.ge .FP (by simp)⟩
  intro p hpm x hx
  rw [hp] at hpm
  simp only [List.mem_cons, List.not_mem_nil, or_false] at hpm
  rcases hpm with rfl | rfl
  · have := hx.1
    simp only [Piece.eval, polyval, List.foldl] at *
    linarith
  · simp [Piece.eval, polyval]

end PyCBA
