import Verif.Bridge.Vehicle
import Verif.Build.Props
import Verif.LoadCases.Pattern

/-!
C54, C55 (the loads of a vehicle position), C58 (the positions of a run), C73 (static and
moving loads) and C75 (shear points).
-/

set_option linter.unusedSectionVars false
set_option linter.unusedSimpArgs false

namespace PyCBA

variable {K : Type*} [Field K] [LinearOrder K] [IsStrictOrderedRing K]

/-! ## C54 -/

/-- A beam as the builder leaves it: its lists in step, at least one span, positive lengths. -/
structure BeamB.Proper (b : BeamB K) : Prop where
  inStep : b.InStep
  nonempty : b.lens ≠ []
  pos : ∀ L ∈ b.lens, 0 < L

/-- The point force `w` at distance `y` from the start of a beam with spans `lens`, as a row. -/
def Row.PointAt (lens : List K) (r : Row K) (w y : K) : Prop :=
  ∃ i, ∃ hi : i < lens.length, ∃ a, r = ⟨(i : ℤ) + 1, 2, [w, a, 0]⟩ ∧
    (lens.take i).sum + a = y ∧ 0 ≤ a ∧ a ≤ lens[i]

/-- **C54** — the load matrix of a vehicle position has, in order, one row for each axle on the
beam (ends included), each a point load of that axle's weight at its place, and no others. -/
theorem C54_axles (b : BeamB K) (hb : b.Proper) (v : Vehicle K) (pos : K) :
    List.Forall₂ (fun r cw => Row.PointAt b.lens r cw.2 (pos - cw.1)) (axleLM b v pos)
      (v.axles.filter fun cw => 0 ≤ pos - cw.1 ∧ pos - cw.1 ≤ b.lens.sum) := by
  unfold axleLM Vehicle.axles
  induction v.coords.zip v.axw with
  | nil => exact List.Forall₂.nil
  | cons cw l ih =>
    obtain ⟨h1, h2⟩ := C43_local_coords b hb.inStep hb.nonempty hb.pos (pos - cw.1)
    by_cases hc : 0 ≤ pos - cw.1 ∧ pos - cw.1 ≤ b.lens.sum
    · obtain ⟨i, hi, x, e1, e2, e3, e4, -⟩ := h1 hc.1 hc.2
      rw [List.filter_cons_of_pos (by simpa using hc), List.filterMap_cons_some (b := ⟨(i : ℤ) + 1, 2, [cw.2, x, 0]⟩)]
      · exact List.Forall₂.cons ⟨i, hi, x, rfl, e2, e3, e4⟩ ih
      · simp only [e1]
        rw [if_pos (by omega)]
    · have hc' : pos - cw.1 < 0 ∨ b.lens.sum < pos - cw.1 := by
        by_contra hn
        push Not at hn
        exact hc hn
      rw [List.filter_cons_of_neg (by simpa using hc), List.filterMap_cons_none]
      · exact ih
      · simp only [h2 hc']
        simp

/-- **C54**, total — as parsed, these rows are point loads on spans of the beam whose total is
the weight of the axles on the beam. -/
theorem C54_total (b : BeamB ℝ) (hb : b.Proper) (v : Vehicle ℝ) (pos : ℝ) :
    ∃ ls, parseLM (axleLM b v pos) = .ok ls ∧
      (∀ l ∈ ls, ∃ i, ∃ hi : i < b.lens.length, l.iSpan = (i : ℤ) ∧ l.load.OnSpan b.lens[i]) ∧
      ∀ L : ℝ, (ls.map fun l => l.load.total L).sum =
        ((v.axles.filter fun cw => 0 ≤ pos - cw.1 ∧ pos - cw.1 ≤ b.lens.sum).map Prod.snd).sum := by
  have h := C54_axles b hb v pos
  generalize axleLM b v pos = rows at h
  generalize (v.axles.filter fun cw => decide (0 ≤ pos - cw.1 ∧ pos - cw.1 ≤ b.lens.sum)) = ax at h
  induction h with
  | nil => exact ⟨[], rfl, by simp, by simp⟩
  | @cons r cw rows ax h _ ih =>
    obtain ⟨ls, h1, h2, h3⟩ := ih
    obtain ⟨i, hi, a, rfl, e2, e3, e4⟩ := h
    refine ⟨⟨(i : ℤ), .pl cw.2 a⟩ :: ls, ?_, ?_, ?_⟩
    · simp [parseLM, parseRow, h1]
    · intro l hl
      rcases List.mem_cons.1 hl with rfl | hl
      · exact ⟨i, hi, rfl, e3, e4⟩
      · exact h2 l hl
    · intro L
      simp only [List.map_cons, List.sum_cons, h3]
      congr 1
      simp [Load.total, Load.intensity, Load.forces]

/-! ## C55 -/

/-- The part of the deck `[xa, xb]` in span `i`: nothing, or longer than the `1e-9` below which
the code drops it. -/
def NoSliverB (lens : List K) (xa xb : K) : Prop :=
  ∀ i < lens.length, min xb (boundary lens (i + 1)) - max xa (boundary lens i) ≤ 0 ∨
    1 / 10 ^ 9 < min xb (boundary lens (i + 1)) - max xa (boundary lens i)

theorem intervalUdlLM_mem (b : BeamB K) (hb : b.Proper) (xa xb w : K) (r : Row K) :
    r ∈ intervalUdlLM b xa xb w ↔ ∃ i < b.lens.length,
      1 / 10 ^ 9 < min xb (boundary b.lens (i + 1)) - max xa (boundary b.lens i) ∧
      r = ⟨(i : ℤ) + 1, 3, [w, max xa (boundary b.lens i) - boundary b.lens i,
        min xb (boundary b.lens (i + 1)) - max xa (boundary b.lens i)]⟩ := by
  simp only [intervalUdlLM, List.mem_filterMap, List.mem_range, hb.inStep.noSpans, boundary]
  constructor
  · rintro ⟨i, hi, h⟩
    split_ifs at h with hc
    simp only [Option.some.injEq] at h
    exact ⟨i, hi, hc, h.symm⟩
  · rintro ⟨i, hi, hc, h⟩
    exact ⟨i, hi, by rw [if_pos hc, h]⟩

theorem Row.loadsAt_pudl (i j : ℕ) (w a l t : K) :
    (⟨(j : ℤ) + 1, 3, [w, a, l]⟩ : Row K).LoadsAt i w t ↔ j = i ∧ a ≤ t ∧ t < a + l := by
  unfold Row.LoadsAt
  constructor
  · rintro (h | ⟨a', l', h, h1, h2⟩)
    · simp at h
    · simp only [Row.mk.injEq, true_and, List.cons.injEq, and_true] at h
      obtain ⟨h3, rfl, rfl⟩ := h
      exact ⟨by omega, h1, h2⟩
  · rintro ⟨rfl, h⟩
    exact Or.inr ⟨a, l, rfl, h⟩

/-- Where the rows of one stretch act. -/
theorem intervalUdlLM_loads (b : BeamB K) (hb : b.Proper) (xa xb w : K) (i : ℕ)
    (hi : i < b.lens.length) (t : K) :
    (∃ r ∈ intervalUdlLM b xa xb w, r.LoadsAt i w t) ↔
      1 / 10 ^ 9 < min xb (boundary b.lens (i + 1)) - max xa (boundary b.lens i) ∧
      max xa (boundary b.lens i) ≤ boundary b.lens i + t ∧
      boundary b.lens i + t < min xb (boundary b.lens (i + 1)) := by
  constructor
  · rintro ⟨r, hr, hl⟩
    obtain ⟨j, hj, hc, rfl⟩ := (intervalUdlLM_mem b hb xa xb w r).1 hr
    obtain ⟨rfl, h1, h2⟩ := (Row.loadsAt_pudl i j w _ _ t).1 hl
    exact ⟨hc, by linarith, by linarith⟩
  · rintro ⟨hc, h1, h2⟩
    exact ⟨_, (intervalUdlLM_mem b hb xa xb w _).2 ⟨i, hi, hc, rfl⟩,
      (Row.loadsAt_pudl i i w _ _ t).2 ⟨rfl, by linarith, by linarith⟩⟩

/-- Two rows never load the same point. -/
def RowsDisjoint (w : K) (rows : List (Row K)) : Prop :=
  rows.Pairwise fun r r' => ∀ i t, ¬ (r.LoadsAt i w t ∧ r'.LoadsAt i w t)

theorem intervalUdlLM_disjoint (b : BeamB K) (xa xb w : K) :
    RowsDisjoint w (intervalUdlLM b xa xb w) := by
  unfold RowsDisjoint intervalUdlLM
  rw [List.pairwise_filterMap]
  refine (List.pairwise_lt_range (n := b.noSpans)).imp ?_
  intro i j hij r hr r' hr' k t h
  simp only at hr hr'
  split_ifs at hr hr' with h1 h2
  simp only [Option.some.injEq] at hr hr'
  subst hr hr'
  have e1 := ((Row.loadsAt_pudl k i w _ _ t).1 h.1).1
  have e2 := ((Row.loadsAt_pudl k j w _ _ t).1 h.2).1
  omega

/-- The loaded length of a row. -/
def Row.loadedLength (r : Row K) : K := r.args.getD 2 0

/-- `x` cut off to the interval `[xa, xb]`. -/
def clampTo (xa xb x : K) : K := min xb (max xa x)

theorem sum_clamp (lens : List K) (hpos : ∀ L ∈ lens, 0 < L) (xa xb : K) (h0 : 0 ≤ xa)
    (hab : xa ≤ xb) (hL : xb ≤ lens.sum) :
    ((List.range lens.length).map fun i : ℕ =>
      max 0 (min xb (boundary lens (i + 1)) - max xa (boundary lens i))).sum = xb - xa := by
  have hterm : ∀ i < lens.length,
      max 0 (min xb (boundary lens (i + 1)) - max xa (boundary lens i)) =
        clampTo xa xb (boundary lens (i + 1)) - clampTo xa xb (boundary lens i) := by
    intro i hi
    have hlt : boundary lens i < boundary lens (i + 1) := by
      rw [boundary_succ lens i hi]
      linarith [hpos _ (List.getElem_mem hi)]
    generalize boundary lens i = p at hlt ⊢
    generalize boundary lens (i + 1) = q at hlt ⊢
    unfold clampTo
    rcases le_total xb q with h1 | h1 <;> rcases le_total xa p with h2 | h2
    · rcases le_total xb p with h3 | h3
      · rw [min_eq_left h1, max_eq_right h2, max_eq_left (by linarith),
          max_eq_right (by linarith), min_eq_left h1, min_eq_left h3]
        ring
      · rw [min_eq_left h1, max_eq_right h2, max_eq_right (by linarith),
          max_eq_right (by linarith), min_eq_left h1, min_eq_right h3]
    · rw [min_eq_left h1, max_eq_left h2, max_eq_right (by linarith), max_eq_right (by linarith),
        min_eq_left h1, min_eq_right hab]
    · rw [min_eq_right h1, max_eq_right h2, max_eq_right (by linarith), max_eq_right (by linarith),
        min_eq_right h1, min_eq_right (by linarith)]
    · rcases le_total xa q with h3 | h3
      · rw [min_eq_right h1, max_eq_left h2, max_eq_right (by linarith), max_eq_right h3,
          min_eq_right h1, min_eq_right hab]
      · rw [min_eq_right h1, max_eq_left h2, max_eq_left (by linarith), max_eq_left h3]
        ring
  have hsum : ∀ n ≤ lens.length, ((List.range n).map fun i : ℕ =>
      max 0 (min xb (boundary lens (i + 1)) - max xa (boundary lens i))).sum =
        clampTo xa xb (boundary lens n) - clampTo xa xb (boundary lens 0) := by
    intro n
    induction n with
    | zero => intro _; simp
    | succ n ih =>
      intro hn
      rw [List.range_succ, List.map_append, List.sum_append, ih (by omega)]
      simp only [List.map_cons, List.map_nil, List.sum_cons, List.sum_nil, add_zero]
      rw [hterm n (by omega)]
      ring
  rw [hsum _ le_rfl]
  have e0 : boundary lens 0 = 0 := by simp [boundary]
  have e1 : boundary lens lens.length = lens.sum := by simp [boundary]
  rw [e0, e1]
  unfold clampTo
  rw [max_eq_left h0, min_eq_right hab, max_eq_right (by linarith), min_eq_left hL]

theorem intervalUdlLM_length (b : BeamB K) (hb : b.Proper) (xa xb w : K) (h0 : 0 ≤ xa)
    (hab : xa ≤ xb) (hL : xb ≤ b.lens.sum) :
    (NoSliverB b.lens xa xb →
      ((intervalUdlLM b xa xb w).map Row.loadedLength).sum = xb - xa) ∧
    ((intervalUdlLM b xa xb w).map Row.loadedLength).sum ≤ xb - xa ∧
    xb - xa - b.lens.length * (1 / 10 ^ 9) ≤
      ((intervalUdlLM b xa xb w).map Row.loadedLength).sum := by
  rw [← sum_clamp b.lens hb.pos xa xb h0 hab hL]
  have hrows : ((intervalUdlLM b xa xb w).map Row.loadedLength).sum =
      ((List.range b.lens.length).map fun i : ℕ =>
        if 1 / 10 ^ 9 < min xb (boundary b.lens (i + 1)) - max xa (boundary b.lens i) then
          min xb (boundary b.lens (i + 1)) - max xa (boundary b.lens i) else 0).sum := by
    unfold intervalUdlLM
    rw [hb.inStep.noSpans]
    induction List.range b.lens.length with
    | nil => rfl
    | cons i l ih =>
      rw [List.map_cons, List.sum_cons, ← ih]
      by_cases hc : 1 / 10 ^ 9 < min xb (boundary b.lens (i + 1)) - max xa (boundary b.lens i)
      · rw [List.filterMap_cons_some (by rw [if_pos]; exact hc), if_pos hc]
        rfl
      · rw [List.filterMap_cons_none (by rw [if_neg]; exact hc), if_neg hc]
        simp
  rw [hrows]
  have h9 : (0 : K) < 1 / 10 ^ 9 := by positivity
  refine ⟨fun hns => ?_, ?_, ?_⟩
  · congr 1
    apply List.map_congr_left
    intro i hi
    rcases hns i (List.mem_range.1 hi) with h | h
    · rw [if_neg (by linarith), max_eq_left h]
    · rw [if_pos h]
      exact (max_eq_right (h9.le.trans h.le)).symm
  · apply List.sum_le_sum
    intro i _
    split_ifs
    · exact le_max_right _ _
    · exact le_max_left _ _
  · have : ∀ l : List ℕ, (l.map fun i : ℕ => max 0 (min xb (boundary b.lens (i + 1)) -
        max xa (boundary b.lens i))).sum - l.length * (1 / 10 ^ 9) ≤
        (l.map fun i : ℕ =>
        if 1 / 10 ^ 9 < min xb (boundary b.lens (i + 1)) - max xa (boundary b.lens i) then
          min xb (boundary b.lens (i + 1)) - max xa (boundary b.lens i) else 0).sum := by
      intro l
      induction l with
      | nil => simp
      | cons i l ih =>
        simp only [List.map_cons, List.sum_cons, List.length_cons]
        push_cast
        have : max 0 (min xb (boundary b.lens (i + 1)) - max xa (boundary b.lens i)) - 1 / 10 ^ 9 ≤
          if 1 / 10 ^ 9 < min xb (boundary b.lens (i + 1)) - max xa (boundary b.lens i) then
          min xb (boundary b.lens (i + 1)) - max xa (boundary b.lens i) else 0 := by
          split_ifs with h
          · rw [max_eq_right (by linarith)]
            linarith
          · have := max_le h9.le (not_lt.1 h)
            linarith
        linarith
    simpa using this (List.range b.lens.length)

/-- **C55**, clear — whatever the position, the lane load with a clear zone stays on the beam
and outside the zone from `back` behind the rear axle to `front` ahead of the front axle. -/
theorem C55_clear (b : BeamB K) (hb : b.Proper) (v : Vehicle K) (w back front pos : K)
    (r : Row K) (hr : r ∈ laneLM b v w (some (back, front)) pos) (i : ℕ) (hi : i < b.lens.length)
    (t : K) (hl : r.LoadsAt i w t) :
    0 ≤ t ∧ t < b.lens[i] ∧ (boundary b.lens i + t < pos - v.L - back ∨
      pos + front ≤ boundary b.lens i + t) := by
  have hs := boundary_succ b.lens i hi
  simp only [laneLM, List.mem_append] at hr
  rcases hr with hr | hr
  · split_ifs at hr with h
    · obtain ⟨-, h1, h2⟩ := (intervalUdlLM_loads b hb _ _ w i hi t).1 ⟨r, hr, hl⟩
      rw [lt_min_iff, lt_min_iff] at h2
      exact ⟨by linarith [(le_max_right _ _).trans h1], by linarith, Or.inl h2.1.1⟩
    · cases hr
  · split_ifs at hr with h
    · obtain ⟨-, h1, h2⟩ := (intervalUdlLM_loads b hb _ _ w i hi t).1 ⟨r, hr, hl⟩
      rw [lt_min_iff] at h2
      rw [max_le_iff, max_le_iff] at h1
      exact ⟨by linarith, by linarith, Or.inr h1.1.1⟩
    · cases hr

/-- The length of the deck outside the clear zone `(lo, hi)`. -/
def uncovered (L lo hi : K) : K := max 0 (min lo L) + max 0 (L - max hi 0)

theorem lane_disjoint (b : BeamB K) (hb : b.Proper) (v : Vehicle K) (hv : 0 ≤ v.L)
    (w back front pos : K) (h1 : 0 ≤ back) (h2 : 0 ≤ front) :
    RowsDisjoint w (laneLM b v w (some (back, front)) pos) := by
  simp only [laneLM]
  unfold RowsDisjoint
  rw [List.pairwise_append]
  refine ⟨?_, ?_, ?_⟩
  · split_ifs
    · exact intervalUdlLM_disjoint b _ _ w
    · exact List.Pairwise.nil
  · split_ifs
    · exact intervalUdlLM_disjoint b _ _ w
    · exact List.Pairwise.nil
  · intro r hr r' hr' i t ⟨hl, hl'⟩
    split_ifs at hr hr' with c1 c2
    · obtain ⟨j, hj, -, rfl⟩ := (intervalUdlLM_mem b hb _ _ w r).1 hr
      have hij := ((Row.loadsAt_pudl i j w _ _ t).1 hl).1
      subst hij
      obtain ⟨-, -, k1⟩ := (intervalUdlLM_loads b hb _ _ w j hj t).1 ⟨_, hr, hl⟩
      obtain ⟨-, k2, -⟩ := (intervalUdlLM_loads b hb _ _ w j hj t).1 ⟨_, hr', hl'⟩
      rw [lt_min_iff, lt_min_iff] at k1
      rw [max_le_iff, max_le_iff] at k2
      linarith [k1.1.1, k2.1.1]
    · cases hr'
    · cases hr
    · cases hr

theorem lane_length (b : BeamB K) (hb : b.Proper) (v : Vehicle K) (w back front pos : K) :
    (NoSliverB b.lens 0 (min (pos - v.L - back) b.lens.sum) →
      NoSliverB b.lens (max (pos + front) 0) b.lens.sum →
      ((laneLM b v w (some (back, front)) pos).map Row.loadedLength).sum =
        uncovered b.lens.sum (pos - v.L - back) (pos + front)) ∧
    ((laneLM b v w (some (back, front)) pos).map Row.loadedLength).sum ≤
      uncovered b.lens.sum (pos - v.L - back) (pos + front) ∧
    uncovered b.lens.sum (pos - v.L - back) (pos + front) - 2 * b.lens.length * (1 / 10 ^ 9) ≤
      ((laneLM b v w (some (back, front)) pos).map Row.loadedLength).sum := by
  have hL : 0 ≤ b.lens.sum := List.sum_nonneg fun x hx => (hb.pos x hx).le
  have h9 : (0 : K) ≤ b.lens.length * (1 / 10 ^ 9) := by positivity
  simp only [laneLM, hb.inStep.length, List.map_append, List.sum_append, uncovered]
  have hA : (NoSliverB b.lens 0 (min (pos - v.L - back) b.lens.sum) →
      ((if pos - v.L - back > 0 then intervalUdlLM b 0 (min (pos - v.L - back) b.lens.sum) w
        else []).map Row.loadedLength).sum = max 0 (min (pos - v.L - back) b.lens.sum)) ∧
      ((if pos - v.L - back > 0 then intervalUdlLM b 0 (min (pos - v.L - back) b.lens.sum) w
        else []).map Row.loadedLength).sum ≤ max 0 (min (pos - v.L - back) b.lens.sum) ∧
      max 0 (min (pos - v.L - back) b.lens.sum) - b.lens.length * (1 / 10 ^ 9) ≤
      ((if pos - v.L - back > 0 then intervalUdlLM b 0 (min (pos - v.L - back) b.lens.sum) w
        else []).map Row.loadedLength).sum := by
    by_cases h : pos - v.L - back > 0
    · rw [if_pos h]
      have hm : 0 ≤ min (pos - v.L - back) b.lens.sum := le_min h.le hL
      have := intervalUdlLM_length b hb 0 (min (pos - v.L - back) b.lens.sum) w le_rfl hm
        (min_le_right _ _)
      rw [sub_zero] at this
      rw [max_eq_right hm]
      exact this
    · rw [if_neg h, max_eq_left ((min_le_left _ _).trans (not_lt.1 h))]
      simpa using h9
  have hB : (NoSliverB b.lens (max (pos + front) 0) b.lens.sum →
      ((if pos + front < b.lens.sum then intervalUdlLM b (max (pos + front) 0) b.lens.sum w
        else []).map Row.loadedLength).sum = max 0 (b.lens.sum - max (pos + front) 0)) ∧
      ((if pos + front < b.lens.sum then intervalUdlLM b (max (pos + front) 0) b.lens.sum w
        else []).map Row.loadedLength).sum ≤ max 0 (b.lens.sum - max (pos + front) 0) ∧
      max 0 (b.lens.sum - max (pos + front) 0) - b.lens.length * (1 / 10 ^ 9) ≤
      ((if pos + front < b.lens.sum then intervalUdlLM b (max (pos + front) 0) b.lens.sum w
        else []).map Row.loadedLength).sum := by
    by_cases h : pos + front < b.lens.sum
    · rw [if_pos h]
      have hm : max (pos + front) 0 ≤ b.lens.sum := max_le h.le hL
      have := intervalUdlLM_length b hb (max (pos + front) 0) b.lens.sum w (le_max_right _ _) hm
        le_rfl
      rw [max_eq_right (by linarith : 0 ≤ b.lens.sum - max (pos + front) 0)]
      exact this
    · have : b.lens.sum - max (pos + front) 0 ≤ 0 := by
        have := le_max_left (pos + front) 0
        linarith
      rw [if_neg h, max_eq_left this]
      simpa using h9
  refine ⟨fun n1 n2 => by rw [hA.1 n1, hB.1 n2], ?_, ?_⟩
  · linarith [hA.2.1, hB.2.1]
  · linarith [hA.2.2, hB.2.2]

/-- **C55**, partial — with a clear zone, where no stretch of lane load within a span is
shorter than `1e-9`: a point of the deck is loaded exactly when it lies outside the zone, never
twice, and the loaded length is the length of deck outside the zone.  Missing: stretches
shorter than `1e-9`, which are dropped (`C55_sliver_violation`; `C55_error` bounds what is
lost). -/
theorem C55_lane_partial (b : BeamB K) (hb : b.Proper) (v : Vehicle K) (hv : 0 ≤ v.L)
    (w back front pos : K) (h1 : 0 ≤ back) (h2 : 0 ≤ front)
    (n1 : NoSliverB b.lens 0 (min (pos - v.L - back) b.lens.sum))
    (n2 : NoSliverB b.lens (max (pos + front) 0) b.lens.sum) :
    (∀ i (hi : i < b.lens.length) t, 0 ≤ t → t < b.lens[i] →
      ((∃ r ∈ laneLM b v w (some (back, front)) pos, r.LoadsAt i w t) ↔
        boundary b.lens i + t < pos - v.L - back ∨ pos + front ≤ boundary b.lens i + t)) ∧
    RowsDisjoint w (laneLM b v w (some (back, front)) pos) ∧
    ((laneLM b v w (some (back, front)) pos).map fun r => w * r.loadedLength).sum =
      w * uncovered b.lens.sum (pos - v.L - back) (pos + front) := by
  refine ⟨fun i hi t ht0 htL => ⟨?_, ?_⟩, lane_disjoint b hb v hv w back front pos h1 h2, ?_⟩
  · rintro ⟨r, hr, hl⟩
    exact (C55_clear b hb v w back front pos r hr i hi t hl).2.2
  · have hs := boundary_succ b.lens i hi
    have hb0 : 0 ≤ boundary b.lens i :=
      List.sum_nonneg fun x hx => (hb.pos x (List.mem_of_mem_take hx)).le
    have hbL : boundary b.lens (i + 1) ≤ b.lens.sum := by
      have := List.sum_append (l₁ := b.lens.take (i + 1)) (l₂ := b.lens.drop (i + 1))
      rw [List.take_append_drop] at this
      have h0 : 0 ≤ (b.lens.drop (i + 1)).sum :=
        List.sum_nonneg fun x hx => (hb.pos x (List.mem_of_mem_drop hx)).le
      rw [this]
      unfold boundary
      linarith
    have hex : ∀ xa xb : K, NoSliverB b.lens xa xb → xa ≤ boundary b.lens i + t →
        boundary b.lens i + t < xb → ∃ r ∈ intervalUdlLM b xa xb w, r.LoadsAt i w t := by
      intro xa xb hn e1 e2
      have k1 : max xa (boundary b.lens i) ≤ boundary b.lens i + t := max_le e1 (by linarith)
      have k2 : boundary b.lens i + t < min xb (boundary b.lens (i + 1)) :=
        lt_min e2 (by linarith)
      refine (intervalUdlLM_loads b hb xa xb w i hi t).2 ⟨?_, k1, k2⟩
      rcases hn i hi with h | h
      · linarith
      · exact h
    rintro (h | h)
    · obtain ⟨r, hr, hl⟩ := hex 0 (min (pos - v.L - back) b.lens.sum) n1 (by linarith)
        (lt_min h (by linarith))
      refine ⟨r, ?_, hl⟩
      simp only [laneLM, hb.inStep.length]
      rw [if_pos (by linarith : pos - v.L - back > 0)]
      exact List.mem_append_left _ hr
    · obtain ⟨r, hr, hl⟩ := hex (max (pos + front) 0) b.lens.sum n2 (max_le h (by linarith))
        (by linarith)
      refine ⟨r, ?_, hl⟩
      simp only [laneLM, hb.inStep.length]
      rw [if_pos (by linarith : pos + front < b.lens.sum)]
      exact List.mem_append_right _ hr
  · rw [List.sum_map_mul_left]
    rw [(lane_length b hb v w back front pos).1 n1 n2]

/-- **C55**, error — in all cases the loaded length is at most the length of deck outside the
zone, and short of it by at most `1e-9` for each side of the zone in each span. -/
theorem C55_error (b : BeamB K) (hb : b.Proper) (v : Vehicle K) (w back front pos : K) :
    ((laneLM b v w (some (back, front)) pos).map Row.loadedLength).sum ≤
      uncovered b.lens.sum (pos - v.L - back) (pos + front) ∧
    uncovered b.lens.sum (pos - v.L - back) (pos + front) - 2 * b.lens.length * (1 / 10 ^ 9) ≤
      ((laneLM b v w (some (back, front)) pos).map Row.loadedLength).sum :=
  (lane_length b hb v w back front pos).2

/-- **C55**, no zone — without clearances every point of the deck is loaded, once (spans longer
than `1e-9`). -/
theorem C55_continuous (b : BeamB K) (hb : b.Proper) (hlong : ∀ L ∈ b.lens, 1 / 10 ^ 9 < L)
    (v : Vehicle K) (w pos : K) :
    (∀ i (hi : i < b.lens.length) t, 0 ≤ t → t < b.lens[i] →
      ∃ r ∈ laneLM b v w none pos, r.LoadsAt i w t) ∧
    RowsDisjoint w (laneLM b v w none pos) ∧
    ((laneLM b v w none pos).map fun r => w * r.loadedLength).sum = w * b.lens.sum := by
  have hL : 0 ≤ b.lens.sum := List.sum_nonneg fun x hx => (hb.pos x hx).le
  have hbd : ∀ i, 0 ≤ boundary b.lens i ∧ boundary b.lens i ≤ b.lens.sum := by
    intro i
    have := List.sum_append (l₁ := b.lens.take i) (l₂ := b.lens.drop i)
    rw [List.take_append_drop] at this
    have h0 : 0 ≤ (b.lens.drop i).sum :=
      List.sum_nonneg fun x hx => (hb.pos x (List.mem_of_mem_drop hx)).le
    have h1 : 0 ≤ (b.lens.take i).sum :=
      List.sum_nonneg fun x hx => (hb.pos x (List.mem_of_mem_take hx)).le
    exact ⟨h1, by rw [this]; unfold boundary; linarith⟩
  have hmm : ∀ i (hi : i < b.lens.length), max 0 (boundary b.lens i) = boundary b.lens i ∧
      min b.lens.sum (boundary b.lens (i + 1)) = boundary b.lens i + b.lens[i] := by
    intro i hi
    rw [max_eq_right (hbd i).1, min_eq_right (hbd (i + 1)).2, boundary_succ b.lens i hi]
    exact ⟨rfl, rfl⟩
  simp only [laneLM, hb.inStep.length]
  refine ⟨fun i hi t ht0 htL => ?_, intervalUdlLM_disjoint b _ _ w, ?_⟩
  · refine (intervalUdlLM_loads b hb _ _ w i hi t).2 ?_
    rw [(hmm i hi).1, (hmm i hi).2]
    exact ⟨by linarith [hlong _ (List.getElem_mem hi)], by linarith, by linarith⟩
  · rw [List.sum_map_mul_left, (intervalUdlLM_length b hb 0 b.lens.sum w le_rfl hL le_rfl).1,
      sub_zero]
    intro i hi
    rw [(hmm i hi).1, (hmm i hi).2]
    exact Or.inr (by linarith [hlong _ (List.getElem_mem hi)])

/-- **C55**, the vehicle is in the zone — the axles of a vehicle with non-negative spacings,
reversed in place or not, lie between `pos - v.L` and `pos`. -/
theorem C55_axles_in_zone (axs axw : List K) (hs : ∀ s ∈ axs, 0 ≤ s) (v : Vehicle K)
    (h : Vehicle.new axs axw = .ok v) (pos : K) (cw : K × K)
    (hc : cw ∈ v.axles ∨ cw ∈ v.reverseInPlace.axles) :
    pos - v.L ≤ pos - cw.1 ∧ pos - cw.1 ≤ pos := by
  have hax : ∀ cw ∈ v.axles, 0 ≤ cw.1 ∧ cw.1 ≤ v.L := by
    intro cw hcw
    obtain ⟨c, w⟩ := cw
    have hmem := (List.of_mem_zip hcw).1
    obtain ⟨i, hi, rfl⟩ := List.getElem_of_mem hmem
    obtain ⟨-, h2⟩ := Vehicle.new_ok h
    subst h2
    simp only [axleCoords_get, zero_add]
    have := List.sum_append (l₁ := axs.take i) (l₂ := axs.drop i)
    rw [List.take_append_drop] at this
    have h0 : 0 ≤ (axs.drop i).sum :=
      List.sum_nonneg fun x hx => hs x (List.mem_of_mem_drop hx)
    have h1 : 0 ≤ (axs.take i).sum :=
      List.sum_nonneg fun x hx => hs x (List.mem_of_mem_take hx)
    exact ⟨h1, by rw [this]; linarith⟩
  rcases hc with hc | hc
  · have := hax cw hc
    constructor <;> linarith
  · rw [(C56_reverse_in_place v).1, mirror, List.mem_map] at hc
    obtain ⟨cw', h1, rfl⟩ := hc
    have := hax cw' h1
    constructor <;> simp only <;> linarith

/-! ## C58 -/

theorem pyRound_near [FloorRing K] (x : K) : |(pyRound x : K) - x| ≤ 1 / 2 := by
  have h1 := Int.floor_le x
  have h2 := Int.lt_floor_add_one x
  unfold pyRound
  rw [abs_le]
  split_ifs with h3 h4 h5
  · constructor <;> linarith
  · push_cast; constructor <;> linarith
  · constructor <;> linarith
  · push_cast; constructor <;> linarith

/-- **C58** — with a positive step and an end not before the start, a run visits
`start, start + step, start + 2 step, …`, and its last position is within half a step of the
end.  By default the start is 0, and at the end the rear axle is at the end of the beam. -/
theorem C58_positions [FloorRing K] (b : BeamB K) (v : Vehicle K) (step : K) (hstep : 0 < step)
    (start stop : Option K) (hse : start.getD 0 ≤ stop.getD (b.length + v.L)) :
    ∃ ps, runPositions b v step start stop = .ok ps ∧ ps.head? = some (start.getD 0) ∧
      (∀ i (hi : i < ps.length), ps[i] = start.getD 0 + i * step) ∧
      ∃ p, ps.getLast? = some p ∧ |p - stop.getD (b.length + v.L)| ≤ step / 2 := by
  set s := start.getD 0 with hs
  set e := stop.getD (b.length + v.L) with he
  set n := pyRound ((e - s) / step) with hn
  have hq : 0 ≤ (e - s) / step := div_nonneg (by linarith) hstep.le
  have hnear := pyRound_near ((e - s) / step)
  rw [← hn, abs_le] at hnear
  have hn0 : 0 ≤ n := by
    by_contra h
    have : n ≤ -1 := by omega
    have : (n : K) ≤ -1 := by exact_mod_cast this
    linarith [hnear.1]
  obtain ⟨m, hm⟩ := Int.eq_ofNat_of_zero_le hn0
  have hlen : (n + 1).toNat = m + 1 := by omega
  refine ⟨(List.range (m + 1)).map fun i : ℕ => s + i * step, ?_, ?_, ?_, s + m * step, ?_, ?_⟩
  · simp only [runPositions]
    rw [if_neg hstep.ne', ← hs, ← he, ← hn, hlen]
  · simp [List.range_succ_eq_map]
  · intro i hi
    simp
  · simp [List.range_succ]
  · have hmK : (n : K) = m := by rw [hm]; simp
    have e1 : s + m * step - e = ((n : K) - (e - s) / step) * step := by
      rw [hmK]
      field_simp
      ring
    rw [e1, abs_mul, abs_of_pos hstep]
    have : |(n : K) - (e - s) / step| ≤ 1 / 2 := abs_le.2 hnear
    calc _ ≤ 1 / 2 * step := mul_le_mul_of_nonneg_right this hstep.le
      _ = step / 2 := by ring

/-- **C58**, rejected — a step of zero raises. -/
theorem C58_zero_step [FloorRing K] (b : BeamB K) (v : Vehicle K) (start stop : Option K) :
    runPositions b v 0 start stop = .error .arithmetic := by
  simp [runPositions]

/-! ## C73 -/

/-- The load matrix analysed is the captured static loads followed by the axles on the beam
at that position (C54) and, for a load model, the lane load (C55). -/
def BridgeOp.Analyses (static : List (Row K)) (b : BeamB K) (v : Vehicle K) (op : BridgeOp K)
    (LM : List (Row K)) : Prop :=
  (∃ pos, op = .position pos ∧ LM = static ++ axleLM b v pos) ∨
  ∃ pos w c, op = .lanePosition pos w c ∧ LM = static ++ axleLM b v pos ++ laneLM b v w c pos

/-- Beams that differ in their loads only give the same axle and lane rows. -/
theorem axleLM_setLM (b : BeamB K) (LM : List (Row K)) (v : Vehicle K) (pos : K) :
    axleLM (b.setLM LM) v pos = axleLM b v pos := rfl

theorem laneLM_setLM (b : BeamB K) (LM : List (Row K)) (v : Vehicle K) (w : K)
    (c : Option (K × K)) (pos : K) : laneLM (b.setLM LM) v w c pos = laneLM b v w c pos := rfl

/-- **C73**, partial — after the static loads have been captured, in any sequence of vehicle
positions, load-model positions, vehicle changes and changes of the beam's own loads, every
analysis uses the captured static loads together with the moving loads of the vehicle in force,
and the captured loads stay as they were.  Missing: capturing again after a run, which adds
that run's last axles to the static loads (`C73_recapture_violation`), and a load added to the
beam before the first run, which changes the captured loads (`C73_alias_violation`). -/
theorem C73_static_partial (s : BridgeState K) (ops : List (BridgeOp K))
    (h1 : ∀ op ∈ ops, op ≠ .capture)
    (h2 : s.aliased = true → ∀ op ∈ ops, ∀ r, op ≠ .addLoad r) :
    (s.run ops).1.static = s.static ∧
    ∀ LM ∈ (s.run ops).2, ∃ op ∈ ops, ∃ v, (v = s.veh ∨ BridgeOp.setVehicle v ∈ ops) ∧
      op.Analyses s.static s.beam v LM := by
  induction ops generalizing s with
  | nil => simp [BridgeState.run]
  | cons op ops ih =>
    have hA : ∀ o ∈ ops, o ≠ .capture := fun o ho => h1 o (List.mem_cons_of_mem _ ho)
    have hB : s.aliased = true → ∀ o ∈ ops, ∀ r, o ≠ .addLoad r := fun ha o ho =>
      h2 ha o (List.mem_cons_of_mem _ ho)
    have key : ∀ s' : BridgeState K, (s'.aliased = true → s.aliased = true) →
        s'.static = s.static → (∃ LM, s'.beam = s.beam.setLM LM) →
        (s'.veh = s.veh ∨ op = .setVehicle s'.veh) →
        (s'.run ops).1.static = s.static ∧ ∀ LM ∈ (s'.run ops).2, ∃ o ∈ op :: ops, ∃ v,
          (v = s.veh ∨ BridgeOp.setVehicle v ∈ op :: ops) ∧ o.Analyses s.static s.beam v LM := by
      rintro s' ha hst ⟨LM', hbm⟩ hve
      obtain ⟨k1, k2⟩ := ih s' hA fun h => hB (ha h)
      refine ⟨k1.trans hst, fun LM hLM => ?_⟩
      obtain ⟨o, ho, v, hv, hq⟩ := k2 LM hLM
      refine ⟨o, List.mem_cons_of_mem _ ho, v, ?_, ?_⟩
      · rcases hv with rfl | hv
        · rcases hve with h | h
          · exact Or.inl h
          · right
            rw [← h]
            exact List.mem_cons_self
        · exact Or.inr (List.mem_cons_of_mem _ hv)
      · rw [hst, hbm] at hq
        exact hq
    have hself : s.beam = s.beam.setLM s.beam.LM := rfl
    cases op with
    | position pos =>
      obtain ⟨k1, k2⟩ := key { s with
        beam := s.beam.setLM (addLM s.static (axleLM s.beam s.veh pos)), aliased := false }
        (by simp) rfl ⟨_, rfl⟩ (Or.inl rfl)
      refine ⟨k1, fun LM hLM => ?_⟩
      simp only [BridgeState.run, BridgeState.step, Option.toList_some, List.mem_append,
        List.mem_singleton] at hLM
      rcases hLM with rfl | hLM
      · exact ⟨_, List.mem_cons_self, s.veh, Or.inl rfl, Or.inl ⟨pos, rfl, rfl⟩⟩
      · exact k2 LM hLM
    | lanePosition pos w c =>
      obtain ⟨k1, k2⟩ := key { s with
        beam := s.beam.setLM (addLM s.static (axleLM s.beam s.veh pos ++
          laneLM s.beam s.veh w c pos)), aliased := false }
        (by simp) rfl ⟨_, rfl⟩ (Or.inl rfl)
      refine ⟨k1, fun LM hLM => ?_⟩
      simp only [BridgeState.run, BridgeState.step, Option.toList_some, List.mem_append,
        List.mem_singleton] at hLM
      rcases hLM with rfl | hLM
      · refine ⟨_, List.mem_cons_self, s.veh, Or.inl rfl, Or.inr ⟨pos, w, c, rfl, ?_⟩⟩
        simp [addLM]
      · exact k2 LM hLM
    | setVehicle v =>
      exact key { s with veh := v } id rfl ⟨_, hself⟩ (Or.inr rfl)
    | capture => exact absurd rfl (h1 _ List.mem_cons_self)
    | addLoad r =>
      have ha : s.aliased = false := by
        cases hal : s.aliased with
        | false => rfl
        | true => exact absurd rfl (h2 hal _ List.mem_cons_self r)
      exact key { s with
        beam := s.beam.setLM (s.beam.LM ++ [r])
        static := if s.aliased then s.static ++ [r] else s.static } id
        (by simp [ha]) ⟨_, rfl⟩ (Or.inl rfl)
    | setLoads LM =>
      exact key { s with beam := s.beam.setLM LM, aliased := false } (by simp) rfl ⟨_, rfl⟩
        (Or.inl rfl)

/-- A beam of one span of length 10. -/
def exBridge : BeamB ℚ :=
  ⟨[10], [.const 1], [none], [none], [.FF], [-1, 0, -1, 0], [none, none, none, none],
    [⟨1, 1, [3]⟩], 1, 10, [0, 10], 1⟩

/-- One axle of weight 7. -/
def exAxle : Vehicle ℚ := ⟨[], [7], 0, 7, 1, [0]⟩

/-- A bridge analysis of that beam and vehicle, just constructed. -/
def exBridgeState : BridgeState ℚ := ⟨exBridge, exAxle, exBridge.LM, true⟩

/-- **C73 fails** when the bridge is set again (or another analysis made of it) after a run:
the axle of the last position has become a static load and acts twice. -/
theorem C73_recapture_violation :
    (exBridgeState.run [.position 4, .capture, .position 4]).2 =
      [[⟨1, 1, [3]⟩, ⟨1, 2, [7, 4, 0]⟩],
       [⟨1, 1, [3]⟩, ⟨1, 2, [7, 4, 0]⟩, ⟨1, 2, [7, 4, 0]⟩]] := by decide +kernel

/-- **C73 fails** for loads added to the beam before the first run: they change the loads
captured at construction (added after a run, they do not). -/
theorem C73_alias_violation :
    (exBridgeState.run [.addLoad ⟨1, 1, [5]⟩, .position 4, .addLoad ⟨1, 1, [6]⟩, .position 4]).2 =
      [[⟨1, 1, [3]⟩, ⟨1, 1, [5]⟩, ⟨1, 2, [7, 4, 0]⟩],
       [⟨1, 1, [3]⟩, ⟨1, 1, [5]⟩, ⟨1, 2, [7, 4, 0]⟩]] := by decide +kernel

theorem exBridge_proper : exBridge.Proper := by
  refine ⟨⟨rfl, rfl, rfl, rfl, rfl, by decide +kernel, by decide +kernel⟩, by decide +kernel, ?_⟩
  intro L hL
  simp [exBridge] at hL
  rw [hL]
  norm_num

/-- **C55 fails** for a stretch of lane load of `1e-9` or less: with the front axle that far
from the end of the beam and no clearances the lane load ahead of it is missing. -/
theorem C55_sliver_violation :
    ∃ pos : ℚ, uncovered exBridge.lens.sum (pos - exAxle.L - 10) (pos + 0) = 1 / 10 ^ 9 ∧
      laneLM exBridge exAxle 3 (some (10, 0)) pos = [] :=
  ⟨10 - 1 / 10 ^ 9, by decide +kernel, by decide +kernel⟩

/-- C54, C55 and C58 at work on that beam. -/
example : axleLM exBridge exAxle 10 = [⟨1, 2, [7, 10, 0]⟩] ∧ axleLM exBridge exAxle 11 = [] ∧
    laneLM exBridge exAxle 3 (some (1, 2)) 4 = [⟨1, 3, [3, 0, 3]⟩, ⟨1, 3, [3, 6, 4]⟩] ∧
    runPositions exBridge exAxle 4 none none = .ok [0, 4, 8] := by decide +kernel

example : NoSliverB exBridge.lens 0 (min (4 - exAxle.L - 1) exBridge.lens.sum) ∧
    NoSliverB exBridge.lens (max (4 + 2) 0) exBridge.lens.sum := by
  constructor <;> (unfold NoSliverB; decide +kernel)

/-! ## C75 -/

theorem mem_sortedSet (l : List K) (g : K) : g ∈ sortedSet l ↔ g ∈ l := by
  unfold sortedSet
  rw [List.mem_insertionSort, List.mem_dedup]

theorem sortedSet_lt (l : List K) : (sortedSet l).Pairwise (· < ·) := by
  have h1 : (sortedSet l).Pairwise (· ≤ ·) := List.pairwise_insertionSort _ _
  have h2 : (sortedSet l).Nodup := (List.perm_insertionSort _ _).nodup_iff.2 (List.nodup_dedup l)
  exact (h1.and h2).imp fun h => lt_of_le_of_ne h.1 h.2

/-- **C75** — the resolved sections are, each once and in ascending order, the requested
coordinates and the points at distance `dv` on either side of each node with a vertical
restraint, as far as they lie inside the beam; and the coordinates given for member `i`, again
each once and ascending, are those of the sections within it (its left end included). -/
theorem C75_shear_points (b : BeamB K) (hb : b.Proper) (points : Option (List K)) (dv : Option K) :
    (resolveShearPoints b points dv).2.Pairwise (· < ·) ∧
    (∀ g, g ∈ (resolveShearPoints b points dv).2 ↔ 0 < g ∧ g < b.lens.sum ∧
      ((∃ ps, points = some ps ∧ g ∈ ps) ∨ ∃ d, dv = some d ∧ ∃ j ≤ b.lens.length,
        b.restraints.getD (2 * j) 0 ≠ 0 ∧
          (g = boundary b.lens j - d ∨ g = boundary b.lens j + d))) ∧
    ∀ i (hi : i < b.lens.length), ((resolveShearPoints b points dv).1 i).Pairwise (· < ·) ∧
      ∀ x, x ∈ (resolveShearPoints b points dv).1 i ↔
        boundary b.lens i + x ∈ (resolveShearPoints b points dv).2 ∧ 0 ≤ x ∧ x < b.lens[i] := by
  have hmem : ∀ g, g ∈ (resolveShearPoints b points dv).2 ↔ 0 < g ∧ g < b.lens.sum ∧
      g ∈ shearCandidates b points dv := by
    intro g
    simp only [resolveShearPoints, mem_sortedSet, List.mem_filter, decide_eq_true_eq,
      hb.inStep.length]
    tauto
  have hlt : (resolveShearPoints b points dv).2.Pairwise (· < ·) := sortedSet_lt _
  refine ⟨hlt, fun g => ?_, fun i hi => ?_⟩
  · rw [hmem]
    have : g ∈ shearCandidates b points dv ↔ ((∃ ps, points = some ps ∧ g ∈ ps) ∨
        ∃ d, dv = some d ∧ ∃ j ≤ b.lens.length, b.restraints.getD (2 * j) 0 ≠ 0 ∧
          (g = boundary b.lens j - d ∨ g = boundary b.lens j + d)) := by
      unfold shearCandidates
      rw [List.mem_append]
      apply or_congr
      · cases points <;> simp
      · cases dv with
        | none => simp
        | some d =>
          simp only [verticalSupports, List.mem_flatMap, List.mem_map, List.mem_filter,
            List.mem_range, decide_eq_true_eq, List.mem_cons, List.not_mem_nil, or_false,
            Option.some.injEq, exists_eq_left', boundary]
          constructor
          · rintro ⟨x, ⟨j, ⟨hj, hr⟩, rfl⟩, hg⟩
            exact ⟨j, by omega, hr, hg⟩
          · rintro ⟨j, hj, hr, hg⟩
            exact ⟨_, ⟨j, ⟨by omega, hr⟩, rfl⟩, hg⟩
    rw [this]
  · have hloc : ∀ g, 0 < g → g < b.lens.sum → ∀ x, (b.localCoords g = ((i : ℤ), x) ↔
        boundary b.lens i + x = g ∧ 0 ≤ x ∧ x < b.lens[i]) := by
      intro g h0 hL x
      obtain ⟨j, hj, y, e1, e2, e3, -, e5⟩ :=
        (C43_local_coords b hb.inStep hb.nonempty hb.pos g).1 h0.le hL.le
      rw [e1]
      have e6 := e5 hL
      constructor
      · intro h
        simp only [Prod.mk.injEq, Nat.cast_inj] at h
        obtain ⟨rfl, rfl⟩ := h
        exact ⟨e2, e3, e6⟩
      · rintro ⟨k1, k2, k3⟩
        have hmono : ∀ p q : ℕ, p < q → q ≤ b.lens.length →
            boundary b.lens (p + 1) ≤ boundary b.lens q := by
          intro p q hpq
          induction q with
          | zero => omega
          | succ q ih =>
            intro hq
            rcases Nat.lt_succ_iff_lt_or_eq.1 hpq with h | rfl
            · have := ih h (by omega)
              rw [boundary_succ b.lens q (by omega)]
              linarith [hb.pos _ (List.getElem_mem (show q < b.lens.length by omega))]
            · exact le_rfl
        have hij : j = i := by
          rcases lt_trichotomy i j with h | h | h
          · have := hmono i j h (by omega)
            rw [boundary_succ b.lens i hi] at this
            unfold boundary at *
            linarith
          · exact h.symm
          · have := hmono j i h (by omega)
            rw [boundary_succ b.lens j hj] at this
            unfold boundary at *
            linarith
        subst hij
        unfold boundary at k1
        have : y = x := by linarith
        rw [this]
    set f : K → Option K := fun g =>
      let c := b.localCoords g
      if c.1 ≠ -1 ∧ c.1 = (i : ℤ) then some c.2 else none with hf
    have hfs : ∀ g, g ∈ (resolveShearPoints b points dv).2 → ∀ x,
        (f g = some x ↔ boundary b.lens i + x = g ∧ 0 ≤ x ∧ x < b.lens[i]) := by
      intro g hg x
      obtain ⟨g0, gL, -⟩ := (hmem g).1 hg
      rw [← hloc g g0 gL x]
      simp only [hf]
      constructor
      · intro h
        split_ifs at h with hc
        simp only [Option.some.injEq] at h
        exact Prod.ext hc.2 h
      · intro h
        rw [h, if_pos ⟨by simp only; omega, rfl⟩]
    have hdef : (resolveShearPoints b points dv).1 i =
        ((resolveShearPoints b points dv).2.filterMap f).insertionSort (· ≤ ·) := rfl
    have hltf : ((resolveShearPoints b points dv).2.filterMap f).Pairwise (· < ·) := by
      rw [List.pairwise_filterMap]
      refine hlt.imp_of_mem ?_
      intro g g' hg hg' hlt x hx y hy
      have e1 := ((hfs g hg x).1 hx).1
      have e2 := ((hfs g' hg' y).1 hy).1
      linarith
    rw [hdef, (hltf.imp fun h => h.le).insertionSort_eq]
    refine ⟨hltf, fun x => ?_⟩
    rw [List.mem_filterMap]
    constructor
    · rintro ⟨g, hg, hx⟩
      obtain ⟨h1, h2⟩ := (hfs g hg x).1 hx
      rw [h1]
      exact ⟨hg, h2⟩
    · rintro ⟨hg, h2⟩
      exact ⟨_, hg, (hfs _ hg x).2 ⟨rfl, h2⟩⟩

/-- C75 at work: `dv = 1` on the span of 10. -/
example : (resolveShearPoints exBridge (some [4, 12]) (some 1)).2 = [1, 4, 9] ∧
    (resolveShearPoints exBridge (some [4, 12]) (some 1)).1 0 = [1, 4, 9] := by decide +kernel

end PyCBA
