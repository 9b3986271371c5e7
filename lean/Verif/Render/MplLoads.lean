import Verif.Render.Mpl
import Verif.Analysis.State

/-!
C125: the arrows of the matplotlib schematic show the loads.  What is drawn is stated for the
loads the plotter infers; by C95 these are the loads that are analysed.
-/

set_option linter.unusedSectionVars false
set_option linter.unusedSimpArgs false

namespace PyCBA

open Mpl

/-! ### Lists and maxima -/

theorem foldl_max_ge (l : List ℝ) : ∀ a : ℝ, a ≤ l.foldl max a := by
  induction l with
  | nil => intro a; exact le_rfl
  | cons x l ih => intro a; exact (le_max_left a x).trans (ih _)

theorem mem_le_foldl_max (l : List ℝ) : ∀ a : ℝ, ∀ x ∈ l, x ≤ l.foldl max a := by
  induction l with
  | nil => intro a x hx; cases hx
  | cons y l ih =>
    intro a x hx
    rcases List.mem_cons.1 hx with rfl | h
    · exact (le_max_right a x).trans (foldl_max_ge _ _)
    · exact ih _ x h

theorem foldl_max_le (l : List ℝ) : ∀ a c : ℝ, a ≤ c → (∀ x ∈ l, x ≤ c) → l.foldl max a ≤ c := by
  induction l with
  | nil => intro a c h _; exact h
  | cons y l ih =>
    intro a c h hl
    exact ih _ c (max_le h (hl y List.mem_cons_self)) fun x hx => hl x (List.mem_cons_of_mem _ hx)

theorem mem_linspaceN_bounds {a b : ℝ} (hab : a ≤ b) {n : ℕ} {x : ℝ} (hx : x ∈ linspaceN a b n) :
    a ≤ x ∧ x ≤ b := by
  unfold linspaceN at hx
  obtain ⟨i, hi, rfl⟩ := List.mem_map.1 hx
  rw [List.mem_range] at hi
  have h1 : ((i : ℕ) : ℝ) ≤ ((n - 1 : ℕ) : ℝ) := by exact_mod_cast (by omega : i ≤ n - 1)
  have h0 : (0 : ℝ) ≤ (i : ℝ) := Nat.cast_nonneg i
  have hd : 0 ≤ b - a := by linarith
  constructor
  · have : 0 ≤ (i : ℝ) * ((b - a) / ((n - 1 : ℕ) : ℝ)) :=
      mul_nonneg h0 (div_nonneg hd (Nat.cast_nonneg _))
    linarith
  · rcases Nat.eq_zero_or_pos (n - 1) with h | h
    · have : i = 0 := by omega
      subst this
      simp only [Nat.cast_zero, zero_mul, add_zero]
      exact hab
    · have hp : (0 : ℝ) < ((n - 1 : ℕ) : ℝ) := by exact_mod_cast h
      have : (i : ℝ) * ((b - a) / ((n - 1 : ℕ) : ℝ)) ≤ b - a := by
        rw [mul_div_assoc', div_le_iff₀ hp, mul_comm]
        exact mul_le_mul_of_nonneg_left h1 hd
      linarith

theorem linspaceN_first (a b : ℝ) (n : ℕ) : a ∈ linspaceN a b (n + 1) := by
  unfold linspaceN
  exact List.mem_map.2 ⟨0, List.mem_range.2 (Nat.succ_pos n), by simp⟩

theorem linspaceN_last (a b : ℝ) (n : ℕ) (hn : 0 < n) : b ∈ linspaceN a b (n + 1) := by
  unfold linspaceN
  refine List.mem_map.2 ⟨n, List.mem_range.2 (Nat.lt_succ_self n), ?_⟩
  have : ((n + 1 - 1 : ℕ) : ℝ) = n := by simp
  rw [this]
  have hn' : (n : ℝ) ≠ 0 := by exact_mod_cast hn.ne'
  field_simp
  ring

/-! ### The drawing -/

/-- What a completed drawing is made of. -/
theorem renderMpl_ok {b : BeamDef ℝ} {LM : List (Row ℝ)} {kf : List (Option ℝ)} {us : UnitSystem}
    {o : MplOpts} {ax : Axes} (h : renderMpl b LM kf us o = .ok ax) :
    ∃ ss t part, inferSupports b = .ok ss ∧ inferLoads { b with LM := LM } = .ok t ∧
      0 < b.nodeX b.members.length ∧ (∀ d ∈ part, d ∈ t.dist) ∧
      (∀ d ∈ t.dist, isPartial b (b.nodeX b.members.length) d = .ok true → d ∈ part) ∧
      ax = mplAxes b kf us o ss t part := by
  unfold renderMpl at h
  split at h
  · cases h
  · rename_i ss hss
    split at h
    · cases h
    · rename_i t ht
      split at h
      · cases h
      · rename_i hL
        split at h
        · cases h
        · rename_i flags hf
          refine ⟨ss, t, _, hss, ht, not_le.1 hL, ?_, ?_, (Except.ok.inj h).symm⟩
          · intro d hd
            obtain ⟨q, hq, rfl⟩ := List.mem_map.1 hd
            exact (List.of_mem_zip (List.mem_filter.1 hq).1).1
          · intro d hd hp
            obtain ⟨hlen, hall⟩ := mapE_ok hf
            obtain ⟨i, hi, rfl⟩ := List.mem_iff_getElem.1 hd
            have hi' : i < flags.length := by rw [hlen]; exact hi
            have hfl : flags[i] = true := by
              have := hall i hi hi'
              rw [hp] at this
              exact (Except.ok.inj this).symm
            refine List.mem_map.2 ⟨(t.dist[i], flags[i]), List.mem_filter.2 ⟨?_, hfl⟩, rfl⟩
            refine List.mem_iff_getElem.2 ⟨i, by rw [List.length_zip]; omega, ?_⟩
            rw [List.getElem_zip]

/-! ### Heights and lengths -/

theorem distHeight_sign {L wmax w : ℝ} (hL : 0 < L) (hw : |w| ≤ wmax) :
    (0 < distHeight L wmax w ↔ 0 < w) ∧ (distHeight L wmax w < 0 ↔ w < 0) := by
  unfold distHeight
  by_cases h0 : wmax = 0
  · have : w = 0 := by
      rw [h0] at hw
      exact abs_eq_zero.1 (le_antisymm hw (abs_nonneg _))
    rw [if_pos h0, this]
    exact ⟨Iff.rfl, Iff.rfl⟩
  · rw [if_neg h0]
    have hp : 0 < wmax := lt_of_le_of_ne ((abs_nonneg _).trans hw) (Ne.symm h0)
    have hf : 0 < 7 / 100 * L * (35 / 100 + 65 / 100 * |w| / wmax) := by positivity
    rcases lt_trichotomy w 0 with h | h | h
    · rw [sign_neg h]
      simp only [SignType.coe_neg_one, mul_assoc]
      rw [← mul_assoc (7 / 100 : ℝ)]
      constructor <;> constructor <;> intro g <;> linarith
    · rw [h, sign_zero]
      simp
    · rw [sign_pos h]
      simp only [SignType.coe_one, mul_assoc]
      rw [← mul_assoc (7 / 100 : ℝ)]
      constructor <;> constructor <;> intro g <;> linarith

theorem distHeight_pos {L wmax w : ℝ} (hp : 0 < wmax) (h : 0 < w) :
    distHeight L wmax w = 7 / 100 * L * (35 / 100 + 65 / 100 * w / wmax) := by
  unfold distHeight
  rw [if_neg hp.ne', sign_pos h, abs_of_pos h, SignType.coe_one, one_mul]

theorem distHeight_neg {L wmax w : ℝ} (hp : 0 < wmax) (h : w < 0) :
    distHeight L wmax w = -(7 / 100 * L * (35 / 100 + 65 / 100 * -w / wmax)) := by
  unfold distHeight
  rw [if_neg hp.ne', sign_neg h, abs_of_neg h, SignType.coe_neg_one]
  ring

theorem distHeight_abs {L wmax w : ℝ} (hL : 0 < L) (hw : |w| ≤ wmax) :
    |distHeight L wmax w| ≤ 7 / 100 * L := by
  by_cases h0 : wmax = 0
  · unfold distHeight
    rw [if_pos h0, abs_zero]
    positivity
  have hp : 0 < wmax := lt_of_le_of_ne ((abs_nonneg _).trans hw) (Ne.symm h0)
  have hd : |w| / wmax ≤ 1 := (div_le_one hp).2 hw
  have hd0 : 0 ≤ |w| / wmax := by positivity
  have key : 7 / 100 * L * (35 / 100 + 65 / 100 * |w| / wmax) ≤ 7 / 100 * L := by
    have : 35 / 100 + 65 / 100 * |w| / wmax ≤ 1 := by
      rw [mul_div_assoc]
      linarith
    calc 7 / 100 * L * (35 / 100 + 65 / 100 * |w| / wmax) ≤ 7 / 100 * L * 1 :=
          mul_le_mul_of_nonneg_left this (by positivity)
      _ = 7 / 100 * L := mul_one _
  have hf : 0 < 7 / 100 * L * (35 / 100 + 65 / 100 * |w| / wmax) := by positivity
  rcases lt_trichotomy w 0 with h | h | h
  · rw [distHeight_neg hp h, ← abs_of_neg h, abs_neg, abs_of_pos hf]
    exact key
  · unfold distHeight
    rw [if_neg h0, h]
    simp only [sign_zero, SignType.coe_zero, zero_mul, abs_zero]
    positivity
  · rw [distHeight_pos hp h, ← abs_of_pos h, abs_of_pos hf]
    exact key

theorem distHeight_mono {L wmax v w : ℝ} (hL : 0 < L) (hp : 0 < wmax) (h : v < w) :
    distHeight L wmax v < distHeight L wmax w := by
  have mono : ∀ a b : ℝ, a < b → 7 / 100 * L * (35 / 100 + 65 / 100 * a / wmax)
      < 7 / 100 * L * (35 / 100 + 65 / 100 * b / wmax) := by
    intro a b hab
    have : 65 / 100 * a / wmax < 65 / 100 * b / wmax := by
      apply div_lt_div_of_pos_right _ hp
      linarith
    apply mul_lt_mul_of_pos_left _ (by positivity)
    linarith
  have hz : distHeight L wmax 0 = 0 := by
    unfold distHeight
    simp
  have hpos : ∀ a : ℝ, 0 < a → 0 < 7 / 100 * L * (35 / 100 + 65 / 100 * a / wmax) := by
    intro a ha
    positivity
  rcases lt_trichotomy v 0 with h1 | h1 | h1
  · rw [distHeight_neg hp h1]
    have n1 := hpos (-v) (by linarith)
    rcases lt_trichotomy w 0 with h2 | h2 | h2
    · rw [distHeight_neg hp h2]
      have := mono (-w) (-v) (by linarith)
      linarith
    · rw [h2, hz]
      linarith
    · rw [distHeight_pos hp h2]
      have := hpos w h2
      linarith
  · rw [h1, hz, distHeight_pos hp (by linarith)]
    exact hpos w (by linarith)
  · rw [distHeight_pos hp h1, distHeight_pos hp (by linarith)]
    exact mono v w h

/-- The greatest intensity bounds those of every load. -/
theorem wmax_ge {ds : List (DrawnDist ℝ)} {d : DrawnDist ℝ} (hd : d ∈ ds) :
    |d.w0| ≤ (ds.map fun d => max |d.w0| |d.w1|).foldl max 0 ∧
      |d.w1| ≤ (ds.map fun d => max |d.w0| |d.w1|).foldl max 0 := by
  have := mem_le_foldl_max (ds.map fun d => max |d.w0| |d.w1|) 0 _ (List.mem_map_of_mem hd)
  exact ⟨(le_max_left _ _).trans this, (le_max_right _ _).trans this⟩

theorem pmax_ge {ps : List (DrawnPoint ℝ)} {p : DrawnPoint ℝ} (hp : p ∈ ps) :
    |p.v| ≤ (ps.map fun p => |p.v|).foldl max 0 :=
  mem_le_foldl_max _ 0 _ (List.mem_map_of_mem hp)

/-- The load pushes one way only. -/
def DrawnDist.OneWay (d : DrawnDist ℝ) : Prop := (0 ≤ d.w0 ∧ 0 ≤ d.w1) ∨ (d.w0 ≤ 0 ∧ d.w1 ≤ 0)

/-- Between its ends, the height of a load that pushes one way is on the side of the load. -/
theorem distAt_sign {L wmax : ℝ} (hL : 0 < L) (d : DrawnDist ℝ) (h0 : |d.w0| ≤ wmax)
    (h1 : |d.w1| ≤ wmax) (hone : d.OneWay) {x : ℝ} (hx0 : d.x0 ≤ x) (hx1 : x ≤ d.x1) :
    (0 < distAt L wmax d x ↔ 0 < d.at x) ∧ (distAt L wmax d x < 0 ↔ d.at x < 0) := by
  have e0 := distHeight_sign hL h0
  have e1 := distHeight_sign hL h1
  have hat : d.at x = d.w0 + (d.w1 - d.w0) * ((x - d.x0) / (d.x1 - d.x0)) := by
    unfold DrawnDist.at
    rw [if_pos ⟨hx0, hx1⟩]
  rw [hat]
  unfold distAt
  by_cases hx : d.x1 = d.x0
  · rw [if_pos hx, hx, sub_self, div_zero, mul_zero, add_zero]
    exact e0
  · rw [if_neg hx]
    have hlt : 0 < d.x1 - d.x0 := sub_pos.2 (lt_of_le_of_ne (hx0.trans hx1) (Ne.symm hx))
    set s := (x - d.x0) / (d.x1 - d.x0) with hs
    have hs0 : 0 ≤ s := div_nonneg (by linarith) hlt.le
    have hs1 : s ≤ 1 := (div_le_one hlt).2 (by linarith)
    rw [mul_div_assoc, ← hs]
    generalize distHeight L wmax d.w0 = a at e0
    generalize distHeight L wmax d.w1 = c at e1
    have key : ∀ p q : ℝ, 0 ≤ p → 0 ≤ q → (0 < p + (q - p) * s ↔ (0 < p ∧ s < 1) ∨ (0 < q ∧ 0 < s)) := by
      intro p q hp hq
      have hrw : p + (q - p) * s = p * (1 - s) + q * s := by ring
      rw [hrw]
      constructor
      · intro h
        by_contra hc
        push Not at hc
        have z1 : p * (1 - s) = 0 := by
          rcases hp.eq_or_lt with g | g
          · rw [← g, zero_mul]
          · rw [le_antisymm hs1 (hc.1 g), sub_self, mul_zero]
        have z2 : q * s = 0 := by
          rcases hq.eq_or_lt with g | g
          · rw [← g, zero_mul]
          · rw [le_antisymm (hc.2 g) hs0, mul_zero]
        rw [z1, z2] at h
        linarith
      · rintro (⟨g1, g2⟩ | ⟨g1, g2⟩)
        · have := mul_pos g1 (sub_pos.2 g2)
          have := mul_nonneg hq hs0
          linarith
        · have := mul_pos g1 g2
          have := mul_nonneg hp (sub_nonneg.2 hs1)
          linarith
    have nn : ∀ p q : ℝ, 0 ≤ p → 0 ≤ q → 0 ≤ p + (q - p) * s := by
      intro p q hp hq
      have := mul_nonneg hp (sub_nonneg.2 hs1)
      have := mul_nonneg hq hs0
      linarith
    have neg : ∀ p q : ℝ, p + (q - p) * s = -(-p + (-q - -p) * s) := by intro p q; ring
    rcases hone with ⟨g0, g1⟩ | ⟨g0, g1⟩
    · have ha : 0 ≤ a := not_lt.1 fun h => absurd (e0.2.1 h) (not_lt.2 g0)
      have hc : 0 ≤ c := not_lt.1 fun h => absurd (e1.2.1 h) (not_lt.2 g1)
      refine ⟨?_, ?_⟩
      · rw [key a c ha hc, key _ _ g0 g1, e0.1, e1.1]
      · exact ⟨fun h => absurd h (not_lt.2 (nn a c ha hc)), fun h => absurd h (not_lt.2 (nn _ _ g0 g1))⟩
    · have ha : 0 ≤ -a := by
        have : a ≤ 0 := not_lt.1 fun h => absurd (e0.1.1 h) (not_lt.2 g0)
        linarith
      have hc : 0 ≤ -c := by
        have : c ≤ 0 := not_lt.1 fun h => absurd (e1.1.1 h) (not_lt.2 g1)
        linarith
      have h0' : 0 ≤ -d.w0 := by linarith
      have h1' : 0 ≤ -d.w1 := by linarith
      rw [neg a c, neg d.w0 d.w1]
      refine ⟨?_, ?_⟩
      · have n1 := nn _ _ ha hc
        have n2 := nn _ _ h0' h1'
        exact ⟨fun h => by linarith, fun h => by linarith⟩
      · rw [neg_lt_zero, neg_lt_zero, key _ _ ha hc, key _ _ h0' h1', neg_pos, neg_pos, neg_pos,
          neg_pos, e0.2, e1.2]

theorem pointLen_pos {L pmax P : ℝ} (hL : 0 < L) (hp : |P| ≤ pmax) : 0 < pointLen L pmax P := by
  unfold pointLen
  by_cases h : pmax ≠ 0
  · rw [if_pos h]
    have : 0 < pmax := lt_of_le_of_ne ((abs_nonneg _).trans hp) (Ne.symm h)
    positivity
  · rw [if_neg h]
    linarith

/-! ### Where the loads are in the drawing -/

theorem glyph_dist {b : BeamDef ℝ} {kf : List (Option ℝ)} {us : UnitSystem} {o : MplOpts}
    {ss : List (DrawnSup ℝ)} {t : DrawnLoads ℝ} {part : List (DrawnDist ℝ)} {d : DrawnDist ℝ}
    (hd : d ∈ t.dist) {g : Glyph}
    (hg : g ∈ distGlyphs (b.nodeX b.members.length) ((t.dist.map fun d => max |d.w0| |d.w1|).foldl max 0)
      us.distributed o.loadValues d) : g ∈ (mplAxes b kf us o ss t part).glyphs := by
  unfold mplAxes
  simp only [List.mem_append]
  exact Or.inl (Or.inl (Or.inl (Or.inl (Or.inl (Or.inr (List.mem_flatMap.2 ⟨d, hd, hg⟩))))))

theorem glyph_point {b : BeamDef ℝ} {kf : List (Option ℝ)} {us : UnitSystem} {o : MplOpts}
    {ss : List (DrawnSup ℝ)} {t : DrawnLoads ℝ} {part : List (DrawnDist ℝ)} {p : DrawnPoint ℝ}
    (hp : p ∈ t.points) {g : Glyph}
    (hg : g ∈ point (b.nodeX b.members.length) (5 / 100 * b.nodeX b.members.length)
      ((t.points.map fun p => |p.v|).foldl max 0) us.force o.loadValues p) :
    g ∈ (mplAxes b kf us o ss t part).glyphs := by
  unfold mplAxes
  simp only [List.mem_append]
  exact Or.inl (Or.inl (Or.inl (Or.inl (Or.inr (List.mem_flatMap.2 ⟨p, hp, hg⟩)))))

theorem glyph_moment {b : BeamDef ℝ} {kf : List (Option ℝ)} {us : UnitSystem} {o : MplOpts}
    {ss : List (DrawnSup ℝ)} {t : DrawnLoads ℝ} {part : List (DrawnDist ℝ)} {p : DrawnPoint ℝ}
    (hp : p ∈ t.moments) {g : Glyph}
    (hg : g ∈ moment (45 / 1000 * b.nodeX b.members.length) (5 / 100 * b.nodeX b.members.length)
      us.moment o.loadValues p) : g ∈ (mplAxes b kf us o ss t part).glyphs := by
  unfold mplAxes
  simp only [List.mem_append]
  exact Or.inl (Or.inl (Or.inl (Or.inr (List.mem_flatMap.2 ⟨p, hp, hg⟩))))

/-- No arrow belongs to anything but a load. -/
theorem arrow_of_load {b : BeamDef ℝ} {kf : List (Option ℝ)} {us : UnitSystem} {o : MplOpts}
    {ss : List (DrawnSup ℝ)} {t : DrawnLoads ℝ} {part : List (DrawnDist ℝ)} {hd tl : ℝ × ℝ}
    (h : Glyph.arrow hd tl ∈ (mplAxes b kf us o ss t part).glyphs) :
    (∃ d ∈ t.dist, Glyph.arrow hd tl ∈ distGlyphs (b.nodeX b.members.length)
      ((t.dist.map fun d => max |d.w0| |d.w1|).foldl max 0) us.distributed o.loadValues d) ∨
    ∃ p ∈ t.points, Glyph.arrow hd tl ∈ point (b.nodeX b.members.length)
      (5 / 100 * b.nodeX b.members.length) ((t.points.map fun p => |p.v|).foldl max 0) us.force
      o.loadValues p := by
  have ng : ∀ x y w, Glyph.arrow hd tl ∉ ground x y w := by
    intro x y w hm
    simp [ground] at hm
  have nsp : ∀ x s, Glyph.arrow hd tl ∉ spring x s := by
    intro x s hm
    simp [spring] at hm
  have nrs : ∀ x s, Glyph.arrow hd tl ∉ rotSpring x s := by
    intro x s hm
    simp [rotSpring] at hm
  have npm : ∀ x s e, Glyph.arrow hd tl ≠ pinMarker x s e := by
    intro x s e hm
    unfold pinMarker at hm
    split at hm <;> cases hm
  unfold mplAxes at h
  simp only [List.mem_append] at h
  rcases h with ((((((h | h) | h) | h) | h) | h) | h) | h
  · exfalso
    unfold beamGlyphs at h
    split at h <;> simp at h
  · exfalso
    split at h
    · rw [List.mem_append, List.mem_append] at h
      rcases h with (h | h) | h
      · unfold foundations at h
        obtain ⟨q, -, hq⟩ := List.mem_flatMap.1 h
        split at hq
        · cases hq
        · simp only [List.mem_append, List.mem_flatMap, List.mem_cons, List.mem_map, reduceCtorEq,
            false_or, and_false, exists_false, or_false] at hq
          obtain ⟨x, -, hx⟩ := hq
          exact nsp _ _ hx
      · obtain ⟨s, -, hs⟩ := List.mem_flatMap.1 h
        unfold support at hs
        cases hk : s.kind <;> rw [hk] at hs <;>
          simp only [List.mem_append, List.mem_cons, List.mem_map, reduceCtorEq, false_or, and_false,
            exists_false, or_false, ng, nsp, npm, List.not_mem_nil] at hs
        all_goals
          split at hs
          · exact nrs _ _ hs
          · cases hs
      · obtain ⟨i, -, hi⟩ := List.mem_map.1 h
        cases hi
    · cases h
  · exact Or.inl (List.mem_flatMap.1 h)
  · exact Or.inr (List.mem_flatMap.1 h)
  · exfalso
    obtain ⟨m, -, hm⟩ := List.mem_flatMap.1 h
    unfold moment at hm
    simp only [List.mem_cons, reduceCtorEq, false_or] at hm
    split at hm <;> simp at hm
  · exfalso
    split at h
    · obtain ⟨s, -, hs⟩ := List.mem_map.1 h
      cases hs
    · cases h
  · exfalso
    split at h
    · obtain ⟨i, -, hi⟩ := List.mem_flatMap.1 h
      simp [dimension] at hi
    · cases h
  · exfalso
    split at h
    · obtain ⟨i, -, hi⟩ := List.mem_flatMap.1 h
      simp [extent] at hi
    · cases h

theorem arrow_of_dist {L wmax : ℝ} {unit : String} {sv : Bool} {d : DrawnDist ℝ} {hd tl : ℝ × ℝ}
    (h : Glyph.arrow hd tl ∈ distGlyphs L wmax unit sv d) :
    ∃ x ∈ linspaceN d.x0 d.x1 (distCount L d.x0 d.x1 + 1), 1 / 10 ^ 9 ≤ |distAt L wmax d x| ∧
      hd = (x, 0) ∧ tl = (x, distAt L wmax d x) := by
  unfold distGlyphs at h
  simp only [List.mem_cons, reduceCtorEq, false_or, List.mem_append] at h
  rcases h with h | h
  · obtain ⟨x, hx, e⟩ := List.mem_map.1 h
    rw [List.mem_filter] at hx
    cases e
    exact ⟨x, hx.1, not_lt.1 (of_decide_eq_true hx.2), rfl, rfl⟩
  · split at h <;> simp at h

theorem arrow_of_point {L sh pmax : ℝ} {unit : String} {sv : Bool} {p : DrawnPoint ℝ} {hd tl : ℝ × ℝ}
    (h : Glyph.arrow hd tl ∈ point L sh pmax unit sv p) :
    hd = (p.x, 0) ∧ tl = (p.x, if 0 ≤ p.v then pointLen L pmax p.v else -pointLen L pmax p.v) := by
  unfold point at h
  simp only [List.mem_cons] at h
  rcases h with h | h
  · cases h
    exact ⟨rfl, rfl⟩
  · split at h <;> simp at h

/-! ### C125 -/

/-- **C125**, point loads: each has one arrow, its head on the beam where the load acts, pointing
down for a downward load and up for an upward one; of two loads the greater has the longer
arrow. -/
theorem C125_points {b : BeamDef ℝ} {LM : List (Row ℝ)} {kf : List (Option ℝ)} {us : UnitSystem}
    {o : MplOpts} {ax : Axes} (h : renderMpl b LM kf us o = .ok ax) :
    ∃ t, inferLoads { b with LM := LM } = .ok t ∧ ∃ len : ℝ → ℝ,
      (∀ p ∈ t.points, 0 < len |p.v| ∧
        Glyph.arrow (p.x, 0) (p.x, if 0 ≤ p.v then len |p.v| else -len |p.v|) ∈ ax.glyphs) ∧
      ∀ p ∈ t.points, ∀ q ∈ t.points, |p.v| < |q.v| → len |p.v| < len |q.v| := by
  obtain ⟨ss, t, part, -, ht, hL, -, -, rfl⟩ := renderMpl_ok h
  refine ⟨t, ht, pointLen (b.nodeX b.members.length) ((t.points.map fun p => |p.v|).foldl max 0), ?_, ?_⟩
  · intro p hp
    have e : ∀ L q P : ℝ, pointLen L q |P| = pointLen L q P := by
      intro L q P
      unfold pointLen
      rw [abs_abs]
    rw [e]
    refine ⟨pointLen_pos hL (pmax_ge hp), glyph_point hp ?_⟩
    unfold point
    exact List.mem_cons_self
  · intro p hp q hq hlt
    have hq' := pmax_ge hq
    have hpos : 0 < (t.points.map fun p => |p.v|).foldl max 0 :=
      lt_of_lt_of_le (lt_of_le_of_lt (abs_nonneg _) hlt) hq'
    unfold pointLen
    rw [if_pos hpos.ne', if_pos hpos.ne', abs_abs, abs_abs]
    apply mul_lt_mul_of_pos_left _ (by positivity)
    have : 45 / 100 * |p.v| / (t.points.map fun p => |p.v|).foldl max 0
        < 45 / 100 * |q.v| / (t.points.map fun p => |p.v|).foldl max 0 := by
      apply div_lt_div_of_pos_right _ hpos
      linarith
    linarith

/-- **C125**, distributed loads: the outline of each lies above the beam where the load pushes
down and below it where it lifts, at heights that increase with the intensities of all of them. -/
theorem C125_outlines {b : BeamDef ℝ} {LM : List (Row ℝ)} {kf : List (Option ℝ)} {us : UnitSystem}
    {o : MplOpts} {ax : Axes} (h : renderMpl b LM kf us o = .ok ax) :
    ∃ t, inferLoads { b with LM := LM } = .ok t ∧ ∃ f : ℝ → ℝ, StrictMono f ∧ f 0 = 0 ∧
      ∀ d ∈ t.dist, Glyph.line [(d.x0, f d.w0), (d.x1, f d.w1)] ∈ ax.glyphs ∧
        Glyph.fill [(d.x0, 0), (d.x0, f d.w0), (d.x1, f d.w1), (d.x1, 0)] ∈ ax.glyphs := by
  obtain ⟨ss, t, part, -, ht, hL, -, -, rfl⟩ := renderMpl_ok h
  refine ⟨t, ht, ?_⟩
  by_cases h0 : (t.dist.map fun d => max |d.w0| |d.w1|).foldl max 0 = 0
  · refine ⟨id, strictMono_id, rfl, ?_⟩
    intro d hd
    obtain ⟨a, c⟩ := wmax_ge hd
    rw [h0] at a c
    have e0 : d.w0 = 0 := abs_eq_zero.1 (le_antisymm a (abs_nonneg _))
    have e1 : d.w1 = 0 := abs_eq_zero.1 (le_antisymm c (abs_nonneg _))
    have hz : ∀ w, distHeight (b.nodeX b.members.length)
        ((t.dist.map fun d => max |d.w0| |d.w1|).foldl max 0) w = 0 := by
      intro w
      unfold distHeight
      rw [if_pos h0]
    constructor
    · apply glyph_dist hd
      unfold distGlyphs
      simp only [hz, e0, e1, id]
      exact List.mem_cons_self
    · apply glyph_dist hd
      unfold distGlyphs
      simp only [hz, e0, e1, id]
      exact List.mem_cons_of_mem _ List.mem_cons_self
  · have hp : 0 < (t.dist.map fun d => max |d.w0| |d.w1|).foldl max 0 :=
      lt_of_le_of_ne (foldl_max_ge _ _) (Ne.symm h0)
    refine ⟨distHeight (b.nodeX b.members.length) _, fun v w hvw => distHeight_mono hL hp hvw, ?_, ?_⟩
    · unfold distHeight
      simp
    · intro d hd
      constructor
      · apply glyph_dist hd
        unfold distGlyphs
        exact List.mem_cons_self
      · apply glyph_dist hd
        unfold distGlyphs
        exact List.mem_cons_of_mem _ List.mem_cons_self

/-- **C125**, arrows of distributed loads (on a beam no shorter than `1e-7`): there are arrows at
both ends of the load, where it is not zero. -/
theorem C125_ends {b : BeamDef ℝ} {LM : List (Row ℝ)} {kf : List (Option ℝ)} {us : UnitSystem}
    {o : MplOpts} {ax : Axes} (h : renderMpl b LM kf us o = .ok ax)
    (hlong : 1 / 10 ^ 7 ≤ b.nodeX b.members.length) :
    ∃ t, inferLoads { b with LM := LM } = .ok t ∧ ∀ d ∈ t.dist,
      (d.w0 ≠ 0 → ∃ y, Glyph.arrow (d.x0, 0) (d.x0, y) ∈ ax.glyphs ∧ (0 < y ↔ 0 < d.w0)) ∧
      (d.w1 ≠ 0 → d.x0 < d.x1 →
        ∃ y, Glyph.arrow (d.x1, 0) (d.x1, y) ∈ ax.glyphs ∧ (0 < y ↔ 0 < d.w1)) := by
  obtain ⟨ss, t, part, -, ht, hL, -, -, rfl⟩ := renderMpl_ok h
  refine ⟨t, ht, ?_⟩
  intro d hd
  obtain ⟨b0, b1⟩ := wmax_ge hd
  have big : ∀ w : ℝ, w ≠ 0 → |w| ≤ (t.dist.map fun d => max |d.w0| |d.w1|).foldl max 0 →
      1 / 10 ^ 9 ≤ |distHeight (b.nodeX b.members.length)
        ((t.dist.map fun d => max |d.w0| |d.w1|).foldl max 0) w| := by
    intro w hw hle
    have hp : 0 < (t.dist.map fun d => max |d.w0| |d.w1|).foldl max 0 :=
      lt_of_lt_of_le (abs_pos.2 hw) hle
    generalize (t.dist.map fun d => max |d.w0| |d.w1|).foldl max 0 = wm at hp hle
    have hq : 0 ≤ 65 / 100 * |w| / wm := by positivity
    have key : 1 / 10 ^ 9 ≤ 7 / 100 * b.nodeX b.members.length * (35 / 100 + 65 / 100 * |w| / wm) := by
      nlinarith [mul_nonneg hL.le hq]
    have hf := lt_of_lt_of_le (by norm_num : (0 : ℝ) < 1 / 10 ^ 9) key
    rcases lt_or_gt_of_ne hw with g | g
    · rw [distHeight_neg hp g, ← abs_of_neg g, abs_neg, abs_of_pos hf]
      exact key
    · rw [distHeight_pos hp g, ← abs_of_pos g, abs_of_pos hf]
      exact key
  have mk : ∀ x y, x ∈ linspaceN d.x0 d.x1 (distCount (b.nodeX b.members.length) d.x0 d.x1 + 1) →
      distAt (b.nodeX b.members.length) ((t.dist.map fun d => max |d.w0| |d.w1|).foldl max 0) d x = y →
      1 / 10 ^ 9 ≤ |y| → Glyph.arrow (x, 0) (x, y) ∈ (mplAxes b kf us o ss t part).glyphs := by
    rintro x y hx rfl hy
    apply glyph_dist hd
    unfold distGlyphs
    refine List.mem_cons_of_mem _ (List.mem_cons_of_mem _ (List.mem_append_left _ ?_))
    exact List.mem_map.2 ⟨x, List.mem_filter.2 ⟨hx, decide_eq_true (not_lt.2 hy)⟩, rfl⟩
  constructor
  · intro hw
    refine ⟨_, mk d.x0 _ (linspaceN_first _ _ _) ?_ (big _ hw b0), (distHeight_sign hL b0).1⟩
    unfold distAt
    split
    · rfl
    · rw [sub_self, mul_zero, zero_div, add_zero]
  · intro hw hx
    refine ⟨_, mk d.x1 _ (linspaceN_last _ _ _ ?_) ?_ (big _ hw b1), (distHeight_sign hL b1).1⟩
    · unfold distCount
      rw [if_pos hx]
      omega
    · unfold distAt
      rw [if_neg hx.ne', mul_div_assoc, div_self (sub_pos.2 hx).ne', mul_one]
      ring

/-- **C125**, all arrows: an arrow drawn by `render_mpl` has its head on the beam and is vertical;
it is that of a point load and points down exactly if the load does, or it stands on a distributed
load and, if that load pushes one way only, points down exactly if the load there does.  For loads
that change sign: `C125_sign_change_violation`. -/
theorem C125_arrows_partial {b : BeamDef ℝ} {LM : List (Row ℝ)} {kf : List (Option ℝ)}
    {us : UnitSystem} {o : MplOpts} {ax : Axes} (h : renderMpl b LM kf us o = .ok ax) :
    ∃ t, inferLoads { b with LM := LM } = .ok t ∧ ((∀ d ∈ t.dist, d.x0 ≤ d.x1) →
      ∀ hd tl, Glyph.arrow hd tl ∈ ax.glyphs → hd.2 = 0 ∧ tl.1 = hd.1 ∧ tl.2 ≠ 0 ∧
        ((∃ p ∈ t.points, hd.1 = p.x ∧ (0 < tl.2 ↔ 0 ≤ p.v)) ∨
          ∃ d ∈ t.dist, d.x0 ≤ hd.1 ∧ hd.1 ≤ d.x1 ∧
            (d.OneWay → (0 < tl.2 ↔ 0 < d.at hd.1) ∧ (tl.2 < 0 ↔ d.at hd.1 < 0)))) := by
  obtain ⟨ss, t, part, -, ht, hL, -, -, rfl⟩ := renderMpl_ok h
  refine ⟨t, ht, ?_⟩
  intro hord hd tl hg
  rcases arrow_of_load hg with ⟨d, hdm, hda⟩ | ⟨p, hpm, hpa⟩
  · obtain ⟨x, hx, hbig, rfl, rfl⟩ := arrow_of_dist hda
    obtain ⟨hx0, hx1⟩ := mem_linspaceN_bounds (hord d hdm) hx
    refine ⟨rfl, rfl, ?_, Or.inr ⟨d, hdm, hx0, hx1, ?_⟩⟩
    · intro h0
      simp only at h0
      rw [h0, abs_zero] at hbig
      norm_num at hbig
    · intro hone
      exact distAt_sign hL d (wmax_ge hdm).1 (wmax_ge hdm).2 hone hx0 hx1
  · obtain ⟨rfl, rfl⟩ := arrow_of_point hpa
    have hlen := pointLen_pos hL (pmax_ge hpm)
    refine ⟨rfl, rfl, ?_, Or.inl ⟨p, hpm, rfl, ?_⟩⟩
    · simp only
      split <;> linarith
    · simp only
      by_cases hv : 0 ≤ p.v
      · rw [if_pos hv]
        exact ⟨fun _ => hv, fun _ => hlen⟩
      · rw [if_neg hv]
        exact ⟨fun g => by linarith, fun g => absurd g hv⟩

/-- How the point `q` moves round `c` when it goes on to `p`: positive if counter-clockwise. -/
def turn (c q p : ℝ × ℝ) : ℝ := (p.1 - c.1) * (p.2 - q.2) - (p.2 - c.2) * (p.1 - q.1)

theorem sin_pair (u e : ℝ) :
    Real.sin (u + Real.pi + e) + Real.sin (u + Real.pi - e) = -(2 * Real.sin u * Real.cos e) := by
  rw [Real.sin_add (u + Real.pi), Real.sin_sub (u + Real.pi), Real.sin_add_pi]
  ring

theorem cos_pair (u e : ℝ) :
    Real.cos (u + Real.pi + e) + Real.cos (u + Real.pi - e) = -(2 * Real.cos u * Real.cos e) := by
  rw [Real.cos_add (u + Real.pi), Real.cos_sub (u + Real.pi), Real.cos_add_pi]
  ring

theorem moment_head (r sh x v : ℝ) (hr : 0 < r) (hsh : 0 < sh) (unit : String) (sv : Bool) (i : ℤ) :
    ∃ tip p2 p3, Glyph.fill [tip, p2, p3] ∈ moment r sh unit sv ⟨i, x, v⟩ ∧
      (tip.1 - x) ^ 2 + tip.2 ^ 2 = r ^ 2 ∧
      (0 ≤ v → 0 < turn (x, 0) ((p2.1 + p3.1) / 2, (p2.2 + p3.2) / 2) tip) ∧
      (v < 0 → turn (x, 0) ((p2.1 + p3.1) / 2, (p2.2 + p3.2) / 2) tip < 0) := by
  have hc : 0 < Real.cos (radians 22) := by
    apply Real.cos_pos_of_mem_Ioo
    unfold radians
    constructor <;> nlinarith [Real.pi_pos]
  have key : ∀ a s : ℝ, s = 1 ∨ s = -1 →
      (r * Real.cos a) * (r * Real.sin a - ((r * Real.sin a
        + 5 / 10 * sh * Real.sin (a + s * (Real.pi / 2) + Real.pi + radians 22))
        + (r * Real.sin a + 5 / 10 * sh * Real.sin (a + s * (Real.pi / 2) + Real.pi - radians 22))) / 2)
      - (r * Real.sin a) * (r * Real.cos a - ((r * Real.cos a
        + 5 / 10 * sh * Real.cos (a + s * (Real.pi / 2) + Real.pi + radians 22))
        + (r * Real.cos a + 5 / 10 * sh * Real.cos (a + s * (Real.pi / 2) + Real.pi - radians 22))) / 2)
      = s * (r * (5 / 10 * sh) * Real.cos (radians 22)) := by
    intro a s hs
    have S1 := sin_pair (a + s * (Real.pi / 2)) (radians 22)
    have C1 := cos_pair (a + s * (Real.pi / 2)) (radians 22)
    have hq : Real.sin (a + s * (Real.pi / 2)) = s * Real.cos a ∧
        Real.cos (a + s * (Real.pi / 2)) = -s * Real.sin a := by
      rcases hs with rfl | rfl
      · rw [one_mul, Real.sin_add_pi_div_two, Real.cos_add_pi_div_two]
        constructor <;> ring
      · rw [neg_one_mul, ← sub_eq_add_neg, Real.sin_sub_pi_div_two, Real.cos_sub_pi_div_two]
        constructor <;> ring
    rw [hq.1] at S1
    rw [hq.2] at C1
    linear_combination (-(r * Real.cos a * (5 / 10 * sh) / 2)) * S1
      + (r * Real.sin a * (5 / 10 * sh) / 2) * C1
      + (s * (r * (5 / 10 * sh) * Real.cos (radians 22))) * Real.sin_sq_add_cos_sq a
  have hpos : 0 < r * (5 / 10 * sh) * Real.cos (radians 22) := by positivity
  by_cases hv : 0 ≤ v
  · refine ⟨_, _, _, by
      unfold moment
      exact List.mem_cons_of_mem _ (List.mem_cons_of_mem _ List.mem_cons_self), ?_, ?_, ?_⟩
    · simp only [decide_eq_true hv, if_true]
      linear_combination r ^ 2 * Real.sin_sq_add_cos_sq (radians 230)
    · intro _
      have := key (radians 230) 1 (Or.inl rfl)
      unfold turn
      simp only [decide_eq_true hv, if_true]
      rw [one_mul, one_mul] at this
      rw [← this] at hpos
      refine lt_of_lt_of_eq hpos ?_
      ring
    · intro g
      exact absurd hv (not_le.2 g)
  · refine ⟨_, _, _, by
      unfold moment
      exact List.mem_cons_of_mem _ (List.mem_cons_of_mem _ List.mem_cons_self), ?_, ?_, ?_⟩
    · simp only [decide_eq_false hv]
      simp only [Bool.false_eq_true, if_false]
      linear_combination r ^ 2 * Real.sin_sq_add_cos_sq (radians (-50))
    · intro g
      exact absurd g hv
    · intro _
      have := key (radians (-50)) (-1) (Or.inr rfl)
      unfold turn
      simp only [decide_eq_false hv]
      simp only [Bool.false_eq_true, if_false]
      rw [neg_one_mul (Real.pi / 2), neg_one_mul (r * _ * _)] at this
      rw [← neg_lt_zero, ← this] at hpos
      refine lt_of_eq_of_lt ?_ hpos
      ring

/-- **C125**, couples: each is drawn as an arc round the point where it acts, and its arrow head
turns counter-clockwise for a positive couple and clockwise for a negative one. -/
theorem C125_couples {b : BeamDef ℝ} {LM : List (Row ℝ)} {kf : List (Option ℝ)} {us : UnitSystem}
    {o : MplOpts} {ax : Axes} (h : renderMpl b LM kf us o = .ok ax) :
    ∃ t, inferLoads { b with LM := LM } = .ok t ∧ ∃ r, 0 < r ∧ ∀ m ∈ t.moments,
      (∃ a c, Glyph.arc (m.x, 0) r a c ∈ ax.glyphs) ∧
      ∃ tip p2 p3, Glyph.fill [tip, p2, p3] ∈ ax.glyphs ∧ (tip.1 - m.x) ^ 2 + tip.2 ^ 2 = r ^ 2 ∧
        (0 ≤ m.v → 0 < turn (m.x, 0) ((p2.1 + p3.1) / 2, (p2.2 + p3.2) / 2) tip) ∧
        (m.v < 0 → turn (m.x, 0) ((p2.1 + p3.1) / 2, (p2.2 + p3.2) / 2) tip < 0) := by
  obtain ⟨ss, t, part, -, ht, hL, -, -, rfl⟩ := renderMpl_ok h
  refine ⟨t, ht, 45 / 1000 * b.nodeX b.members.length, by positivity, ?_⟩
  intro m hm
  constructor
  · refine ⟨-50, 230, glyph_moment hm ?_⟩
    unfold moment
    exact List.mem_cons_of_mem _ List.mem_cons_self
  · obtain ⟨tip, p2, p3, h1, h2⟩ := moment_head (45 / 1000 * b.nodeX b.members.length)
      (5 / 100 * b.nodeX b.members.length) m.x m.v (by positivity) (by positivity) us.moment
      o.loadValues m.iSpan
    exact ⟨tip, p2, p3, glyph_moment hm h1, h2⟩

/-- **C125**, magnitudes: with `load_values`, each point load and each couple is annotated with
its magnitude, in the units of the unit system. -/
theorem C125_magnitudes {b : BeamDef ℝ} {LM : List (Row ℝ)} {kf : List (Option ℝ)} {us : UnitSystem}
    {o : MplOpts} {ax : Axes} (h : renderMpl b LM kf us o = .ok ax) (hv : o.loadValues = true) :
    ∃ t, inferLoads { b with LM := LM } = .ok t ∧
      (∀ p ∈ t.points, ∃ y, Glyph.text (p.x, y) [|p.v|] us.force ∈ ax.glyphs) ∧
      (∀ m ∈ t.moments, ∃ y, Glyph.text (m.x, y) [|m.v|] us.moment ∈ ax.glyphs) ∧
      (∀ d ∈ t.dist, |d.w0| ≠ |d.w1| → 1 / 10 ^ 9 ≤ |d.w0 - d.w1| →
        ∃ y, Glyph.text ((d.x0 + d.x1) / 2, y) [|d.w0|, |d.w1|] us.distributed ∈ ax.glyphs) ∧
      ∀ d ∈ t.dist, d.w0 = d.w1 →
        ∃ y, Glyph.text ((d.x0 + d.x1) / 2, y) [|d.w0|] us.distributed ∈ ax.glyphs := by
  obtain ⟨ss, t, part, -, ht, hL, -, -, rfl⟩ := renderMpl_ok h
  have hmid : ∀ d : DrawnDist ℝ, (5 / 10 * (d.x0 + d.x1) : ℝ) = (d.x0 + d.x1) / 2 := by
    intro d
    ring
  refine ⟨t, ht, ?_, ?_, ?_, ?_⟩
  · intro p hp
    apply Exists.intro
    apply glyph_point hp
    unfold point
    rw [hv]
    exact List.mem_cons_of_mem _ List.mem_cons_self
  · intro p hp
    apply Exists.intro
    apply glyph_moment hp
    unfold moment
    rw [hv]
    exact List.mem_cons_of_mem _ (List.mem_cons_of_mem _ (List.mem_cons_of_mem _ List.mem_cons_self))
  · intro d hd h1 h2
    apply Exists.intro
    apply glyph_dist hd
    unfold distGlyphs
    dsimp only
    rw [hv, hmid, if_pos rfl, if_neg (by
      rintro (g | g)
      · exact absurd g (not_lt.2 h2)
      · exact h1 g.symm)]
    exact List.mem_cons_of_mem _ (List.mem_cons_of_mem _ (List.mem_append_right _ List.mem_cons_self))
  · intro d hd h1
    apply Exists.intro
    apply glyph_dist hd
    unfold distGlyphs
    dsimp only
    rw [hv, hmid, if_pos rfl, if_pos (Or.inr (by rw [h1]))]
    exact List.mem_cons_of_mem _ (List.mem_cons_of_mem _ (List.mem_append_right _ List.mem_cons_self))

/-! ### Completion -/

/-- The span of a drawn load is that of a load of the matrix. -/
theorem drawOne_iSpan {b : BeamDef ℝ} {l : SpanLoad ℝ} {d : DrawnDist ℝ} (h : d ∈ (drawOne b l).dist) :
    d.iSpan = l.iSpan := by
  unfold drawOne drawLoad at h
  cases hl : l.load <;> rw [hl] at h <;> simp only [List.nil_append, List.mem_singleton, List.not_mem_nil] at h
  · rw [h]
  · rw [h]
  · split at h
    · simp only [List.mem_singleton] at h
      rw [h]
    · cases h

/-- The drawing completes for every beam with restraints at all nodes and loads on its spans. -/
theorem C125_completes (b : BeamDef ℝ) (LM : List (Row ℝ)) (kf : List (Option ℝ)) (us : UnitSystem)
    (o : MplOpts) (ls : List (SpanLoad ℝ)) (hls : parseLM LM = .ok ls)
    (hlen : 2 * b.members.length + 2 ≤ b.restraints.length) (hL : 0 < b.nodeX b.members.length)
    (hsp : ∀ l ∈ ls, 0 ≤ l.iSpan ∧ l.iSpan < b.members.length) :
    ∃ ax t, renderMpl b LM kf us o = .ok ax ∧ inferLoads { b with LM := LM } = .ok t ∧
      t.dist = ls.flatMap (fun l => (drawOne { b with LM := LM } l).dist) ∧
      t.points = ls.flatMap (fun l => (drawOne { b with LM := LM } l).points) ∧
      t.moments = ls.flatMap (fun l => (drawOne { b with LM := LM } l).moments) := by
  obtain ⟨t, ht, h1, h2, h3, -⟩ := drawLoop_ok { b with LM := LM } ls hsp ⟨[], [], [], []⟩
  rw [List.nil_append] at h1 h2 h3
  have hinf : inferLoads { b with LM := LM } = .ok t := by
    unfold inferLoads
    rw [hls]
    exact ht
  have hsup : ∃ ss, inferSupports b = .ok ss := by
    unfold inferSupports
    exact ⟨_, if_neg (by omega)⟩
  obtain ⟨ss, hss⟩ := hsup
  have hpart : ∃ flags, mapE (isPartial b (b.nodeX b.members.length)) t.dist = .ok flags := by
    apply mapE_of_ok
    intro d hd
    rw [h1] at hd
    obtain ⟨l, hl, hdl⟩ := List.mem_flatMap.1 hd
    obtain ⟨g0, g1⟩ := hsp l hl
    rw [← drawOne_iSpan hdl] at g0 g1
    have n1 : nodeAt b d.iSpan = .ok (nodeName d.iSpan.toNat, b.nodeX d.iSpan.toNat) := by
      unfold nodeAt NL.pyIndex
      rw [if_pos ⟨g0, by push_cast; omega⟩]
    have n2 : nodeAt b (d.iSpan + 1)
        = .ok (nodeName (d.iSpan + 1).toNat, b.nodeX (d.iSpan + 1).toNat) := by
      unfold nodeAt NL.pyIndex
      rw [if_pos ⟨by omega, by push_cast; omega⟩]
    unfold isPartial
    rw [n1, n2]
    exact ⟨_, rfl⟩
  obtain ⟨flags, hf⟩ := hpart
  have hr : renderMpl b LM kf us o
      = .ok (mplAxes b kf us o ss t (((t.dist.zip flags).filter fun q => q.2).map Prod.fst)) := by
    unfold renderMpl
    rw [hss, hinf]
    dsimp only
    rw [if_neg (not_le.2 hL), hf]
  exact ⟨_, t, hr, hinf, h1, h2, h3⟩

/-- A span of 16 on two supports. -/
noncomputable def exSixteen : BeamDef ℝ :=
  ⟨[⟨.const 1, 16, .FF, none⟩], [-1, 0, -1, 0], List.replicate 4 none, []⟩

theorem exSixteen_len : exSixteen.nodeX exSixteen.members.length = 16 := by
  simp [exSixteen, BeamDef.nodeX]

theorem exSixteen_trapez (w1 w2 : ℝ) (us : UnitSystem) (o : MplOpts) :
    parseLM [⟨1, 5, [w1, w2, 0]⟩] = .ok [(⟨0, .trapez w1 w2 0 none⟩ : SpanLoad ℝ)] ∧
    ∃ ax ss t part, renderMpl exSixteen [⟨1, 5, [w1, w2, 0]⟩] [] us o = .ok ax ∧
      inferLoads { exSixteen with LM := [⟨1, 5, [w1, w2, 0]⟩] } = .ok t ∧
      t.dist = [⟨0, 0, 16, w1, w2⟩] ∧ ax = mplAxes exSixteen [] us o ss t part := by
  have hls : parseLM [⟨1, 5, [w1, w2, 0]⟩] = .ok [(⟨0, .trapez w1 w2 0 none⟩ : SpanLoad ℝ)] := by
    simp [parseLM, parseRow]
  refine ⟨hls, ?_⟩
  obtain ⟨ax, t, h1, h2, h3, -⟩ := C125_completes exSixteen [⟨1, 5, [w1, w2, 0]⟩] [] us o _ hls
    (by simp [exSixteen]) (by rw [exSixteen_len]; norm_num) (by
      intro l hl
      rw [List.mem_singleton] at hl
      subst hl
      simp [exSixteen])
  obtain ⟨ss, t', part, -, h2', -, -, -, hax⟩ := renderMpl_ok h1
  have : t' = t := Except.ok.inj (h2'.symm.trans h2)
  subst this
  refine ⟨ax, ss, t', part, h1, h2, ?_, hax⟩
  rw [h3]
  norm_num [drawOne, drawLoad, exSixteen, BeamDef.nodeX, resolveTrapez]

/-- **C125 fails** for a distributed load that changes sign: from -1 at the left end to 3 at the
right end of a span of 16 it pushes down to the right of 4, but the arrow at 5 points up. -/
theorem C125_sign_change_violation :
    ∃ (b : BeamDef ℝ) (LM : List (Row ℝ)) (ax : Axes),
      parseLM LM = .ok [⟨0, .trapez (-1) 3 0 none⟩] ∧ renderMpl b LM [] UnitSystem.SI {} = .ok ax ∧
      b.members.length = 1 ∧ b.nodeX 0 = 0 ∧ b.nodeX 1 = 16 ∧
      Load.intensity 16 (.trapez (-1) 3 0 none) (5 : ℝ) = 1 / 4 ∧
      ∃ y < 0, Glyph.arrow (5, 0) (5, y) ∈ ax.glyphs := by
  obtain ⟨hls, ax, ss, t, part, h1, -, h3, hax⟩ := exSixteen_trapez (-1) 3 UnitSystem.SI {}
  refine ⟨exSixteen, _, ax, hls, h1, rfl, by simp [BeamDef.nodeX], exSixteen_len, ?_, ?_⟩
  · norm_num [Load.intensity]
  · have hw : (t.dist.map fun d => max |d.w0| |d.w1|).foldl max 0 = 3 := by
      rw [h3]
      norm_num
    have hat : distAt 16 3 ⟨0, 0, 16, -1, 3⟩ 5 = -(259 / 3000) := by
      unfold distAt
      rw [if_neg (by norm_num), distHeight_neg (by norm_num) (by norm_num),
        distHeight_pos (by norm_num) (by norm_num)]
      norm_num
    refine ⟨-(259 / 3000), by norm_num, ?_⟩
    rw [hax]
    apply glyph_dist (d := ⟨0, 0, 16, -1, 3⟩) (by rw [h3]; exact List.mem_singleton_self _)
    rw [exSixteen_len, hw]
    unfold distGlyphs
    refine List.mem_cons_of_mem _ (List.mem_cons_of_mem _ (List.mem_append_left _ ?_))
    refine List.mem_map.2 ⟨5, List.mem_filter.2 ⟨?_, ?_⟩, by rw [hat]⟩
    · have hc : distCount 16 0 16 = 16 := by
        unfold distCount
        rw [if_pos (by norm_num)]
        have : ⌊((16 : ℝ) - 0) / (6 / 100 * 16)⌋₊ = 16 := by
          rw [Nat.floor_eq_iff (by norm_num)]
          norm_num
        rw [this]
        norm_num
      simp only [hc]
      unfold linspaceN
      exact List.mem_map.2 ⟨5, by simp, by norm_num⟩
    · rw [hat]
      norm_num [abs_of_neg]

/-- **C125 fails** for the magnitudes of such a load: from -3 to 3, it is annotated like a uniform
load of 3. -/
theorem C125_label_violation :
    ∃ (b : BeamDef ℝ) (LM LM' : List (Row ℝ)) (ax ax' : Axes),
      parseLM LM = .ok [⟨0, .trapez (-3) 3 0 none⟩] ∧ parseLM LM' = .ok [⟨0, .trapez 3 3 0 none⟩] ∧
      renderMpl b LM [] UnitSystem.SI {} = .ok ax ∧ renderMpl b LM' [] UnitSystem.SI {} = .ok ax' ∧
      ∃ p, Glyph.text p [3] "kN/m" ∈ ax.glyphs ∧ Glyph.text p [3] "kN/m" ∈ ax'.glyphs := by
  have key : ∀ w : ℝ, |w| = 3 → ∀ ax ss t part,
      renderMpl exSixteen [⟨1, 5, [w, 3, 0]⟩] [] UnitSystem.SI {} = .ok ax →
      t.dist = [⟨0, 0, 16, w, 3⟩] → ax = mplAxes exSixteen [] UnitSystem.SI {} ss t part →
      Glyph.text (8, 112 / 100 + 25 / 100 * (7 / 100 * 16)) [3] "kN/m" ∈ ax.glyphs := by
    intro w hw ax ss t part _ h3 hax
    have h33 : |(3 : ℝ)| = 3 := by norm_num
    have hm : (t.dist.map fun d => max |d.w0| |d.w1|).foldl max 0 = 3 := by
      rw [h3]
      simp only [List.map_cons, List.map_nil, List.foldl_cons, List.foldl_nil, hw, h33, max_self]
      norm_num
    have ha : distHeight 16 3 3 = 112 / 100 := by
      rw [distHeight_pos (by norm_num) (by norm_num)]
      norm_num
    have hb : distHeight 16 3 w ≤ 112 / 100 := by
      refine (le_abs_self _).trans ((distHeight_abs (by norm_num) (by rw [hw])).trans ?_)
      norm_num
    rw [hax]
    apply glyph_dist (d := ⟨0, 0, 16, w, 3⟩) (by rw [h3]; exact List.mem_singleton_self _)
    rw [exSixteen_len, hm]
    unfold distGlyphs
    refine List.mem_cons_of_mem _ (List.mem_cons_of_mem _ (List.mem_append_right _ ?_))
    dsimp only
    rw [if_pos rfl, if_pos (Or.inr (by rw [hw, h33])), ha, max_eq_right hb, hw, List.mem_singleton]
    norm_num [UnitSystem.SI]
  obtain ⟨hls, ax, ss, t, part, h1, -, h3, hax⟩ := exSixteen_trapez (-3) 3 UnitSystem.SI {}
  obtain ⟨hls', ax', ss', t', part', h1', -, h3', hax'⟩ := exSixteen_trapez 3 3 UnitSystem.SI {}
  exact ⟨exSixteen, _, _, ax, ax', hls, hls', h1, h1', _,
    key (-3) (by norm_num) ax ss t part h1 h3 hax, key 3 (by norm_num) ax' ss' t' part' h1' h3' hax'⟩

/-- **C125 fails** for dimensions: they are given in metres in every unit system. -/
theorem C125_unit_violation :
    ∃ (b : BeamDef ℝ) (ax : Axes) (us : UnitSystem),
      renderMpl b [] [] us { dimensions := true } = .ok ax ∧ us.length = "ft" ∧
      b.nodeX b.members.length = 16 ∧ ∃ p, Glyph.text p [16] "m" ∈ ax.glyphs := by
  obtain ⟨ax, t, h1, -⟩ := C125_completes exSixteen [] [] UnitSystem.US_KIP_FT { dimensions := true } []
    rfl (by simp [exSixteen]) (by rw [exSixteen_len]; norm_num) (by simp)
  refine ⟨exSixteen, ax, _, h1, rfl, exSixteen_len, ?_⟩
  obtain ⟨ss, t', part, -, h2', -, -, -, rfl⟩ := renderMpl_ok h1
  refine ⟨(8, -(23 / 10) * (5 / 100 * 16) - 15 / 100 * (5 / 100 * 16)), ?_⟩
  unfold mplAxes
  simp only [List.mem_append]
  refine Or.inl (Or.inr ?_)
  rw [if_pos trivial]
  refine List.mem_flatMap.2 ⟨0, by simp [exSixteen], ?_⟩
  have e : exSixteen.nodeX (0 + 1) = 16 := exSixteen_len
  have e0 : exSixteen.nodeX 0 = 0 := by simp [BeamDef.nodeX]
  rw [exSixteen_len, e, e0]
  unfold dimension
  norm_num

-- C125: a load of 9 down at 3, drawn by an arrow with its head on the beam
example : ∃ (LM : List (Row ℝ)) (ax : Axes), parseLM LM = .ok [⟨0, .pl 9 3⟩] ∧
    renderMpl exSixteen LM [] UnitSystem.SI {} = .ok ax ∧
    (∃ y > 0, Glyph.arrow (3, 0) (3, y) ∈ ax.glyphs) ∧
    ∃ y, Glyph.text (3, y) [9] UnitSystem.SI.force ∈ ax.glyphs := by
  have hls : parseLM [⟨1, 2, [9, 3]⟩] = .ok [(⟨0, .pl 9 3⟩ : SpanLoad ℝ)] := by
    simp [parseLM, parseRow]
  obtain ⟨ax, t, h1, h2, -, h4, -⟩ := C125_completes exSixteen [⟨1, 2, [9, 3]⟩] [] UnitSystem.SI {} _ hls
    (by simp [exSixteen]) (by rw [exSixteen_len]; norm_num) (by
      intro l hl
      rw [List.mem_singleton] at hl
      subst hl
      simp [exSixteen])
  have ht : t.points = [⟨0, 3, 9⟩] := by
    rw [h4]
    norm_num [drawOne, drawLoad, exSixteen, BeamDef.nodeX]
  refine ⟨_, ax, hls, h1, ?_, ?_⟩
  · obtain ⟨t', h2', len, hp, -⟩ := C125_points h1
    obtain rfl : t' = t := Except.ok.inj (h2'.symm.trans h2)
    obtain ⟨c1, c2⟩ := hp ⟨0, 3, 9⟩ (by rw [ht]; simp)
    rw [if_pos (by norm_num)] at c2
    exact ⟨_, c1, c2⟩
  · obtain ⟨t', h2', hp, -⟩ := C125_magnitudes h1 rfl
    obtain rfl : t' = t := Except.ok.inj (h2'.symm.trans h2)
    obtain ⟨y, hy⟩ := hp ⟨0, 3, 9⟩ (by rw [ht]; simp)
    rw [abs_of_pos (by norm_num : (0 : ℝ) < 9)] at hy
    exact ⟨y, hy⟩

end PyCBA
