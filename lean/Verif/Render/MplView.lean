import Verif.Render.MplLoads
import Mathlib.Analysis.Convex.Segment
import Mathlib.Analysis.Convex.Hull
import Mathlib.Analysis.Real.Pi.Bounds
import Mathlib.Analysis.SpecialFunctions.Trigonometric.Bounds

/-!
C126: what the matplotlib schematic draws lies within its axes.
-/

set_option linter.unusedSectionVars false
set_option linter.unusedSimpArgs false

namespace PyCBA

open Mpl

/-! ### Ink and view -/

/-- The points a glyph covers.  For a line this is the convex hull of its points, which is the
line itself if there are two of them; for a text, the point where it is placed. -/
noncomputable def Glyph.ink : Glyph → Set (ℝ × ℝ)
  | .line pts => convexHull ℝ {p | p ∈ pts}
  | .fill pts => convexHull ℝ {p | p ∈ pts}
  | .disc c r => {p | (p.1 - c.1) ^ 2 + (p.2 - c.2) ^ 2 ≤ r ^ 2}
  | .halfDisc c r => {p | (p.1 - c.1) ^ 2 + (p.2 - c.2) ^ 2 ≤ r ^ 2 ∧ p.2 ≤ c.2}
  | .arc c r a b => {p | ∃ u, a ≤ u ∧ u ≤ b ∧
      p = (c.1 + r * Real.cos (u * (Real.pi / 180)), c.2 + r * Real.sin (u * (Real.pi / 180)))}
  | .arrow h t => segment ℝ h t
  | .dim a b => segment ℝ a b
  | .text p _ _ => {p}
  | .letter p _ => {p}

/-- The part of the plane that the axes show. -/
def Axes.view (ax : Axes) : Set (ℝ × ℝ) := Set.Icc ax.xlo ax.xhi ×ˢ Set.Icc ax.ylo ax.yhi

/-- A glyph lies in a rectangle. -/
def Fits (x0 x1 y0 y1 : ℝ) (g : Glyph) : Prop := g.ink ⊆ Set.Icc x0 x1 ×ˢ Set.Icc y0 y1

theorem Fits.mono {x0 x1 y0 y1 a0 a1 c0 c1 : ℝ} {g : Glyph} (h : Fits x0 x1 y0 y1 g) (h0 : a0 ≤ x0)
    (h1 : x1 ≤ a1) (h2 : c0 ≤ y0) (h3 : y1 ≤ c1) : Fits a0 a1 c0 c1 g :=
  h.trans (Set.prod_mono (Set.Icc_subset_Icc h0 h1) (Set.Icc_subset_Icc h2 h3))

theorem hull_fits {x0 x1 y0 y1 : ℝ} {pts : List (ℝ × ℝ)}
    (h : ∀ p ∈ pts, (x0 ≤ p.1 ∧ p.1 ≤ x1) ∧ y0 ≤ p.2 ∧ p.2 ≤ y1) :
    convexHull ℝ {p | p ∈ pts} ⊆ Set.Icc x0 x1 ×ˢ Set.Icc y0 y1 :=
  convexHull_min (fun p hp => ⟨(h p hp).1, (h p hp).2⟩)
    ((convex_Icc x0 x1).prod (convex_Icc y0 y1))

theorem line_fits {x0 x1 y0 y1 : ℝ} {pts : List (ℝ × ℝ)}
    (h : ∀ p ∈ pts, (x0 ≤ p.1 ∧ p.1 ≤ x1) ∧ y0 ≤ p.2 ∧ p.2 ≤ y1) : Fits x0 x1 y0 y1 (.line pts) :=
  hull_fits h

theorem fill_fits {x0 x1 y0 y1 : ℝ} {pts : List (ℝ × ℝ)}
    (h : ∀ p ∈ pts, (x0 ≤ p.1 ∧ p.1 ≤ x1) ∧ y0 ≤ p.2 ∧ p.2 ≤ y1) : Fits x0 x1 y0 y1 (.fill pts) :=
  hull_fits h

theorem line2_fits {x0 x1 y0 y1 a b c d : ℝ} (h1 : x0 ≤ a ∧ a ≤ x1) (h2 : y0 ≤ b ∧ b ≤ y1)
    (h3 : x0 ≤ c ∧ c ≤ x1) (h4 : y0 ≤ d ∧ d ≤ y1) : Fits x0 x1 y0 y1 (.line [(a, b), (c, d)]) := by
  apply line_fits
  intro p hp
  simp only [List.mem_cons, List.not_mem_nil, or_false] at hp
  rcases hp with rfl | rfl
  · exact ⟨h1, h2⟩
  · exact ⟨h3, h4⟩

theorem fill3_fits {x0 x1 y0 y1 a b c d e f : ℝ} (h1 : x0 ≤ a ∧ a ≤ x1) (h2 : y0 ≤ b ∧ b ≤ y1)
    (h3 : x0 ≤ c ∧ c ≤ x1) (h4 : y0 ≤ d ∧ d ≤ y1) (h5 : x0 ≤ e ∧ e ≤ x1) (h6 : y0 ≤ f ∧ f ≤ y1) :
    Fits x0 x1 y0 y1 (.fill [(a, b), (c, d), (e, f)]) := by
  apply fill_fits
  intro p hp
  simp only [List.mem_cons, List.not_mem_nil, or_false] at hp
  rcases hp with rfl | rfl | rfl
  · exact ⟨h1, h2⟩
  · exact ⟨h3, h4⟩
  · exact ⟨h5, h6⟩

theorem segment_fits {x0 x1 y0 y1 : ℝ} {p q : ℝ × ℝ} (h1 : x0 ≤ p.1 ∧ p.1 ≤ x1)
    (h2 : y0 ≤ p.2 ∧ p.2 ≤ y1) (h3 : x0 ≤ q.1 ∧ q.1 ≤ x1) (h4 : y0 ≤ q.2 ∧ q.2 ≤ y1) :
    segment ℝ p q ⊆ Set.Icc x0 x1 ×ˢ Set.Icc y0 y1 :=
  ((convex_Icc x0 x1).prod (convex_Icc y0 y1)).segment_subset ⟨h1, h2⟩ ⟨h3, h4⟩

theorem disc_bounds {p c : ℝ × ℝ} {r : ℝ} (hr : 0 ≤ r)
    (h : (p.1 - c.1) ^ 2 + (p.2 - c.2) ^ 2 ≤ r ^ 2) :
    (c.1 - r ≤ p.1 ∧ p.1 ≤ c.1 + r) ∧ c.2 - r ≤ p.2 ∧ p.2 ≤ c.2 + r := by
  have h1 := abs_le_of_sq_le_sq' (by nlinarith [sq_nonneg (p.2 - c.2)] : (p.1 - c.1) ^ 2 ≤ r ^ 2) hr
  have h2 := abs_le_of_sq_le_sq' (by nlinarith [sq_nonneg (p.1 - c.1)] : (p.2 - c.2) ^ 2 ≤ r ^ 2) hr
  exact ⟨⟨by linarith [h1.1], by linarith [h1.2]⟩, by linarith [h2.1], by linarith [h2.2]⟩

theorem disc_fits {x0 x1 y0 y1 : ℝ} {c : ℝ × ℝ} {r : ℝ} (hr : 0 ≤ r) (h1 : x0 ≤ c.1 - r)
    (h2 : c.1 + r ≤ x1) (h3 : y0 ≤ c.2 - r) (h4 : c.2 + r ≤ y1) : Fits x0 x1 y0 y1 (.disc c r) := by
  intro p hp
  obtain ⟨⟨a, b⟩, e, f⟩ := disc_bounds hr hp
  exact ⟨⟨h1.trans a, b.trans h2⟩, h3.trans e, f.trans h4⟩

theorem halfDisc_fits {x0 x1 y0 y1 : ℝ} {c : ℝ × ℝ} {r : ℝ} (hr : 0 ≤ r) (h1 : x0 ≤ c.1 - r)
    (h2 : c.1 + r ≤ x1) (h3 : y0 ≤ c.2 - r) (h4 : c.2 + r ≤ y1) :
    Fits x0 x1 y0 y1 (.halfDisc c r) := by
  intro p hp
  obtain ⟨⟨a, b⟩, e, f⟩ := disc_bounds hr hp.1
  exact ⟨⟨h1.trans a, b.trans h2⟩, h3.trans e, f.trans h4⟩

theorem arc_fits {x0 x1 y0 y1 : ℝ} {c : ℝ × ℝ} {r a b : ℝ} (hr : 0 ≤ r) (h1 : x0 ≤ c.1 - r)
    (h2 : c.1 + r ≤ x1) (h3 : y0 ≤ c.2 - r) (h4 : c.2 + r ≤ y1) : Fits x0 x1 y0 y1 (.arc c r a b) := by
  rintro p ⟨u, -, -, rfl⟩
  have k1 := mul_le_mul_of_nonneg_left (Real.cos_le_one (u * (Real.pi / 180))) hr
  have k2 := mul_le_mul_of_nonneg_left (Real.neg_one_le_cos (u * (Real.pi / 180))) hr
  have k3 := mul_le_mul_of_nonneg_left (Real.sin_le_one (u * (Real.pi / 180))) hr
  have k4 := mul_le_mul_of_nonneg_left (Real.neg_one_le_sin (u * (Real.pi / 180))) hr
  exact ⟨⟨by simp only; linarith, by simp only; linarith⟩, by simp only; linarith,
    by simp only; linarith⟩

theorem point_fits {x0 x1 y0 y1 a b : ℝ} (h1 : x0 ≤ a ∧ a ≤ x1) (h2 : y0 ≤ b ∧ b ≤ y1) :
    ({(a, b)} : Set (ℝ × ℝ)) ⊆ Set.Icc x0 x1 ×ˢ Set.Icc y0 y1 := by
  rintro _ rfl
  exact ⟨h1, h2⟩

/-! ### Supports -/

theorem ground_fits {x y w : ℝ} (hw : 0 < w) {g : Glyph} (hg : g ∈ ground x y w) :
    Fits (x - w / 2) (x + w / 2) (y - 16 / 100 * w) y g := by
  unfold ground at hg
  rcases List.mem_cons.1 hg with rfl | hg
  · apply line2_fits <;> constructor <;> linarith
  · obtain ⟨xi, hx, rfl⟩ := List.mem_map.1 hg
    obtain ⟨h1, h2⟩ := mem_linspaceN_bounds (by linarith) hx
    apply line2_fits <;> constructor <;> linarith

theorem spring_fits {x sh : ℝ} (hs : 0 < sh) {g : Glyph} (hg : g ∈ spring x sh) :
    Fits (x - 22 / 100 * sh) (x + 22 / 100 * sh) (-(12 / 10) * sh) 0 g := by
  unfold spring at hg
  simp only [List.mem_cons, List.not_mem_nil, or_false] at hg
  rcases hg with rfl | rfl
  · apply line_fits
    intro p hp
    obtain ⟨q, hq, rfl⟩ := List.mem_map.1 hp
    have hq1 : q.1 ∈ linspaceN 0 (-(95 / 100) * sh) 13 :=
      (List.mem_zipIdx' (x := q.1) (i := q.2) hq).2 ▸ List.getElem_mem _
    have hb : -(95 / 100) * sh ≤ q.1 ∧ q.1 ≤ 0 := by
      unfold linspaceN at hq1
      obtain ⟨i, hi, e⟩ := List.mem_map.1 hq1
      rw [List.mem_range] at hi
      have h0 : (0 : ℝ) ≤ (i : ℝ) := Nat.cast_nonneg i
      have h1 : (i : ℝ) ≤ 12 := by exact_mod_cast (by omega : i ≤ 12)
      rw [← e]
      norm_num
      constructor <;> nlinarith
    refine ⟨?_, by linarith [hb.1], hb.2⟩
    simp only
    split
    · constructor <;> linarith
    · split <;> constructor <;> linarith
  · apply line2_fits <;> constructor <;> linarith

theorem rotSpring_fits {x sh : ℝ} (hs : 0 < sh) {g : Glyph} (hg : g ∈ rotSpring x sh) :
    Fits (x - 33 / 100 * sh) (x + 33 / 100 * sh) 0 (81 / 100 * sh) g := by
  unfold rotSpring at hg
  simp only [List.mem_cons, List.not_mem_nil, or_false] at hg
  rcases hg with rfl | rfl
  · apply line2_fits <;> constructor <;> linarith
  · apply line_fits
    intro p hp
    obtain ⟨t, ht, rfl⟩ := List.mem_map.1 hp
    obtain ⟨h1, h2⟩ := mem_linspaceN_bounds (by positivity) ht
    have hpi : (0 : ℝ) < 3 * 2 * Real.pi := by positivity
    have q0 : 0 ≤ t / (3 * 2 * Real.pi) := div_nonneg h1 hpi.le
    have q1 : t / (3 * 2 * Real.pi) ≤ 1 := (div_le_one hpi).2 h2
    simp only
    generalize t / (3 * 2 * Real.pi) = q at q0 q1
    have r0 : 0 ≤ 3 / 100 * sh + 30 / 100 * sh * q := by positivity
    have r1 : 3 / 100 * sh + 30 / 100 * sh * q ≤ 33 / 100 * sh := by nlinarith
    generalize 3 / 100 * sh + 30 / 100 * sh * q = r at r0 r1
    have k1 := mul_le_mul_of_nonneg_left (Real.cos_le_one t) r0
    have k2 := mul_le_mul_of_nonneg_left (Real.neg_one_le_cos t) r0
    have k3 := mul_le_mul_of_nonneg_left (Real.sin_le_one t) r0
    have k4 := mul_le_mul_of_nonneg_left (Real.neg_one_le_sin t) r0
    refine ⟨⟨?_, ?_⟩, ?_, ?_⟩ <;> linarith

theorem pinMarker_fits {x sh : ℝ} (hs : 0 < sh) (e : Bool) :
    Fits (x - 17 / 100 * sh) (x + 17 / 100 * sh) (-(17 / 100) * sh) (17 / 100 * sh) (pinMarker x sh e) := by
  unfold pinMarker
  split
  · apply disc_fits <;> (try dsimp only) <;> linarith
  · apply halfDisc_fits <;> (try dsimp only) <;> linarith

/-- A support symbol reaches 0.75 units to either side, 1.46 units down, and 0.9 units up, or 1.4
for a fixed support. -/
theorem support_fits {s : DrawnSup ℝ} {sh : ℝ} (hs : 0 < sh) {g : Glyph} (hg : g ∈ support s sh) :
    Fits (s.x - 75 / 100 * sh) (s.x + 75 / 100 * sh) (-(146 / 100) * sh)
      (if s.kind = .fixed then 14 / 10 * sh else 9 / 10 * sh) g := by
  have hrot : ∀ c : Bool, g ∈ (if c = true then rotSpring s.x sh else []) →
      Fits (s.x - 75 / 100 * sh) (s.x + 75 / 100 * sh) (-(146 / 100) * sh) (9 / 10 * sh) g := by
    intro c h
    split at h
    · exact (rotSpring_fits hs h).mono (by linarith) (by linarith) (by linarith) (by linarith)
    · cases h
  unfold support at hg
  dsimp only at hg
  have htop : (if (s.atLeft || s.atRight) = true then (0 : ℝ) else -(20 / 100) * sh) ≤ 0 ∧
      -(20 / 100) * sh ≤ (if (s.atLeft || s.atRight) = true then (0 : ℝ) else -(20 / 100) * sh) := by
    split <;> constructor <;> linarith
  generalize (if (s.atLeft || s.atRight) = true then (0 : ℝ) else -(20 / 100) * sh) = top at hg htop
  obtain ⟨t0, t1⟩ := htop
  cases hk : s.kind <;> rw [hk] at hg <;> simp only [reduceCtorEq, if_false, if_true] <;>
    simp only [List.mem_append, List.mem_cons, List.not_mem_nil, or_false] at hg
  · -- fixed
    rcases hg with rfl | hg
    · apply line2_fits <;> constructor <;> linarith
    · obtain ⟨y, hy, rfl⟩ := List.mem_map.1 hg
      obtain ⟨h1, h2⟩ := mem_linspaceN_bounds (by linarith) hy
      apply line2_fits
      · constructor <;> linarith
      · constructor <;> linarith
      · split <;> constructor <;> linarith
      · constructor <;> linarith
  · -- pin
    rcases hg with rfl | (hg | rfl) | hg
    · apply fill3_fits <;> constructor <;> linarith
    · exact (ground_fits (by linarith) hg).mono (by linarith) (by linarith) (by linarith) (by linarith)
    · exact (pinMarker_fits hs _).mono (by linarith) (by linarith) (by linarith) (by linarith)
    · exact hrot _ hg
  · -- roller
    rcases hg with rfl | rfl | rfl | (hg | rfl) | hg
    · apply fill3_fits <;> constructor <;> linarith
    · apply disc_fits <;> (try dsimp only) <;> linarith
    · apply disc_fits <;> (try dsimp only) <;> linarith
    · exact (ground_fits (by linarith) hg).mono (by linarith) (by linarith) (by linarith) (by linarith)
    · exact (pinMarker_fits hs _).mono (by linarith) (by linarith) (by linarith) (by linarith)
    · exact hrot _ hg
  · -- spring
    rcases hg with hg | hg
    · exact (spring_fits hs hg).mono (by linarith) (by linarith) (by linarith) (by linarith)
    · exact (ground_fits (by linarith) hg).mono (by linarith) (by linarith) (by linarith) (by linarith)
  · -- guided
    rcases hg with rfl | rfl | hg
    · apply line2_fits <;> constructor <;> linarith
    · apply line2_fits <;> constructor <;> linarith
    · exact (ground_fits (by linarith) hg).mono (by linarith) (by linarith) (by linarith) (by linarith)
  · -- torsion
    rcases hg with hg | hg
    · exact (spring_fits hs hg).mono (by linarith) (by linarith) (by linarith) (by linarith)
    · exact (ground_fits (by linarith) hg).mono (by linarith) (by linarith) (by linarith) (by linarith)

theorem foundations_fits {nodeX : ℕ → ℝ} {kf : List (Option ℝ)} {sh L : ℝ} (hs : 0 < sh)
    (hx : ∀ i, 0 ≤ nodeX i ∧ nodeX i ≤ nodeX (i + 1) ∧ nodeX (i + 1) ≤ L) {g : Glyph}
    (hg : g ∈ foundations nodeX kf sh) :
    Fits (-(22 / 100) * sh) (L + 22 / 100 * sh) (-(141 / 100) * sh) 0 g := by
  unfold foundations at hg
  obtain ⟨p, -, hp⟩ := List.mem_flatMap.1 hg
  obtain ⟨x0, x1, x2⟩ := hx p.2
  split at hp
  · cases hp
  · simp only [List.mem_append, List.mem_cons] at hp
    rcases hp with hp | rfl | hp
    · obtain ⟨xc, hxc, hp⟩ := List.mem_flatMap.1 hp
      obtain ⟨h1, h2⟩ := mem_linspaceN_bounds x1 hxc
      exact (spring_fits hs hp).mono (by linarith) (by linarith) (by linarith) (by linarith)
    · apply line2_fits <;> constructor <;> linarith
    · obtain ⟨xi, hxi, rfl⟩ := List.mem_map.1 hp
      have hn : (1 : ℝ) ≤ (clipRound ((nodeX (p.2 + 1) - nodeX p.2) / (45 / 100 * sh)) 6 80 : ℕ) := by
        have : 1 ≤ clipRound ((nodeX (p.2 + 1) - nodeX p.2) / (45 / 100 * sh)) 6 80 := by
          unfold clipRound
          omega
        exact_mod_cast this
      have hd := div_le_self (sub_nonneg.2 x1) hn
      have hd0 := div_nonneg (sub_nonneg.2 x1) (by linarith : (0 : ℝ) ≤
        (clipRound ((nodeX (p.2 + 1) - nodeX p.2) / (45 / 100 * sh)) 6 80 : ℕ))
      obtain ⟨h1, h2⟩ := mem_linspaceN_bounds (by linarith) hxi
      apply line2_fits <;> constructor <;> linarith

/-! ### The beam -/

theorem BeamDef.nodeX_range (b : BeamDef ℝ) (hpos : ∀ m ∈ b.members, 0 < m.L) (i : ℕ) :
    0 ≤ b.nodeX i ∧ b.nodeX i ≤ b.nodeX (i + 1) ∧ b.nodeX (i + 1) ≤ b.nodeX b.members.length := by
  have sat : ∀ j, b.members.length ≤ j → b.nodeX j = b.nodeX b.members.length := by
    intro j hj
    unfold BeamDef.nodeX
    rw [List.take_of_length_le hj, List.take_of_length_le le_rfl]
  have h0 : b.nodeX 0 = 0 := by simp [BeamDef.nodeX]
  have mono := b.nodeX_mono hpos
  rcases Nat.lt_or_ge i b.members.length with h | h
  · refine ⟨?_, mono _ _ (Nat.le_succ i) h, mono _ _ h le_rfl⟩
    rw [← h0]
    exact mono _ _ (Nat.zero_le i) h.le
  · rw [sat i h, sat (i + 1) (by omega)]
    refine ⟨?_, le_rfl, le_rfl⟩
    rw [← h0]
    exact mono _ _ (Nat.zero_le _) le_rfl

theorem eiValues_range {b : BeamDef ℝ} (hpos : ∀ m ∈ b.members, 0 < m.L)
    (hEI : ∀ m ∈ b.members, ∀ x, 0 ≤ x → x ≤ m.L → 0 ≤ m.EI.eval x) {p : ℝ × ℝ}
    (hp : p ∈ eiValues b) : (0 ≤ p.1 ∧ p.1 ≤ b.nodeX b.members.length) ∧ 0 ≤ p.2 := by
  unfold eiValues at hp
  obtain ⟨q, hq, hp⟩ := List.mem_flatMap.1 hp
  obtain ⟨hi, hm⟩ := List.mem_zipIdx' (x := q.1) (i := q.2) hq
  have hmem : q.1 ∈ b.members := hm ▸ List.getElem_mem _
  have hL := hpos _ hmem
  obtain ⟨r0, r1, r2⟩ := b.nodeX_range hpos q.2
  have hs : b.nodeX (q.2 + 1) = b.nodeX q.2 + q.1.L := by rw [b.nodeX_succ q.2 hi, hm]
  have hE := hEI _ hmem
  unfold eiStations at hp
  split at hp
  · rename_i s he
    obtain ⟨x, hx, rfl⟩ := List.mem_map.1 hp
    obtain ⟨h1, h2⟩ := mem_linspaceN_bounds hL.le hx
    refine ⟨⟨by simp only; linarith, by simp only; linarith⟩, ?_⟩
    have := hE x h1 h2
    rw [he] at this
    exact this
  · rename_i e he
    have hE0 := hE 0 le_rfl hL.le
    rw [he] at hE0
    simp only [List.mem_cons, List.not_mem_nil, or_false] at hp
    rcases hp with rfl | rfl
    · exact ⟨⟨by simp only; linarith, by simp only; linarith⟩, hE0⟩
    · exact ⟨⟨by simp only; linarith, by simp only; linarith⟩, hE0⟩

theorem le_maxOf {l : List ℝ} {x : ℝ} (h : x ∈ l) : x ≤ maxOf l := mem_le_foldl_max l _ x h

theorem beamGlyphs_fits {b : BeamDef ℝ} {sh : ℝ} (hs : 0 < sh) (hpos : ∀ m ∈ b.members, 0 < m.L)
    (hEI : ∀ m ∈ b.members, ∀ x, 0 ≤ x → x ≤ m.L → 0 ≤ m.EI.eval x) {g : Glyph}
    (hg : g ∈ beamGlyphs b (b.nodeX b.members.length) sh) :
    Fits 0 (b.nodeX b.members.length) (-(6 / 10) * sh) (6 / 10 * sh) g := by
  have hL : 0 ≤ b.nodeX b.members.length := (b.nodeX_range hpos b.members.length).1
  unfold beamGlyphs at hg
  split at hg
  · rename_i prof hprof
    have key : ∀ p ∈ prof, (0 ≤ p.1 ∧ p.1 ≤ b.nodeX b.members.length) ∧ 0 ≤ p.2 ∧ p.2 ≤ 6 / 10 * sh := by
      unfold eiProfile at hprof
      dsimp only at hprof
      split at hprof
      · cases hprof
      · rename_i hc
        push Not at hc
        have := Option.some.inj hprof
        subst this
        intro p hp
        obtain ⟨q, hq, rfl⟩ := List.mem_map.1 hp
        obtain ⟨h1, h2⟩ := eiValues_range hpos hEI hq
        refine ⟨h1, ?_⟩
        have hv : q.2 ≤ maxOf ((eiValues b).map Prod.snd) := le_maxOf (List.mem_map_of_mem hq)
        have d0 : 0 ≤ q.2 / maxOf ((eiValues b).map Prod.snd) := div_nonneg h2 hc.2.1.le
        have d1 : q.2 / maxOf ((eiValues b).map Prod.snd) ≤ 1 := (div_le_one hc.2.1).2 hv
        have p0 := Real.rpow_nonneg d0 (1 / 3)
        have p1 := Real.rpow_le_one d0 d1 (by norm_num : (0 : ℝ) ≤ 1 / 3)
        constructor
        · positivity
        · have := mul_le_mul_of_nonneg_left p1 (by positivity : 0 ≤ 6 / 10 * sh)
          simp only
          linarith
    have hhead : 0 ≤ (prof.map Prod.snd).headD 0 ∧ (prof.map Prod.snd).headD 0 ≤ 6 / 10 * sh := by
      cases prof with
      | nil => simp; positivity
      | cons p ps => exact (key p List.mem_cons_self).2
    have hlast : 0 ≤ (prof.map Prod.snd).getLastD 0 ∧ (prof.map Prod.snd).getLastD 0 ≤ 6 / 10 * sh := by
      rcases List.eq_nil_or_concat prof with h | ⟨ps, p, h⟩
      · rw [h]
        simp
        positivity
      · rw [h]
        simp only [List.concat_eq_append, List.map_append, List.map_cons, List.map_nil,
          List.getLastD_concat]
        refine (key p ?_).2
        rw [h]
        simp
    simp only [List.mem_cons, List.not_mem_nil, or_false] at hg
    rcases hg with rfl | rfl | rfl | rfl | rfl
    · apply fill_fits
      intro p hp
      rw [List.mem_append, List.mem_reverse] at hp
      rcases hp with hp | hp
      · obtain ⟨q, hq, rfl⟩ := List.mem_map.1 hp
        obtain ⟨h1, h2, h3⟩ := key q hq
        exact ⟨h1, by simp only; linarith, by simp only; linarith⟩
      · obtain ⟨q, hq, rfl⟩ := List.mem_map.1 hp
        obtain ⟨h1, h2, h3⟩ := key q hq
        exact ⟨h1, by simp only; linarith, by simp only; linarith⟩
    · apply line_fits
      intro q hq
      obtain ⟨h1, h2, h3⟩ := key q hq
      exact ⟨h1, by linarith, by linarith⟩
    · apply line_fits
      intro p hp
      obtain ⟨q, hq, rfl⟩ := List.mem_map.1 hp
      obtain ⟨h1, h2, h3⟩ := key q hq
      exact ⟨h1, by simp only; linarith, by simp only; linarith⟩
    · apply line2_fits <;> constructor <;> linarith [hhead.1, hhead.2]
    · apply line2_fits <;> constructor <;> linarith [hlast.1, hlast.2]
  · rw [List.mem_singleton] at hg
    subst hg
    apply line2_fits <;> constructor <;> linarith

/-! ### Loads -/

theorem distAt_abs {L wmax : ℝ} {d : DrawnDist ℝ} {x : ℝ} (hx0 : d.x0 ≤ x) (hx1 : x ≤ d.x1) :
    min (distHeight L wmax d.w0) (distHeight L wmax d.w1) ≤ distAt L wmax d x ∧
      distAt L wmax d x ≤ max (distHeight L wmax d.w0) (distHeight L wmax d.w1) := by
  unfold distAt
  split
  · exact ⟨min_le_left _ _, le_max_left _ _⟩
  · rename_i hne
    have hlt : 0 < d.x1 - d.x0 := sub_pos.2 (lt_of_le_of_ne (hx0.trans hx1) (Ne.symm hne))
    have hs0 : 0 ≤ (x - d.x0) / (d.x1 - d.x0) := div_nonneg (by linarith) hlt.le
    have hs1 : (x - d.x0) / (d.x1 - d.x0) ≤ 1 := (div_le_one hlt).2 (by linarith)
    rw [mul_div_assoc]
    generalize (x - d.x0) / (d.x1 - d.x0) = s at hs0 hs1
    generalize distHeight L wmax d.w0 = a
    generalize distHeight L wmax d.w1 = c
    rcases le_total a c with h | h
    · rw [min_eq_left h, max_eq_right h]
      constructor <;> nlinarith
    · rw [min_eq_right h, max_eq_left h]
      constructor <;> nlinarith

theorem dist_fits {L wmax Y0 Y1 : ℝ} (hL : 0 < L) {d : DrawnDist ℝ} (h0 : |d.w0| ≤ wmax)
    (h1 : |d.w1| ≤ wmax) (hx0 : 0 ≤ d.x0) (hx : d.x0 ≤ d.x1) (hx1 : d.x1 ≤ L) (hY0 : Y0 ≤ 0) (hY1 : 7 / 100 * L ≤ Y1)
    (hup : (0 ≤ d.w0 ∨ 0 ≤ d.w1) → 14 / 100 * L ≤ Y1) (hdn : (d.w0 < 0 ∨ d.w1 < 0) → Y0 ≤ -(7 / 100) * L)
    {unit : String} {sv : Bool} {g : Glyph} (hg : g ∈ distGlyphs L wmax unit sv d) :
    Fits 0 L Y0 Y1 g := by
  have a0 := abs_le.1 (distHeight_abs hL h0)
  have a1 := abs_le.1 (distHeight_abs hL h1)
  have s0 := distHeight_sign hL h0
  have s1 := distHeight_sign hL h1
  have lo0 : Y0 ≤ distHeight L wmax d.w0 := by
    by_cases h : d.w0 < 0
    · linarith [hdn (Or.inl h), a0.1]
    · exact hY0.trans (not_lt.1 fun g => h (s0.2.1 g))
  have lo1 : Y0 ≤ distHeight L wmax d.w1 := by
    by_cases h : d.w1 < 0
    · linarith [hdn (Or.inr h), a1.1]
    · exact hY0.trans (not_lt.1 fun g => h (s1.2.1 g))
  have hlab : max (distHeight L wmax d.w0) (distHeight L wmax d.w1) + 25 / 100 * (7 / 100 * L) ≤ Y1 := by
    by_cases h : 0 ≤ d.w0 ∨ 0 ≤ d.w1
    · have := hup h
      have := max_le a0.2 a1.2
      linarith
    · push Not at h
      have n0 := s0.2.2 h.1
      have n1 := s1.2.2 h.2
      have := max_lt n0 n1
      linarith
  have hmax : max (distHeight L wmax d.w0) (distHeight L wmax d.w1) ≤ Y1 := by linarith
  have hmin : Y0 ≤ min (distHeight L wmax d.w0) (distHeight L wmax d.w1) := le_min lo0 lo1
  have up0 := (le_max_left _ _).trans hmax
  have up1 := (le_max_right _ _).trans hmax
  have hz : (0 : ℝ) ≤ Y1 := by linarith
  unfold distGlyphs at hg
  simp only [List.mem_cons, List.mem_append] at hg
  rcases hg with rfl | rfl | hg | hg
  · exact line2_fits ⟨hx0, by linarith⟩ ⟨lo0, up0⟩ ⟨by linarith, hx1⟩ ⟨lo1, up1⟩
  · apply fill_fits
    intro p hp
    simp only [List.mem_cons, List.not_mem_nil, or_false] at hp
    rcases hp with rfl | rfl | rfl | rfl
    · exact ⟨⟨hx0, by simp only; linarith⟩, hY0, hz⟩
    · exact ⟨⟨hx0, by simp only; linarith⟩, lo0, up0⟩
    · exact ⟨⟨by simp only; linarith, hx1⟩, lo1, up1⟩
    · exact ⟨⟨by simp only; linarith, hx1⟩, hY0, hz⟩
  · obtain ⟨x, hxm, rfl⟩ := List.mem_map.1 hg
    obtain ⟨g0, g1⟩ := mem_linspaceN_bounds hx (List.mem_filter.1 hxm).1
    obtain ⟨k0, k1⟩ := distAt_abs (L := L) (wmax := wmax) g0 g1
    exact segment_fits ⟨by simp only; linarith, by simp only; linarith⟩ ⟨hY0, hz⟩
      ⟨by simp only; linarith, by simp only; linarith⟩ ⟨hmin.trans k0, k1.trans hmax⟩
  · split at hg
    · rw [List.mem_singleton] at hg
      subst hg
      exact point_fits ⟨by linarith, by linarith⟩ ⟨by linarith [hmin.trans min_le_max], hlab⟩
    · cases hg

theorem pointGlyphs_fits {L sh pmax Y0 Y1 : ℝ} (hsh : 0 < sh) {p : DrawnPoint ℝ} (hx0 : 0 ≤ p.x)
    (hx1 : p.x ≤ L) (hY0 : Y0 ≤ 0) (hY1 : 0 ≤ Y1) (hlen : 0 < pointLen L pmax p.v)
    (hup : 0 ≤ p.v → pointLen L pmax p.v + sh ≤ Y1) (hdn : p.v < 0 → Y0 ≤ -(pointLen L pmax p.v + sh))
    {unit : String} {sv : Bool} {g : Glyph} (hg : g ∈ point L sh pmax unit sv p) : Fits 0 L Y0 Y1 g := by
  unfold point at hg
  simp only [List.mem_cons] at hg
  by_cases hv : 0 ≤ p.v
  · have := hup hv
    rw [if_pos hv] at hg
    rcases hg with rfl | hg
    · exact segment_fits ⟨hx0, hx1⟩ ⟨hY0, hY1⟩ ⟨hx0, hx1⟩ ⟨by simp only; linarith, by simp only; linarith⟩
    · split at hg
      · rw [List.mem_singleton] at hg
        subst hg
        exact point_fits ⟨hx0, hx1⟩ ⟨by linarith, by linarith⟩
      · cases hg
  · have := hdn (not_le.1 hv)
    rw [if_neg hv] at hg
    rcases hg with rfl | hg
    · exact segment_fits ⟨hx0, hx1⟩ ⟨hY0, hY1⟩ ⟨hx0, hx1⟩ ⟨by simp only; linarith, by simp only; linarith⟩
    · split at hg
      · rw [List.mem_singleton] at hg
        subst hg
        exact point_fits ⟨hx0, hx1⟩ ⟨by linarith, by linarith⟩
      · cases hg

/-- The cosines of the two ends of the arc of a couple. -/
theorem arc_cos (a : ℝ) (ha : a = radians 230 ∨ a = radians (-50)) : |Real.cos a| ≤ 7 / 10 := by
  have h40 : |Real.cos a| = Real.sin (2 * Real.pi / 9) := by
    have hp : 0 ≤ Real.sin (2 * Real.pi / 9) :=
      Real.sin_nonneg_of_nonneg_of_le_pi (by positivity) (by nlinarith [Real.pi_pos])
    rcases ha with rfl | rfl
    · have : radians 230 = (Real.pi / 2 - 2 * Real.pi / 9) + Real.pi := by
        unfold radians
        ring
      rw [this, Real.cos_add_pi, Real.cos_pi_div_two_sub, abs_neg, abs_of_nonneg hp]
    · have : radians (-50) = -(Real.pi / 2 - 2 * Real.pi / 9) := by
        unfold radians
        ring
      rw [this, Real.cos_neg, Real.cos_pi_div_two_sub, abs_of_nonneg hp]
  rw [h40]
  have h1 := Real.sin_le (by positivity : 0 ≤ 2 * Real.pi / 9)
  have h2 := Real.pi_lt_d2
  linarith

theorem momentGlyphs_fits {r sh L Y0 Y1 : ℝ} (hr : 0 < r) (hsh : 0 < sh) {m : DrawnPoint ℝ} (hx0 : 0 ≤ m.x)
    (hx1 : m.x ≤ L) (hY0 : Y0 ≤ -(r + 5 / 10 * sh)) (hY1 : r + 5 / 10 * sh ≤ Y1) (hX : r ≤ 12 / 10 * sh)
    (hX' : 7 / 10 * r + 5 / 10 * sh ≤ 12 / 10 * sh) {unit : String} {sv : Bool} {g : Glyph}
    (hg : g ∈ moment r sh unit sv m) : Fits (-(12 / 10) * sh) (L + 12 / 10 * sh) Y0 Y1 g := by
  unfold moment at hg
  simp only [List.mem_cons] at hg
  have ha : radians (if decide (0 ≤ m.v) = true then (230 : ℝ) else -50) = radians 230 ∨
      radians (if decide (0 ≤ m.v) = true then (230 : ℝ) else -50) = radians (-50) := by
    split
    · exact Or.inl rfl
    · exact Or.inr rfl
  generalize radians (if decide (0 ≤ m.v) = true then (230 : ℝ) else -50) = a at hg ha
  have hc := abs_le.1 (arc_cos a ha)
  have c1 := mul_le_mul_of_nonneg_left hc.1 hr.le
  have c2 := mul_le_mul_of_nonneg_left hc.2 hr.le
  have s1 := mul_le_mul_of_nonneg_left (Real.neg_one_le_sin a) hr.le
  have s2 := mul_le_mul_of_nonneg_left (Real.sin_le_one a) hr.le
  have ub : ∀ u : ℝ, (-(5 / 10 * sh) ≤ 5 / 10 * sh * Real.cos u ∧ 5 / 10 * sh * Real.cos u ≤ 5 / 10 * sh) ∧
      -(5 / 10 * sh) ≤ 5 / 10 * sh * Real.sin u ∧ 5 / 10 * sh * Real.sin u ≤ 5 / 10 * sh := by
    intro u
    have k1 := mul_le_mul_of_nonneg_left (Real.cos_le_one u) (by positivity : 0 ≤ 5 / 10 * sh)
    have k2 := mul_le_mul_of_nonneg_left (Real.neg_one_le_cos u) (by positivity : 0 ≤ 5 / 10 * sh)
    have k3 := mul_le_mul_of_nonneg_left (Real.sin_le_one u) (by positivity : 0 ≤ 5 / 10 * sh)
    have k4 := mul_le_mul_of_nonneg_left (Real.neg_one_le_sin u) (by positivity : 0 ≤ 5 / 10 * sh)
    refine ⟨⟨?_, ?_⟩, ?_, ?_⟩ <;> linarith
  rcases hg with rfl | rfl | rfl | hg
  · apply line2_fits <;> constructor <;> linarith
  · apply arc_fits hr.le <;> simp only <;> linarith
  · apply fill3_fits
    · constructor <;> linarith
    · constructor <;> linarith
    · obtain ⟨⟨u1, u2⟩, -⟩ := ub (a + (if decide (0 ≤ m.v) = true then Real.pi / 2 else -(Real.pi / 2)) + Real.pi + radians 22)
      constructor <;> linarith
    · obtain ⟨-, u1, u2⟩ := ub (a + (if decide (0 ≤ m.v) = true then Real.pi / 2 else -(Real.pi / 2)) + Real.pi + radians 22)
      constructor <;> linarith
    · obtain ⟨⟨u1, u2⟩, -⟩ := ub (a + (if decide (0 ≤ m.v) = true then Real.pi / 2 else -(Real.pi / 2)) + Real.pi - radians 22)
      constructor <;> linarith
    · obtain ⟨-, u1, u2⟩ := ub (a + (if decide (0 ≤ m.v) = true then Real.pi / 2 else -(Real.pi / 2)) + Real.pi - radians 22)
      constructor <;> linarith
  · split at hg
    · rw [List.mem_singleton] at hg
      subst hg
      exact point_fits ⟨by linarith, by linarith⟩ ⟨by linarith, by linarith⟩
    · cases hg

/-! ### C126 -/

theorem inferSupports_mem {b : BeamDef ℝ} {ss : List (DrawnSup ℝ)} (h : inferSupports b = .ok ss) :
    (∀ s ∈ ss, s.x = b.nodeX s.node ∧ (s.kind = .fixed →
      s.node ≤ b.members.length ∧ b.restraints.getD (2 * s.node) 0 = -1 ∧
      b.restraints.getD (2 * s.node + 1) 0 = -1)) ∧
    ∀ j ≤ b.members.length, b.restraints.getD (2 * j) 0 = -1 → b.restraints.getD (2 * j + 1) 0 = -1 →
      ∃ s ∈ ss, s.kind = .fixed := by
  unfold inferSupports at h
  dsimp only at h
  split at h
  · cases h
  · have h := (Except.ok.inj h).symm
    subst h
    constructor
    · intro s hs
      obtain ⟨-, h2, h3, -⟩ := supLoop_mem _ _ _ _ _ _ s hs
      refine ⟨h3, fun hk => ⟨by omega, ?_⟩⟩
      exact supLoop_fixed_conv _ _ _ _ _ _ s hs hk
    · intro j hj h1 h2
      exact supLoop_fixed _ _ _ _ _ _ j (Nat.zero_le _) (by omega) h1 h2

set_option maxHeartbeats 1000000 in
/-- **C126**: with supports shown, positive lengths and rigidities, all loads on the beam and a
length of at least `1e-10`, everything drawn lies within the axes, provided that there is some
load or no support is fixed.  Otherwise: `C126_fixed_violation`, `C126_bare_violation`,
`C126_haunch_violation`, `C126_overhang_violation`. -/
theorem C126_view_partial {b : BeamDef ℝ} {LM : List (Row ℝ)} {kf : List (Option ℝ)}
    {us : UnitSystem} {o : MplOpts} {ax : Axes} {t : DrawnLoads ℝ}
    (h : renderMpl b LM kf us o = .ok ax) (ht : inferLoads { b with LM := LM } = .ok t)
    (hsup : o.showSupports = true) (hpos : ∀ m ∈ b.members, 0 < m.L)
    (hEI : ∀ m ∈ b.members, ∀ x, 0 ≤ x → x ≤ m.L → 0 ≤ m.EI.eval x)
    (hlong : 1 / 10 ^ 10 ≤ b.nodeX b.members.length)
    (hd : ∀ d ∈ t.dist, 0 ≤ d.x0 ∧ d.x0 ≤ d.x1 ∧ d.x1 ≤ b.nodeX b.members.length)
    (hp : ∀ p ∈ t.points, 0 ≤ p.x ∧ p.x ≤ b.nodeX b.members.length)
    (hm : ∀ p ∈ t.moments, 0 ≤ p.x ∧ p.x ≤ b.nodeX b.members.length)
    (hfix : (t.points ≠ [] ∨ t.dist ≠ [] ∨ t.moments ≠ []) ∨
      ∀ j ≤ b.members.length, ¬ (b.restraints.getD (2 * j) 0 = -1 ∧ b.restraints.getD (2 * j + 1) 0 = -1)) :
    ∀ g ∈ ax.glyphs, g.ink ⊆ ax.view := by
  obtain ⟨ss, t', part, hss, ht', hL, hpart, -, rfl⟩ := renderMpl_ok h
  obtain rfl : t' = t := Except.ok.inj (ht'.symm.trans ht)
  obtain ⟨hsx, -⟩ := inferSupports_mem hss
  set L := b.nodeX b.members.length with hLdef
  set pmax := (t'.points.map fun p => |p.v|).foldl max 0 with hpmax
  set wmax := (t'.dist.map fun d => max |d.w0| |d.w1|).foldl max 0 with hwmax
  set above := (roomAbove L pmax t').foldl max 0 with habove
  set below := (roomBelow L pmax t').foldl max 0 with hbelow
  have a0 : 0 ≤ above := foldl_max_ge _ _
  have b0 : 0 ≤ below := foldl_max_ge _ _
  -- the limits
  obtain ⟨Y0, hY0⟩ : ∃ Y, Y = (mplAxes b kf us o ss t' part).ylo := ⟨_, rfl⟩
  obtain ⟨Y1, hY1⟩ : ∃ Y, Y = (mplAxes b kf us o ss t' part).yhi := ⟨_, rfl⟩
  have y0base : Y0 ≤ if o.dimensions = true then -3 * (5 / 100 * L)
      else if o.loadValues = true ∧ part ≠ [] then -(22 / 10) * (5 / 100 * L)
      else -(16 / 10) * (5 / 100 * L) := by
    rw [hY0]
    unfold mplAxes
    dsimp only
    simp only [hsup, not_true_eq_false, if_false, Bool.not_true, Bool.false_eq_true]
    split
    · exact min_le_left _ _
    · exact le_rfl
  have y0dim : o.dimensions = true → Y0 ≤ -3 * (5 / 100 * L) := by
    intro hdim
    rwa [if_pos hdim] at y0base
  have y0ext : o.loadValues = true → part ≠ [] → Y0 ≤ -(22 / 10) * (5 / 100 * L) := by
    intro hlv hne
    rw [if_pos (⟨hlv, hne⟩ : o.loadValues = true ∧ part ≠ [])] at y0base
    split at y0base <;> linarith
  have y0le : Y0 ≤ -(16 / 10) * (5 / 100 * L) := by
    split at y0base
    · linarith
    · split at y0base <;> linarith
  have y0low : ∀ v ∈ roomBelow L pmax t', 1 / 10 ^ 12 < v → Y0 ≤ -(v + 14 / 10 * (5 / 100 * L)) := by
    intro v hv hbig
    have hvb : v ≤ below := mem_le_foldl_max _ _ _ hv
    rw [hY0]
    unfold mplAxes
    dsimp only
    rw [← hLdef, ← hpmax, ← hbelow, if_pos (lt_of_lt_of_le hbig hvb)]
    refine (min_le_right _ _).trans ?_
    linarith
  have y1ge : 9 / 10 * (5 / 100 * L) ≤ Y1 := by
    rw [hY1]
    unfold mplAxes
    dsimp only
    rw [← hLdef, ← hpmax, ← habove]
    split <;> linarith
  have y1any : (t'.points ≠ [] ∨ t'.dist ≠ [] ∨ t'.moments ≠ []) → above + 14 / 10 * (5 / 100 * L) ≤ Y1 := by
    intro hany
    rw [hY1]
    unfold mplAxes
    dsimp only
    rw [if_pos hany]
  have y1up : ∀ v ∈ roomAbove L pmax t', (t'.points ≠ [] ∨ t'.dist ≠ [] ∨ t'.moments ≠ []) →
      v + 14 / 10 * (5 / 100 * L) ≤ Y1 := by
    intro v hv hany
    have : v ≤ above := mem_le_foldl_max _ _ _ hv
    linarith [y1any hany]
  have hx0 : (mplAxes b kf us o ss t' part).xlo = -(6 / 100) * L := rfl
  have hx1 : (mplAxes b kf us o ss t' part).xhi = 106 / 100 * L := rfl
  have hsh : 0 < 5 / 100 * L := by positivity
  intro g hg
  have goal : Fits (-(6 / 100) * L) (106 / 100 * L) Y0 Y1 g → g.ink ⊆ (mplAxes b kf us o ss t' part).view := by
    intro hf
    unfold Axes.view
    rw [hx0, hx1, ← hY0, ← hY1]
    exact hf
  apply goal
  unfold mplAxes at hg
  simp only [List.mem_append] at hg
  rcases hg with ((((((hg | hg) | hg) | hg) | hg) | hg) | hg) | hg
  · exact (beamGlyphs_fits hsh hpos hEI hg).mono (by linarith) (by linarith) (by linarith) (by linarith)
  · rw [if_pos hsup] at hg
    simp only [List.mem_append] at hg
    rcases hg with (hg | hg) | hg
    · exact (foundations_fits hsh (b.nodeX_range hpos) hg).mono (by linarith) (by linarith) (by linarith)
        (by linarith)
    · obtain ⟨s, hs, hg⟩ := List.mem_flatMap.1 hg
      obtain ⟨e1, e2⟩ := hsx s hs
      obtain ⟨r0, r1, r2⟩ := b.nodeX_range hpos s.node
      rw [← hLdef] at r2
      refine (support_fits hsh hg).mono (by rw [e1]; linarith) (by rw [e1]; linarith) (by linarith) ?_
      split
      · rename_i hk
        obtain ⟨n1, n2⟩ := e2 hk
        rcases hfix with hany | hno
        · linarith [y1any hany]
        · exact absurd n2 (hno _ n1)
      · exact y1ge
    · obtain ⟨i, -, rfl⟩ := List.mem_map.1 hg
      obtain ⟨r0, r1, r2⟩ := b.nodeX_range hpos i
      rw [← hLdef] at r2
      unfold hinge
      apply disc_fits <;> (try dsimp only) <;> linarith
  · obtain ⟨d, hdm, hg⟩ := List.mem_flatMap.1 hg
    obtain ⟨d0, d1, d2⟩ := hd d hdm
    have hany : t'.points ≠ [] ∨ t'.dist ≠ [] ∨ t'.moments ≠ [] :=
      Or.inr (Or.inl (List.ne_nil_of_mem hdm))
    refine (dist_fits (Y0 := Y0) (Y1 := Y1) hL (wmax_ge hdm).1 (wmax_ge hdm).2 d0 d1 d2 (by linarith)
      (by linarith [y1any hany]) ?_ ?_ hg).mono (by linarith) (by linarith) le_rfl le_rfl
    · intro hw
      have : 7 / 100 * L ∈ roomAbove L pmax t' := by
        unfold roomAbove
        refine List.mem_cons_of_mem _ (List.mem_append_left _ (List.mem_append_right _ ?_))
        exact List.mem_map.2 ⟨d, List.mem_filter.2 ⟨hdm, decide_eq_true hw⟩, rfl⟩
      linarith [y1up _ this hany]
    · intro hw
      linarith
  · obtain ⟨p, hpm, hg⟩ := List.mem_flatMap.1 hg
    obtain ⟨d0, d1⟩ := hp p hpm
    have hany : t'.points ≠ [] ∨ t'.dist ≠ [] ∨ t'.moments ≠ [] := Or.inl (List.ne_nil_of_mem hpm)
    have hlen := pointLen_pos hL (pmax_ge hpm)
    refine (pointGlyphs_fits (Y0 := Y0) (Y1 := Y1) hsh d0 d1 (by linarith) (by linarith) hlen ?_ ?_ hg).mono
      (by linarith) (by linarith) le_rfl le_rfl
    · intro hv
      have : pointLen L pmax p.v ∈ roomAbove L pmax t' := by
        unfold roomAbove
        refine List.mem_cons_of_mem _ (List.mem_append_left _ (List.mem_append_left _ ?_))
        exact List.mem_map.2 ⟨p, List.mem_filter.2 ⟨hpm, decide_eq_true hv⟩, rfl⟩
      linarith [y1up _ this hany]
    · intro hv
      have hmem : pointLen L pmax p.v ∈ roomBelow L pmax t' := by
        unfold roomBelow
        refine List.mem_cons_of_mem _ (List.mem_append_left _ (List.mem_append_left _ ?_))
        exact List.mem_map.2 ⟨p, List.mem_filter.2 ⟨hpm, decide_eq_true (not_le.2 hv)⟩, rfl⟩
      have hbig : 1 / 10 ^ 12 < pointLen L pmax p.v := by
        unfold pointLen
        have hpp : 0 < pmax := lt_of_lt_of_le (abs_pos.2 hv.ne) (pmax_ge hpm)
        rw [if_pos hpp.ne']
        have q0 : 0 ≤ 45 / 100 * |p.v| / pmax := by positivity
        nlinarith [mul_nonneg hL.le q0]
      linarith [y0low _ hmem hbig]
  · obtain ⟨m, hmm, hg⟩ := List.mem_flatMap.1 hg
    obtain ⟨d0, d1⟩ := hm m hmm
    have hany : t'.points ≠ [] ∨ t'.dist ≠ [] ∨ t'.moments ≠ [] :=
      Or.inr (Or.inr (List.ne_nil_of_mem hmm))
    have hu : 45 / 1000 * L ∈ roomAbove L pmax t' := by
      unfold roomAbove
      exact List.mem_cons_of_mem _ (List.mem_append_right _ (List.mem_map.2 ⟨m, hmm, rfl⟩))
    have hl : 45 / 1000 * L ∈ roomBelow L pmax t' := by
      unfold roomBelow
      exact List.mem_cons_of_mem _ (List.mem_append_right _ (List.mem_map.2 ⟨m, hmm, rfl⟩))
    have k1 := y1up _ hu hany
    have k2 := y0low _ hl (by linarith)
    refine (momentGlyphs_fits (Y0 := Y0) (Y1 := Y1) (by positivity) hsh d0 d1 (by linarith) (by linarith)
      (by linarith) (by linarith) hg).mono (by linarith) (by linarith) le_rfl le_rfl
  · split at hg
    · obtain ⟨s, hs, rfl⟩ := List.mem_map.1 hg
      obtain ⟨e1, -⟩ := hsx s hs
      obtain ⟨r0, r1, r2⟩ := b.nodeX_range hpos s.node
      rw [← hLdef] at r2
      refine point_fits ?_ ⟨by linarith, by linarith⟩
      rw [e1]
      split <;> constructor <;> linarith
    · cases hg
  · split at hg
    · rename_i hdim
      obtain ⟨i, -, hg⟩ := List.mem_flatMap.1 hg
      obtain ⟨r0, r1, r2⟩ := b.nodeX_range hpos i
      rw [← hLdef] at r2
      have := y0dim hdim
      unfold dimension at hg
      simp only [List.mem_cons, List.not_mem_nil, or_false] at hg
      rcases hg with rfl | rfl | rfl | rfl
      · apply segment_fits <;> (try dsimp only) <;> constructor <;> linarith
      · apply line2_fits <;> constructor <;> linarith
      · apply line2_fits <;> constructor <;> linarith
      · apply point_fits <;> constructor <;> linarith
    · cases hg
  · split at hg
    · rename_i hlv
      obtain ⟨d, hdp, hg⟩ := List.mem_flatMap.1 hg
      obtain ⟨d0, d1, d2⟩ := hd d (hpart d hdp)
      have := y0ext hlv (List.ne_nil_of_mem hdp)
      unfold extent at hg
      simp only [List.mem_cons, List.not_mem_nil, or_false] at hg
      rcases hg with rfl | rfl | rfl | rfl
      · apply segment_fits <;> (try dsimp only) <;> constructor <;> linarith
      · apply line2_fits <;> constructor <;> linarith
      · apply line2_fits <;> constructor <;> linarith
      · apply point_fits <;> constructor <;> linarith
    · cases hg

end PyCBA
