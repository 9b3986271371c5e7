import Verif.Render.MplClip
import Verif.Bridge.Loads
import Verif.Exact.Report

/-!
C127: the drawing of the reactions; C128: the rounding of their labels.
-/

set_option linter.unusedSectionVars false
set_option linter.unusedSimpArgs false

namespace PyCBA

open Mpl

/-! ### C128 -/

theorem decade {v : ℝ} (hv : v ≠ 0) :
    (10 : ℝ) ^ ⌊Real.logb 10 |v|⌋ ≤ |v| ∧ |v| < (10 : ℝ) ^ (⌊Real.logb 10 |v|⌋ + 1) := by
  have ha : 0 < |v| := abs_pos.2 hv
  have hlog : (10 : ℝ) ^ Real.logb 10 |v| = |v| := Real.rpow_logb (by norm_num) (by norm_num) ha
  constructor
  · have := Real.rpow_le_rpow_of_exponent_le (by norm_num : (1 : ℝ) ≤ 10) (Int.floor_le (Real.logb 10 |v|))
    rwa [hlog, Real.rpow_intCast] at this
  · have := Real.rpow_lt_rpow_of_exponent_lt (by norm_num : (1 : ℝ) < 10) (Int.lt_floor_add_one (Real.logb 10 |v|))
    rw [hlog] at this
    have e : ((⌊Real.logb 10 |v|⌋ : ℝ) + 1) = ((⌊Real.logb 10 |v|⌋ + 1 : ℤ) : ℝ) := by push_cast; rfl
    rwa [e, Real.rpow_intCast] at this

/-- **C128**: a rounded number is within a 2000th of the number, keeps its sign, and is an integer of
at most four digits times a power of ten, or ten thousand times it. -/
theorem C128_round (v : ℝ) :
    |roundSig v - v| ≤ |v| / 2000 ∧ (0 < v → 0 < roundSig v) ∧ (v < 0 → roundSig v < 0) ∧
      (v = 0 → roundSig v = 0) ∧
      ∃ (n k : ℤ), roundSig v = n * (10 : ℝ) ^ k ∧ |n| ≤ 10000 ∧ (v ≠ 0 → 1000 ≤ |n|) := by
  by_cases hv : v = 0
  · subst hv
    have : roundSig 0 = 0 := by unfold roundSig; rw [if_pos rfl]
    rw [this]
    refine ⟨by simp, fun h => absurd h (lt_irrefl _), fun h => absurd h (lt_irrefl _), fun _ => rfl, 0, 0, by simp, by simp, by simp⟩
  obtain ⟨h1, h2⟩ := decade hv
  set e := ⌊Real.logb 10 |v|⌋ with he
  have hr : roundSig v = pyRound (v * (10 : ℝ) ^ (-e + 3)) / (10 : ℝ) ^ (-e + 3) := by
    unfold roundSig
    rw [if_neg hv]
  have hT : (0 : ℝ) < (10 : ℝ) ^ (-e + 3) := by positivity
  have hT1 : (10 : ℝ) ^ e * (10 : ℝ) ^ (-e + 3) = 1000 := by
    rw [← zpow_add₀ (by norm_num)]
    norm_num
  have hT2 : (10 : ℝ) ^ (e + 1) * (10 : ℝ) ^ (-e + 3) = 10000 := by
    rw [← zpow_add₀ (by norm_num)]
    have : e + 1 + (-e + 3) = 4 := by ring
    rw [this]
    norm_num
  set T := (10 : ℝ) ^ (-e + 3) with hTdef
  set n := pyRound (v * T) with hn
  have hnear : |(n : ℝ) - v * T| ≤ 1 / 2 := pyRound_near _
  obtain ⟨c1, c2⟩ := abs_le.1 hnear
  have lo : 1000 ≤ |v| * T := by rw [← hT1]; exact mul_le_mul_of_nonneg_right h1 hT.le
  have hi : |v| * T < 10000 := by rw [← hT2]; exact mul_lt_mul_of_pos_right h2 hT
  rw [hr]
  refine ⟨?_, ?_, ?_, fun h => absurd h hv, n, e - 3, ?_, ?_, ?_⟩
  · have e1 : (n : ℝ) / T - v = (n - v * T) / T := by field_simp
    rw [e1, abs_div, abs_of_pos hT, div_le_iff₀ hT]
    linarith
  · intro hp
    rw [abs_of_pos hp] at lo
    exact div_pos (by linarith) hT
  · intro hp
    rw [abs_of_neg hp] at lo
    exact div_neg_of_neg_of_pos (by linarith) hT
  · rw [div_eq_mul_inv, hTdef, ← zpow_neg]
    congr 2
    ring
  · rcases lt_or_gt_of_ne hv with hneg | hp
    · rw [abs_of_neg hneg] at hi lo
      have a1 : ((-10001 : ℤ) : ℝ) < n := by push_cast; linarith
      have a2 : (n : ℝ) < ((0 : ℤ) : ℝ) := by push_cast; linarith
      have a1 := Int.cast_lt.1 a1
      have a2 := Int.cast_lt.1 a2
      rw [abs_of_neg a2]
      omega
    · rw [abs_of_pos hp] at hi lo
      have a1 : (n : ℝ) < ((10001 : ℤ) : ℝ) := by push_cast; linarith
      have a2 : ((0 : ℤ) : ℝ) < n := by push_cast; linarith
      have a1 := Int.cast_lt.1 a1
      have a2 := Int.cast_lt.1 a2
      rw [abs_of_pos a2]
      omega
  · intro _
    rcases lt_or_gt_of_ne hv with hneg | hp
    · rw [abs_of_neg hneg] at lo
      have a1 : (n : ℝ) < ((-999 : ℤ) : ℝ) := by push_cast; linarith
      have a1 := Int.cast_lt.1 a1
      rw [abs_of_neg (by omega)]
      omega
    · rw [abs_of_pos hp] at lo
      have a1 : ((999 : ℤ) : ℝ) < n := by push_cast; linarith
      have a1 := Int.cast_lt.1 a1
      rw [abs_of_pos (by omega)]
      omega

/-! ### C127 -/

/-- A drawing without loads contains no arrows. -/
theorem bare_no_arrow {b : BeamDef ℝ} {kf : List (Option ℝ)} {us : UnitSystem} {ax : Axes}
    (h : renderMpl b [] kf us {} = .ok ax) (p q : ℝ × ℝ) : Glyph.arrow p q ∉ ax.glyphs := by
  obtain ⟨-, -, -, ss, -, rfl⟩ := mplAxes_bare h
  intro hg
  unfold mplAxes at hg
  simp only [List.mem_append] at hg
  rcases hg with ((((((hg | hg) | hg) | hg) | hg) | hg) | hg) | hg
  · unfold beamGlyphs at hg
    split at hg <;> simp at hg
  · rw [if_pos trivial] at hg
    simp only [List.mem_append] at hg
    rcases hg with (hg | hg) | hg
    · unfold foundations at hg
      obtain ⟨a, -, hg⟩ := List.mem_flatMap.1 hg
      split at hg
      · cases hg
      · simp [ground, spring] at hg
    · obtain ⟨s, -, hg⟩ := List.mem_flatMap.1 hg
      unfold support at hg
      split at hg <;> simp [ground, spring, rotSpring, pinMarker] at hg <;> split at hg <;> cases hg
    · simp [hinge] at hg
  all_goals simp at hg

theorem plotReactions_ok {b : BeamDef ℝ} {kf : List (Option ℝ)} {us : UnitSystem} {res : Result ℝ}
    {ax : Axes} (h : plotReactions b kf us res = .ok ax) :
    ∃ ax0 d, renderMpl b [] kf us {} = .ok ax0 ∧ reactionsByNode b.restraints res = .ok d ∧
      ax = renderReactions b us ax0 d.1 d.2 true := by
  unfold plotReactions at h
  split at h
  · cases h
  · rename_i ax0 h1
    split at h
    · cases h
    · rename_i d h2
      exact ⟨ax0, d, h1, h2, (Except.ok.inj h).symm⟩

/-- **C127**: on the drawing of the reactions, the arrows are exactly those of the forces that the
supports exert on the beam and that exceed `1e-6`, each below its node, pointing up if the force acts
upwards and down otherwise, longer for greater forces, labelled with the force to four figures, and
within the axes. -/
theorem C127_forces_partial (b : BeamDef ℝ) (stable : System ℝ → Bool) (solve : Solver ℝ)
    (hs : solve.Sound) (res : Result ℝ) (h : b.analyze stable solve = .ok res)
    (hlen : b.restraints.length = 2 * b.members.length + 2)
    (hpr : ∀ p, b.presc.getD p none ≠ none → b.restraints.getD p 0 < 0)
    (hpos : ∀ m ∈ b.members, 0 < m.L) {kf : List (Option ℝ)} {us : UnitSystem} {ax : Axes}
    (hax : plotReactions b kf us res = .ok ax) :
    ∃ (y0 : ℝ) (len : ℝ → ℝ), 0 < y0 ∧
      (∀ p q, Glyph.arrow p q ∈ ax.glyphs ↔ ∃ j ≤ b.members.length, 1 / 10 ^ 6 < |b.nodeForce res j 0| ∧
        (0 ≤ b.nodeForce res j 0 → p = (b.nodeX j, -y0) ∧
          q = (b.nodeX j, -y0 - len |b.nodeForce res j 0|)) ∧
        (b.nodeForce res j 0 < 0 → p = (b.nodeX j, -y0 - len |b.nodeForce res j 0|) ∧
          q = (b.nodeX j, -y0))) ∧
      (∀ f, 0 ≤ f → 0 < len f) ∧
      (∀ i ≤ b.members.length, ∀ j ≤ b.members.length, 1 / 10 ^ 6 < |b.nodeForce res j 0| →
        |b.nodeForce res i 0| < |b.nodeForce res j 0| →
        len |b.nodeForce res i 0| < len |b.nodeForce res j 0|) ∧
      (∀ p q, Glyph.arrow p q ∈ ax.glyphs → (Glyph.arrow p q).ink ⊆ ax.view) ∧
      ∀ j ≤ b.members.length, 1 / 10 ^ 6 < |b.nodeForce res j 0| →
        ∃ y r, Glyph.text (b.nodeX j, y) [r] us.force ∈ ax.glyphs ∧ (b.nodeX j, y) ∈ ax.view ∧
          |r - (|b.nodeForce res j 0|)| ≤ |b.nodeForce res j 0| / 2000 := by
  obtain ⟨ax0, d, h0, hd, rfl⟩ := plotReactions_ok hax
  obtain ⟨vert, mom, hd', hv, -, -⟩ := C97_nodes_partial b stable solve hs res h hlen hpr
  obtain rfl : d = (vert, mom) := Except.ok.inj (hd.symm.trans hd')
  obtain ⟨hL, hyhi, -, ss, -, hax0⟩ := mplAxes_bare h0
  have hx0 : ax0.xlo = -(6 / 100) * b.nodeX b.members.length := by rw [hax0]; rfl
  have hx1 : ax0.xhi = 106 / 100 * b.nodeX b.members.length := by rw [hax0]; rfl
  set L := b.nodeX b.members.length with hLdef
  have hsh : 0 < 5 / 100 * L := by positivity
  set fv := (vert.map fun p => |p.2|).foldl max 0 with hfv
  have fv0 : 0 ≤ fv := foldl_max_ge _ _
  have hlp : ∀ f, 0 ≤ f → 22 / 10 * (5 / 100 * L) ≤ reactLen (5 / 100 * L) fv f := by
    intro f hf
    unfold reactLen
    have : 0 ≤ (if fv ≠ 0 then |f| / fv else 1 : ℝ) := by
      split
      · positivity
      · norm_num
    nlinarith
  have habs : ∀ v, reactLen (5 / 100 * L) fv |v| = reactLen (5 / 100 * L) fv v := by
    intro v
    unfold reactLen
    rw [abs_abs]
  set lmax := (vert.map fun p => reactLen (5 / 100 * L) fv p.2).foldl max (22 / 10 * (5 / 100 * L)) with hlm
  have hglyphs : (renderReactions b us ax0 vert mom true).glyphs = ax0.glyphs
      ++ vert.flatMap (fun p => reactGlyphs (b.nodeX p.1) (5 / 100 * L) fv p.2 us.force true)
      ++ mom.flatMap fun p => moment (12 / 10 * (5 / 100 * L)) (5 / 100 * L) us.moment true
        ⟨0, b.nodeX p.1, roundSig p.2⟩ := rfl
  have hylo : (renderReactions b us ax0 vert mom true).ylo ≤ -(17 / 10 * (5 / 100 * L) + lmax + 1 * (5 / 100 * L)) := by
    unfold renderReactions
    dsimp only
    rw [← hLdef, ← hfv, ← hlm]
    split
    · exact le_rfl
    · rename_i hn; exact not_lt.1 hn
  have hlmax : ∀ p ∈ vert, reactLen (5 / 100 * L) fv p.2 ≤ lmax := by
    intro p hp
    exact mem_le_foldl_max _ _ _ (List.mem_map.2 ⟨p, hp, rfl⟩)
  have hview : ∀ j y, j ≤ b.members.length →
      -(17 / 10 * (5 / 100 * L) + lmax + 1 * (5 / 100 * L)) ≤ y → y ≤ 0 →
      (b.nodeX j, y) ∈ (renderReactions b us ax0 vert mom true).view := by
    intro j y hj h1 h2
    obtain ⟨r0, r1, r2⟩ := b.nodeX_range hpos j
    rw [← hLdef] at r2
    refine ⟨⟨?_, ?_⟩, hylo.trans h1, ?_⟩
    · show ax0.xlo ≤ _
      rw [hx0]; dsimp only; linarith
    · show _ ≤ ax0.xhi
      rw [hx1]; dsimp only; linarith
    · show _ ≤ ax0.yhi
      rw [hyhi]; dsimp only; linarith
  have harrow : ∀ p q, Glyph.arrow p q ∈ (renderReactions b us ax0 vert mom true).glyphs ↔
      ∃ j ≤ b.members.length, 1 / 10 ^ 6 < |b.nodeForce res j 0| ∧
        (0 ≤ b.nodeForce res j 0 → p = (b.nodeX j, -(17 / 10 * (5 / 100 * L))) ∧
          q = (b.nodeX j, -(17 / 10 * (5 / 100 * L)) - reactLen (5 / 100 * L) fv |b.nodeForce res j 0|)) ∧
        (b.nodeForce res j 0 < 0 →
          p = (b.nodeX j, -(17 / 10 * (5 / 100 * L)) - reactLen (5 / 100 * L) fv |b.nodeForce res j 0|) ∧
          q = (b.nodeX j, -(17 / 10 * (5 / 100 * L)))) := by
    intro p q
    rw [hglyphs]
    simp only [List.mem_append]
    constructor
    · rintro ((hg | hg) | hg)
      · exact absurd hg (bare_no_arrow h0 p q)
      · obtain ⟨⟨j, v⟩, hjv, hg⟩ := List.mem_flatMap.1 hg
        obtain ⟨hj, rfl, hbig⟩ := (hv j v).1 hjv
        refine ⟨j, hj, hbig, ?_⟩
        unfold reactGlyphs at hg
        dsimp only at hg
        rw [if_pos rfl] at hg
        simp only [List.mem_cons, List.not_mem_nil, or_false, reduceCtorEq] at hg
        rw [habs]
        split at hg
        · rename_i hn
          obtain ⟨rfl, rfl⟩ := Glyph.arrow.inj hg
          exact ⟨fun _ => ⟨rfl, rfl⟩, fun hneg => absurd hn (not_le.2 hneg)⟩
        · rename_i hn
          obtain ⟨rfl, rfl⟩ := Glyph.arrow.inj hg
          exact ⟨fun hn' => absurd hn' hn, fun _ => ⟨rfl, rfl⟩⟩
      · obtain ⟨m, -, hg⟩ := List.mem_flatMap.1 hg
        simp [moment] at hg
    · rintro ⟨j, hj, hbig, hup, hdn⟩
      refine Or.inl (Or.inr (List.mem_flatMap.2 ⟨(j, b.nodeForce res j 0), (hv j _).2 ⟨hj, rfl, hbig⟩, ?_⟩))
      unfold reactGlyphs
      dsimp only
      rw [habs] at hup hdn
      by_cases hn : 0 ≤ b.nodeForce res j 0
      · obtain ⟨rfl, rfl⟩ := hup hn
        rw [if_pos hn]
        exact List.mem_cons_self
      · obtain ⟨rfl, rfl⟩ := hdn (not_le.1 hn)
        rw [if_neg hn]
        exact List.mem_cons_self
  refine ⟨17 / 10 * (5 / 100 * L), reactLen (5 / 100 * L) fv, by positivity, harrow, ?_, ?_, ?_, ?_⟩
  · intro f hf
    linarith [hlp f hf]
  · intro i hi j hj hbig hlt
    have hmem := (hv j (b.nodeForce res j 0)).2 ⟨hj, rfl, hbig⟩
    have hle : |b.nodeForce res j 0| ≤ fv := mem_le_foldl_max _ _ _ (List.mem_map.2 ⟨_, hmem, rfl⟩)
    have hfp : 0 < fv := lt_of_lt_of_le (lt_of_le_of_lt (abs_nonneg _) hlt) hle
    unfold reactLen
    rw [if_pos hfp.ne', if_pos hfp.ne', abs_abs, abs_abs]
    have := div_lt_div_of_pos_right hlt hfp
    nlinarith
  · intro p q hg
    obtain ⟨j, hj, hbig, hup, hdn⟩ := (harrow p q).1 hg
    have hmem := (hv j (b.nodeForce res j 0)).2 ⟨hj, rfl, hbig⟩
    have hle := hlmax _ hmem
    have hp := hlp _ (abs_nonneg (b.nodeForce res j 0))
    rw [habs] at hup hdn hp
    dsimp only at hle
    have v1 := hview j (-(17 / 10 * (5 / 100 * L))) hj (by linarith) (by linarith)
    have v2 := hview j (-(17 / 10 * (5 / 100 * L)) - reactLen (5 / 100 * L) fv (b.nodeForce res j 0)) hj
      (by linarith) (by linarith)
    have hconv : Convex ℝ (renderReactions b us ax0 vert mom true).view :=
      (convex_Icc _ _).prod (convex_Icc _ _)
    by_cases hn : 0 ≤ b.nodeForce res j 0
    · obtain ⟨rfl, rfl⟩ := hup hn
      exact hconv.segment_subset v1 v2
    · obtain ⟨rfl, rfl⟩ := hdn (not_le.1 hn)
      exact hconv.segment_subset v2 v1
  · intro j hj hbig
    have hmem := (hv j (b.nodeForce res j 0)).2 ⟨hj, rfl, hbig⟩
    have hle := hlmax _ hmem
    have hp := hlp _ (abs_nonneg (b.nodeForce res j 0))
    rw [habs] at hp
    dsimp only at hle
    refine ⟨-(17 / 10 * (5 / 100 * L)) - reactLen (5 / 100 * L) fv (b.nodeForce res j 0) - 3 / 10 * (5 / 100 * L),
      roundSig |b.nodeForce res j 0|, ?_, hview j _ hj (by linarith) (by linarith), ?_⟩
    · rw [hglyphs]
      apply List.mem_append_left
      apply List.mem_append_right
      refine List.mem_flatMap.2 ⟨_, hmem, ?_⟩
      unfold reactGlyphs
      dsimp only
      rw [if_pos rfl]
      exact List.mem_cons_of_mem _ (List.mem_singleton.2 rfl)
    · have := (C128_round |b.nodeForce res j 0|).1
      rwa [abs_abs] at this

/-- **C127**: each couple that a support exerts and that exceeds `1e-6` is drawn about its node, with
an arrowhead in its sense (anticlockwise if positive), and labelled to four figures. -/
theorem C127_couples (b : BeamDef ℝ) (stable : System ℝ → Bool) (solve : Solver ℝ)
    (hs : solve.Sound) (res : Result ℝ) (h : b.analyze stable solve = .ok res)
    (hlen : b.restraints.length = 2 * b.members.length + 2)
    (hpr : ∀ p, b.presc.getD p none ≠ none → b.restraints.getD p 0 < 0)
    {kf : List (Option ℝ)} {us : UnitSystem} {ax : Axes}
    (hax : plotReactions b kf us res = .ok ax) :
    ∃ r, 0 < r ∧ ∀ j ≤ b.members.length, 1 / 10 ^ 6 < |b.nodeForce res j 1| →
      (∃ a c, Glyph.arc (b.nodeX j, 0) r a c ∈ ax.glyphs) ∧
      (∃ y w, Glyph.text (b.nodeX j, y) [w] us.moment ∈ ax.glyphs ∧
        |w - (|b.nodeForce res j 1|)| ≤ |b.nodeForce res j 1| / 2000) ∧
      ∃ tip p2 p3, Glyph.fill [tip, p2, p3] ∈ ax.glyphs ∧ (tip.1 - b.nodeX j) ^ 2 + tip.2 ^ 2 = r ^ 2 ∧
        (0 < b.nodeForce res j 1 →
          0 < turn (b.nodeX j, 0) ((p2.1 + p3.1) / 2, (p2.2 + p3.2) / 2) tip) ∧
        (b.nodeForce res j 1 < 0 →
          turn (b.nodeX j, 0) ((p2.1 + p3.1) / 2, (p2.2 + p3.2) / 2) tip < 0) := by
  obtain ⟨ax0, d, h0, hd, rfl⟩ := plotReactions_ok hax
  obtain ⟨vert, mom, hd', -, hm, -⟩ := C97_nodes_partial b stable solve hs res h hlen hpr
  obtain rfl : d = (vert, mom) := Except.ok.inj (hd.symm.trans hd')
  obtain ⟨hL, -, -, -⟩ := mplAxes_bare h0
  set L := b.nodeX b.members.length with hLdef
  have hsh : 0 < 5 / 100 * L := by positivity
  refine ⟨12 / 10 * (5 / 100 * L), by positivity, ?_⟩
  intro j hj hbig
  have hmem := (hm j (b.nodeForce res j 1)).2 ⟨hj, rfl, hbig⟩
  have hin : ∀ g, g ∈ moment (12 / 10 * (5 / 100 * L)) (5 / 100 * L) us.moment true
      ⟨0, b.nodeX j, roundSig (b.nodeForce res j 1)⟩ →
      g ∈ (renderReactions b us ax0 vert mom true).glyphs := fun g hg =>
    List.mem_append_right _ (List.mem_flatMap.2 ⟨_, hmem, hg⟩)
  obtain ⟨acc, hp, hn, -, -⟩ := C128_round (b.nodeForce res j 1)
  refine ⟨⟨-50, 230, hin _ ?_⟩, ⟨12 / 10 * (5 / 100 * L) + 5 / 10 * (5 / 100 * L),
    |roundSig (b.nodeForce res j 1)|, hin _ ?_, ?_⟩, ?_⟩
  · unfold moment
    exact List.mem_cons_of_mem _ List.mem_cons_self
  · unfold moment
    dsimp only
    rw [if_pos rfl]
    simp
  · exact (abs_abs_sub_abs_le _ _).trans acc
  · obtain ⟨tip, p2, p3, g1, g2, g3, g4⟩ := moment_head (12 / 10 * (5 / 100 * L)) (5 / 100 * L) (b.nodeX j)
      (roundSig (b.nodeForce res j 1)) (by positivity) hsh us.moment true 0
    exact ⟨tip, p2, p3, hin _ g1, g2, fun hv => g3 (hp hv).le, fun hv => g4 (hn hv)⟩

/-- **C127 fails** for every couple: the top of its arc is cut off, because the axes were laid out
without loads and are only extended downwards. -/
theorem C127_couple_violation (b : BeamDef ℝ) (stable : System ℝ → Bool) (solve : Solver ℝ)
    (hs : solve.Sound) (res : Result ℝ) (h : b.analyze stable solve = .ok res)
    (hlen : b.restraints.length = 2 * b.members.length + 2)
    (hpr : ∀ p, b.presc.getD p none ≠ none → b.restraints.getD p 0 < 0)
    {kf : List (Option ℝ)} {us : UnitSystem} {ax : Axes}
    (hax : plotReactions b kf us res = .ok ax) {j : ℕ} (hj : j ≤ b.members.length)
    (hbig : 1 / 10 ^ 6 < |b.nodeForce res j 1|) :
    ∃ r a c, Glyph.arc (b.nodeX j, 0) r a c ∈ ax.glyphs ∧
      ¬ (Glyph.arc (b.nodeX j, 0) r a c).ink ⊆ ax.view := by
  obtain ⟨ax0, d, h0, hd, rfl⟩ := plotReactions_ok hax
  obtain ⟨vert, mom, hd', -, hm, -⟩ := C97_nodes_partial b stable solve hs res h hlen hpr
  obtain rfl : d = (vert, mom) := Except.ok.inj (hd.symm.trans hd')
  obtain ⟨hL, hyhi, -, -⟩ := mplAxes_bare h0
  have hmem := (hm j (b.nodeForce res j 1)).2 ⟨hj, rfl, hbig⟩
  refine ⟨12 / 10 * (5 / 100 * b.nodeX b.members.length), -50, 230,
    List.mem_append_right _ (List.mem_flatMap.2 ⟨_, hmem, ?_⟩), ?_⟩
  · unfold moment
    exact List.mem_cons_of_mem _ List.mem_cons_self
  · intro hsub
    have htop : (b.nodeX j, 12 / 10 * (5 / 100 * b.nodeX b.members.length)) ∈
        (Glyph.arc (b.nodeX j, 0) (12 / 10 * (5 / 100 * b.nodeX b.members.length)) (-50) 230).ink := by
      refine ⟨90, by norm_num, by norm_num, ?_⟩
      have e : (90 : ℝ) * (Real.pi / 180) = Real.pi / 2 := by ring
      rw [e, Real.cos_pi_div_two, Real.sin_pi_div_two]
      simp
    have := (hsub htop).2.2
    have e : (renderReactions b us ax0 vert mom true).yhi = ax0.yhi := rfl
    rw [e, hyhi] at this
    dsimp only at this
    linarith

/-- The reactions of every analysed beam can be drawn. -/
theorem C127_completes (b : BeamDef ℝ) (stable : System ℝ → Bool) (solve : Solver ℝ)
    (hs : solve.Sound) (res : Result ℝ) (h : b.analyze stable solve = .ok res)
    (hlen : b.restraints.length = 2 * b.members.length + 2)
    (hpr : ∀ p, b.presc.getD p none ≠ none → b.restraints.getD p 0 < 0)
    (hL : 0 < b.nodeX b.members.length) (kf : List (Option ℝ)) (us : UnitSystem) :
    ∃ ax, plotReactions b kf us res = .ok ax := by
  obtain ⟨ax, -, h1, -⟩ := C125_completes b [] kf us {} [] rfl hlen.ge hL (by simp)
  obtain ⟨vert, mom, hd, -⟩ := C97_nodes_partial b stable solve hs res h hlen hpr
  unfold plotReactions
  rw [h1, hd]
  exact ⟨_, rfl⟩

/-- A span of 2, clamped at both ends, under a uniform load of 12. -/
noncomputable def exClampedMpl : BeamDef ℝ :=
  ⟨[⟨.const 1, 2, .FF, none⟩], [-1, -1, -1, -1], List.replicate 4 none, [⟨1, 1, [12]⟩]⟩

-- C127: reactions of 12 and clamping moments of 4, of which both arcs are cut off
example : ∃ (solve : Solver ℝ) (res : Result ℝ) (ax : Axes), solve.Sound ∧
    exClampedMpl.analyze (fun _ => true) solve = .ok res ∧
    plotReactions exClampedMpl [] UnitSystem.SI res = .ok ax ∧
    exClampedMpl.nodeForce res 0 0 = 12 ∧ exClampedMpl.nodeForce res 0 1 = 4 ∧
    exClampedMpl.nodeForce res 1 1 = -4 ∧
    ∃ r a c, Glyph.arc (exClampedMpl.nodeX 0, 0) r a c ∈ ax.glyphs ∧
      ¬ (Glyph.arc (exClampedMpl.nodeX 0, 0) r a c).ink ⊆ ax.view := by
  have hls : exClampedMpl.setLoads = .ok [⟨0, .udl 12⟩] := by
    simp [BeamDef.setLoads, exClampedMpl, parseLM, parseRow]
  obtain ⟨s, hs⟩ : ∃ s, exClampedMpl.system = .ok s := by
    rw [BeamDef.system, hls]
    simp [exClampedMpl, mapE, Member.spanK, Member.refSum, Member.ref, Member.cnl, Load.getCnl]
  obtain ⟨hn, hk, hrf, hr, hp, _, _⟩ := BeamDef.system_ok hs
  have hpn : ∀ i : ℕ, exClampedMpl.presc.getD i none = none := by
    intro i
    rcases i with _ | _ | _ | _ | i <;> simp [exClampedMpl]
  have h4 : ∀ p < s.N, p < 4 := by
    intro p hp'
    simpa [System.N, hn, exClampedMpl] using hp'
  have hc : ∀ p < s.N, s.constr p = some 0 := by
    intro p hp'
    have := h4 p hp'
    simp only [System.constr, hp, hpn, hr]
    interval_cases p <;> simp [exClampedMpl]
  have hres := s.analyze_try (fun _ => 0) (by simp only [System.validate, hp, hpn]; simp)
    (fun p hp' v hv => by rw [hc p hp'] at hv; exact Option.some.inj hv)
    (fun p hp' hv => by rw [hc p hp'] at hv; cases hv)
  have han : exClampedMpl.analyze (fun _ => true) (trySolver fun _ => 0)
      = .ok ⟨fun _ => 0, s.reactions fun _ => 0, s.springForces fun _ => 0, s.endForces fun _ => 0⟩ := by
    simp only [BeamDef.analyze, hs, not_true_eq_false, and_false, if_false]
    exact hres
  obtain ⟨ls, hls', hrefs⟩ := hrf
  obtain rfl : ls = [⟨0, .udl 12⟩] := Except.ok.inj (hls'.symm.trans hls)
  obtain ⟨c, hcs, hcv⟩ := hrefs 0 (by simp [exClampedMpl])
  have hend : s.endForces (fun _ => 0) 0 = c.vec := by
    unfold System.endForces
    have : elemVec (fun _ : ℕ => (0 : ℝ)) 0 = 0 := by
      ext i
      fin_cases i <;> rfl
    rw [this, Matrix.mulVec_zero, zero_add, hcv]
  have hce : c = ⟨12, 4, 12, -4⟩ := by
    simp [exClampedMpl, Member.refSum, Member.ref, Member.cnl, Load.getCnl, udlCnl] at hcs
    rw [← hcs]
    norm_num [releaseCnl]
  have hlen : exClampedMpl.restraints.length = 2 * exClampedMpl.members.length + 2 := by simp [exClampedMpl]
  have hpr : ∀ p, exClampedMpl.presc.getD p none ≠ none → exClampedMpl.restraints.getD p 0 < 0 :=
    fun p hq => absurd (hpn p) hq
  obtain ⟨ax, hax⟩ := C127_completes exClampedMpl _ _ (trySolver_sound _) _ han hlen hpr
    (by simp [exClampedMpl, BeamDef.nodeX]) [] UnitSystem.SI
  have f01 : exClampedMpl.nodeForce ⟨fun _ => 0, s.reactions fun _ => 0, s.springForces fun _ => 0,
      s.endForces fun _ => 0⟩ 0 1 = 4 := by
    simp [BeamDef.nodeForce, exClampedMpl, hend, hce, CNL.vec]
  refine ⟨_, _, ax, trySolver_sound _, han, hax, ?_, f01, ?_, ?_⟩
  · simp [BeamDef.nodeForce, exClampedMpl, hend, hce, CNL.vec]
  · simp [BeamDef.nodeForce, exClampedMpl, hend, hce, CNL.vec]
  · exact C127_couple_violation exClampedMpl _ _ (trySolver_sound _) _ han hlen hpr hax (j := 0) (by simp)
      (by rw [f01]; norm_num)

-- C128
example : |roundSig (2 / 3) - 2 / 3| ≤ |(2 / 3 : ℝ)| / 2000 := (C128_round (2 / 3)).1

end PyCBA
