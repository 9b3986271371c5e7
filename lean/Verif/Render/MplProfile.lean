import Verif.Render.MplReactions
import Verif.Section.Member

/-!
C129: the elevation of a non-prismatic beam.
-/

set_option linter.unusedSectionVars false
set_option linter.unusedSimpArgs false

namespace PyCBA

open Mpl

theorem maxOf_mem {l : List ℝ} (hne : l ≠ []) : maxOf l ∈ l := by
  unfold maxOf
  have key : ∀ (l : List ℝ) (a : ℝ), l.foldl max a = a ∨ l.foldl max a ∈ l := by
    intro l
    induction l with
    | nil => intro a; exact Or.inl rfl
    | cons c l ih =>
      intro a
      rw [List.foldl_cons]
      rcases ih (max a c) with e | e
      · rw [e]
        rcases max_choice a c with e2 | e2
        · exact Or.inl e2
        · rw [e2]; exact Or.inr List.mem_cons_self
      · exact Or.inr (List.mem_cons_of_mem _ e)
  rcases key l (l.headD 0) with e | e
  · rw [e]
    cases l with
    | nil => exact absurd rfl hne
    | cons c l => exact List.mem_cons_self
  · exact e

theorem minOf_mem {l : List ℝ} (hne : l ≠ []) : minOf l ∈ l := by
  unfold minOf
  have key : ∀ (l : List ℝ) (a : ℝ), l.foldl min a = a ∨ l.foldl min a ∈ l := by
    intro l
    induction l with
    | nil => intro a; exact Or.inl rfl
    | cons c l ih =>
      intro a
      rw [List.foldl_cons]
      rcases ih (min a c) with e | e
      · rw [e]
        rcases min_choice a c with e2 | e2
        · exact Or.inl e2
        · rw [e2]; exact Or.inr List.mem_cons_self
      · exact Or.inr (List.mem_cons_of_mem _ e)
  rcases key l (l.headD 0) with e | e
  · rw [e]
    cases l with
    | nil => exact absurd rfl hne
    | cons c l => exact List.mem_cons_self
  · exact e

theorem minOf_le {l : List ℝ} {x : ℝ} (h : x ∈ l) : minOf l ≤ x := by
  unfold minOf
  have key : ∀ (l : List ℝ) (a : ℝ), l.foldl min a ≤ a ∧ ∀ y ∈ l, l.foldl min a ≤ y := by
    intro l
    induction l with
    | nil => intro a; exact ⟨le_rfl, by simp⟩
    | cons c l ih =>
      intro a
      rw [List.foldl_cons]
      obtain ⟨i1, i2⟩ := ih (min a c)
      refine ⟨i1.trans (min_le_left _ _), ?_⟩
      intro y hy
      rcases List.mem_cons.1 hy with rfl | hy
      · exact i1.trans (min_le_right _ _)
      · exact i2 y hy
  exact (key l _).2 x h

/-- Every station lies on a member, and carries the rigidity of the member there. -/
theorem eiValues_mem {b : BeamDef ℝ} (hpos : ∀ m ∈ b.members, 0 < m.L) {p : ℝ × ℝ}
    (hp : p ∈ eiValues b) : ∃ (i : ℕ) (hi : i < b.members.length) (x : ℝ), 0 ≤ x ∧ x ≤ b.members[i].L ∧
      p = (b.nodeX i + x, b.members[i].EI.eval x) := by
  unfold eiValues at hp
  obtain ⟨q, hq, hp⟩ := List.mem_flatMap.1 hp
  obtain ⟨hi, hm⟩ := List.mem_zipIdx' (x := q.1) (i := q.2) hq
  have hL : 0 < q.1.L := hpos _ (hm ▸ List.getElem_mem _)
  refine ⟨q.2, hi, ?_⟩
  rw [← hm]
  unfold eiStations at hp
  split at hp
  · rename_i s hs
    obtain ⟨x, hx, rfl⟩ := List.mem_map.1 hp
    obtain ⟨h1, h2⟩ := mem_linspaceN_bounds hL.le hx
    exact ⟨x, h1, h2, by rw [hs]; rfl⟩
  · rename_i e he
    simp only [List.mem_cons, List.not_mem_nil, or_false] at hp
    rcases hp with rfl | rfl
    · exact ⟨0, le_rfl, hL.le, by rw [he]; rfl⟩
    · exact ⟨q.1.L, hL.le, le_rfl, by rw [he]; rfl⟩

/-- The ends of every member are stations. -/
theorem eiValues_ends {b : BeamDef ℝ} (i : ℕ) (hi : i < b.members.length) :
    (b.nodeX i + 0, b.members[i].EI.eval 0) ∈ eiValues b ∧
    (b.nodeX i + b.members[i].L, b.members[i].EI.eval b.members[i].L) ∈ eiValues b := by
  unfold eiValues
  have hq : (b.members[i], i) ∈ b.members.zipIdx := by
    rw [List.mem_zipIdx_iff_getElem?]
    exact List.getElem?_eq_getElem hi
  constructor
  · refine List.mem_flatMap.2 ⟨_, hq, ?_⟩
    unfold eiStations
    dsimp only
    split
    · rename_i s hs
      exact List.mem_map.2 ⟨0, linspaceN_first _ _ _, by rw [hs]; rfl⟩
    · rename_i e he
      rw [he]
      exact List.mem_cons_self
  · refine List.mem_flatMap.2 ⟨_, hq, ?_⟩
    unfold eiStations
    dsimp only
    split
    · rename_i s hs
      exact List.mem_map.2 ⟨_, linspaceN_last _ _ _ (by norm_num), by rw [hs]; rfl⟩
    · rename_i e he
      rw [he]
      exact List.mem_cons_of_mem _ List.mem_cons_self

theorem linspaceN_sorted {a b : ℝ} (hab : a ≤ b) (n : ℕ) : (linspaceN a b n).Pairwise (· ≤ ·) := by
  unfold linspaceN
  rw [List.pairwise_map]
  refine List.Pairwise.imp ?_ List.pairwise_lt_range
  intro i j hij
  have h0 : 0 ≤ (b - a) / ((n - 1 : ℕ) : ℝ) := div_nonneg (by linarith) (Nat.cast_nonneg _)
  have : (i : ℝ) ≤ j := by exact_mod_cast hij.le
  nlinarith

/-- The stations run from left to right. -/
theorem eiValues_sorted {b : BeamDef ℝ} (hpos : ∀ m ∈ b.members, 0 < m.L) :
    ((eiValues b).map Prod.fst).Pairwise (· ≤ ·) := by
  have hst : ∀ off (m : Member ℝ), 0 < m.L →
      ((eiStations off m).map Prod.fst).Pairwise (· ≤ ·) ∧
      ∀ p ∈ eiStations off m, off ≤ p.1 ∧ p.1 ≤ off + m.L := by
    intro off m hm
    unfold eiStations
    split
    · constructor
      · rw [List.map_map, List.pairwise_map]
        refine (linspaceN_sorted hm.le 41).imp ?_
        intro x y h
        simpa using h
      · intro p hp
        obtain ⟨x, hx, rfl⟩ := List.mem_map.1 hp
        obtain ⟨h1, h2⟩ := mem_linspaceN_bounds hm.le hx
        exact ⟨by dsimp only; linarith, by dsimp only; linarith⟩
    · constructor
      · simp [hm.le]
      · intro p hp
        simp only [List.mem_cons, List.not_mem_nil, or_false] at hp
        rcases hp with rfl | rfl <;> exact ⟨by dsimp only; linarith, by dsimp only; linarith⟩
  unfold eiValues
  rw [List.map_flatMap, List.pairwise_flatMap]
  constructor
  · intro q hq
    obtain ⟨hi, hm⟩ := List.mem_zipIdx' (x := q.1) (i := q.2) hq
    exact (hst _ _ (hpos _ (hm ▸ List.getElem_mem _))).1
  · rw [List.pairwise_iff_getElem]
    intro i j hi hj hij x hx y hy
    rw [List.length_zipIdx] at hi hj
    rw [List.getElem_zipIdx, Nat.zero_add] at hx hy
    obtain ⟨p, hp, rfl⟩ := List.mem_map.1 hx
    obtain ⟨q, hq, rfl⟩ := List.mem_map.1 hy
    dsimp only at hp hq
    have h1 := ((hst _ _ (hpos _ (List.getElem_mem hi))).2 p hp).2
    have h2 := ((hst _ _ (hpos _ (List.getElem_mem hj))).2 q hq).1
    rw [← b.nodeX_succ i hi] at h1
    have hmono : b.nodeX (i + 1) ≤ b.nodeX j := by
      refine monotone_nat_of_le_succ (f := b.nodeX) (fun k => ?_) hij
      exact (b.nodeX_range hpos k).2.1
    linarith

/-- **C129**: where a beam is drawn with depth, the cube of the depth is in proportion to the rigidity
at every station, the greatest rigidity being drawn with half depth `0.6` support heights; stations run
from left to right and include both ends of every member. -/
theorem C129_depths {b : BeamDef ℝ} {sh : ℝ} {prof : List (ℝ × ℝ)} (hsh : 0 < sh)
    (hpos : ∀ m ∈ b.members, 0 < m.L)
    (hEI : ∀ m ∈ b.members, ∀ x, 0 ≤ x → x ≤ m.L → 0 ≤ m.EI.eval x) (h : eiProfile b sh = some prof) :
    ∃ E, 0 < E ∧ (∃ (i : ℕ) (hi : i < b.members.length) (x : ℝ), 0 ≤ x ∧ x ≤ b.members[i].L ∧
        b.members[i].EI.eval x = E ∧ (b.nodeX i + x, 6 / 10 * sh) ∈ prof) ∧
      (∀ p ∈ prof, ∃ (i : ℕ) (hi : i < b.members.length) (x : ℝ), 0 ≤ x ∧ x ≤ b.members[i].L ∧
        p.1 = b.nodeX i + x ∧ 0 ≤ p.2 ∧ p.2 ≤ 6 / 10 * sh ∧
        (p.2 / (6 / 10 * sh)) ^ 3 = b.members[i].EI.eval x / E) ∧
      (prof.map Prod.fst).Pairwise (· ≤ ·) ∧
      ∀ i (hi : i < b.members.length), ∃ d0 d1, (b.nodeX i, d0) ∈ prof ∧ (b.nodeX (i + 1), d1) ∈ prof ∧
        (d0 / (6 / 10 * sh)) ^ 3 = b.members[i].EI.eval 0 / E ∧
        (d1 / (6 / 10 * sh)) ^ 3 = b.members[i].EI.eval b.members[i].L / E := by
  unfold eiProfile at h
  dsimp only at h
  split at h
  · cases h
  rename_i hc
  push Not at hc
  obtain ⟨hne, hE, -⟩ := hc
  have h := (Option.some.inj h).symm
  subst h
  set E := maxOf ((eiValues b).map Prod.snd) with hEd
  have hcube : ∀ v, 0 ≤ v → (6 / 10 * sh * (v / E) ^ ((1 : ℝ) / 3) / (6 / 10 * sh)) ^ 3 = v / E := by
    intro v hv
    rw [mul_div_cancel_left₀ _ (by positivity)]
    rw [← Real.rpow_natCast, ← Real.rpow_mul (by positivity)]
    norm_num
  have hval : ∀ p ∈ eiValues b, 0 ≤ p.2 := fun p hp => (eiValues_range hpos hEI hp).2
  refine ⟨E, hE, ?_, ?_, ?_, ?_⟩
  · obtain ⟨p, hp, hpe⟩ := List.mem_map.1 (maxOf_mem hne)
    obtain ⟨i, hi, x, h0, h1, rfl⟩ := eiValues_mem hpos hp
    refine ⟨i, hi, x, h0, h1, hpe, List.mem_map.2 ⟨_, hp, ?_⟩⟩
    dsimp only at hpe ⊢
    rw [hpe, div_self hE.ne', Real.one_rpow, mul_one]
  · intro p hp
    obtain ⟨q, hq, rfl⟩ := List.mem_map.1 hp
    have hq0 := hval q hq
    have hqE : q.2 ≤ E := le_maxOf (List.mem_map.2 ⟨q, hq, rfl⟩)
    obtain ⟨i, hi, x, h0, h1, rfl⟩ := eiValues_mem hpos hq
    refine ⟨i, hi, x, h0, h1, rfl, ?_, ?_, ?_⟩
    · dsimp only at hq0 ⊢
      positivity
    · dsimp only at hq0 hqE ⊢
      have : (b.members[i].EI.eval x / E) ^ ((1 : ℝ) / 3) ≤ 1 :=
        Real.rpow_le_one (by positivity) (by rw [div_le_one hE]; exact hqE) (by norm_num)
      nlinarith
    · exact hcube _ hq0
  · rw [List.map_map]
    exact eiValues_sorted hpos
  · intro i hi
    obtain ⟨e0, e1⟩ := eiValues_ends i hi
    have hsucc : b.nodeX (i + 1) = b.nodeX i + b.members[i].L := b.nodeX_succ i hi
    refine ⟨_, _, List.mem_map.2 ⟨_, e0, ?_⟩, List.mem_map.2 ⟨_, e1, ?_⟩, hcube _ (hval _ e0),
      hcube _ (hval _ e1)⟩
    · rw [add_zero]
    · rw [hsucc]

/-- **C129**, for members of constant rigidity: the beam is drawn as a single line exactly if no member
is weaker than the strongest by more than a millionth. -/
theorem C129_prismatic_partial {b : BeamDef ℝ} (sh : ℝ) (hpos : ∀ m ∈ b.members, 0 < m.L)
    (hne : b.members ≠ []) (hEI : ∀ m ∈ b.members, ∃ e, 0 < e ∧ m.EI = .const e) :
    eiProfile b sh = none ↔ ∀ m ∈ b.members, ∀ m' ∈ b.members,
      (1 - 1 / 10 ^ 6) * m'.EI.eval 0 ≤ m.EI.eval 0 := by
  have hmem : ∀ v, v ∈ (eiValues b).map Prod.snd ↔ ∃ m ∈ b.members, v = m.EI.eval 0 := by
    intro v
    constructor
    · intro hv
      obtain ⟨p, hp, rfl⟩ := List.mem_map.1 hv
      obtain ⟨i, hi, x, -, -, rfl⟩ := eiValues_mem hpos hp
      obtain ⟨e, -, he⟩ := hEI _ (List.getElem_mem hi)
      exact ⟨_, List.getElem_mem hi, by rw [he]; rfl⟩
    · rintro ⟨m, hm, rfl⟩
      obtain ⟨i, hi, rfl⟩ := List.getElem_of_mem hm
      exact List.mem_map.2 ⟨_, (eiValues_ends i hi).1, rfl⟩
  have hvals : (eiValues b).map Prod.snd ≠ [] := by
    obtain ⟨m, hm⟩ := List.exists_mem_of_ne_nil _ hne
    exact List.ne_nil_of_mem ((hmem _).2 ⟨m, hm, rfl⟩)
  obtain ⟨M, hM, eM⟩ := (hmem _).1 (maxOf_mem hvals)
  obtain ⟨N, hN, eN⟩ := (hmem _).1 (minOf_mem hvals)
  have hMpos : 0 < M.EI.eval 0 := by
    obtain ⟨e, he, h⟩ := hEI M hM
    rw [h]
    exact he
  unfold eiProfile
  dsimp only
  rw [eM, eN]
  constructor
  · intro h m hm m' hm'
    split at h
    · rename_i hc
      rcases hc with hc | hc | hc
      · exact absurd hc hvals
      · exact absurd hMpos (not_lt.2 hc)
      · have h1 : m'.EI.eval 0 ≤ M.EI.eval 0 := eM ▸ le_maxOf ((hmem _).2 ⟨m', hm', rfl⟩)
        have h2 : N.EI.eval 0 ≤ m.EI.eval 0 := eN ▸ minOf_le ((hmem _).2 ⟨m, hm, rfl⟩)
        have h3 : (1 - 1 / 10 ^ 6) * m'.EI.eval 0 ≤ (1 - 1 / 10 ^ 6) * M.EI.eval 0 :=
          mul_le_mul_of_nonneg_left h1 (by norm_num)
        linarith
    · cases h
  · intro h
    rw [if_pos]
    right; right
    linarith [h N hN M hM]

/-- A section of rigidity 1 with a strip of rigidity 100 between a quarter and three quarters. -/
noncomputable def exStripSegs : List (Seg ℝ) :=
  [⟨.const, [0, 1 / 4], .values [1], none⟩, ⟨.const, [1 / 4, 3 / 4], .values [100], none⟩,
    ⟨.const, [3 / 4, 40], .values [1], none⟩]

noncomputable def exStrip : Sec ℝ :=
  ⟨[⟨0, 1 / 4, [1], 0⟩, ⟨1 / 4, 3 / 4, [100], 0⟩, ⟨3 / 4, 40, [1], 0⟩], [1 / 4, 3 / 4, 40], [], 0, 40⟩

theorem exStrip_build (fit : Fit ℝ) : Sec.empty.build fit exStripSegs = .ok exStrip := by
  have u : (SegType.const = SegType.unknown) = False := by simp
  simp only [Sec.build, exStripSegs, Sec.add, segPieces, Sec.empty, exStrip, strictly, allPos, u, if_false]
  norm_num
  rw [if_neg (List.cons_ne_nil _ _), if_neg (List.cons_ne_nil _ _)]
  norm_num

theorem exStrip_valid : exStrip.validate 40 = .ok () := by
  unfold Sec.validate
  rw [if_neg (by exact List.cons_ne_nil _ _), if_pos]
  norm_num [exStrip, Sec.length]

theorem exStrip_value (k : ℕ) (hk : k < 41) : exStrip.value (k : ℝ) = 1 := by
  unfold Sec.value Sec.eval exStrip
  dsimp only
  rcases Nat.eq_zero_or_pos k with rfl | hp
  · norm_num [List.find?, Piece.eval, polyval]
  · have h1 : (1 : ℝ) ≤ k := by exact_mod_cast hp
    have h2 : (k : ℝ) ≤ 40 := by exact_mod_cast (by omega : k ≤ 40)
    have c1 : decide ((0 : ℝ) - 1 / 10 ^ 12 ≤ k ∧ (k : ℝ) ≤ 1 / 4 + 1 / 10 ^ 12) = false := by
      rw [decide_eq_false_iff_not]
      rintro ⟨-, h⟩
      norm_num at h
      linarith
    have c2 : decide ((1 / 4 : ℝ) - 1 / 10 ^ 12 ≤ k ∧ (k : ℝ) ≤ 3 / 4 + 1 / 10 ^ 12) = false := by
      rw [decide_eq_false_iff_not]
      rintro ⟨-, h⟩
      norm_num at h
      linarith
    have c3 : decide ((3 / 4 : ℝ) - 1 / 10 ^ 12 ≤ k ∧ (k : ℝ) ≤ 40 + 1 / 10 ^ 12) = true := by
      rw [decide_eq_true_iff]
      constructor
      · norm_num; linarith
      · norm_num; linarith
    simp only [List.find?, c1, c2, c3]
    simp [Piece.eval, polyval]

/-- **C129 fails** for a stiff strip between two of the 41 stations of a member: the beam is drawn as
if it were prismatic. -/
theorem C129_strip_violation (fit : Fit ℝ) (leg : Leg ℝ) :
    ∃ (segs : List (Seg ℝ)) (t : Sec ℝ) (b : BeamDef ℝ), Sec.empty.build fit segs = .ok t ∧
      t.validate 40 = .ok () ∧ b.members = [⟨.section (t.data leg), 40, .FF, none⟩] ∧
      t.eval (1 / 8) = .ok (some 1) ∧ t.eval (1 / 2) = .ok (some 100) ∧
      beamGlyphs b 40 2 = [.line [(0, 0), (40, 0)]] := by
  refine ⟨exStripSegs, exStrip, ⟨[⟨.section (exStrip.data leg), 40, .FF, none⟩], [-1, 0, -1, 0],
    List.replicate 4 none, []⟩, exStrip_build fit, exStrip_valid, rfl, ?_, ?_, ?_⟩
  · norm_num [Sec.eval, exStrip, List.find?, Piece.eval, polyval]
  · norm_num [Sec.eval, exStrip, List.find?, Piece.eval, polyval]
  · have hone : ∀ v ∈ (eiValues (⟨[⟨.section (exStrip.data leg), 40, .FF, none⟩], [-1, 0, -1, 0],
        List.replicate 4 none, []⟩ : BeamDef ℝ)).map Prod.snd, v = 1 := by
      intro v hv
      simp only [eiValues, List.zipIdx_cons, List.zipIdx_nil, List.flatMap_cons, List.flatMap_nil,
        List.append_nil, eiStations, List.map_map, List.mem_map] at hv
      obtain ⟨x, hx, rfl⟩ := hv
      unfold linspaceN at hx
      obtain ⟨k, hk, rfl⟩ := List.mem_map.1 hx
      have e : (0 : ℝ) + (k : ℝ) * ((40 - 0) / ((41 - 1 : ℕ) : ℝ)) = (k : ℝ) := by norm_num
      rw [e]
      exact exStrip_value k (List.mem_range.1 hk)
    have hprof : eiProfile (⟨[⟨.section (exStrip.data leg), 40, .FF, none⟩], [-1, 0, -1, 0],
        List.replicate 4 none, []⟩ : BeamDef ℝ) 2 = none := by
      unfold eiProfile
      dsimp only
      rw [if_pos]
      by_cases hne : (eiValues (⟨[⟨.section (exStrip.data leg), 40, .FF, none⟩], [-1, 0, -1, 0],
          List.replicate 4 none, []⟩ : BeamDef ℝ)).map Prod.snd = []
      · exact Or.inl hne
      · right; right
        rw [hone _ (maxOf_mem hne), hone _ (minOf_mem hne)]
        norm_num
    unfold beamGlyphs
    rw [hprof]

-- C129: rigidities 1 and 8: the second span is drawn twice as deep
example : ∃ (b : BeamDef ℝ) (prof : List (ℝ × ℝ)), eiProfile b 1 = some prof ∧
    (∀ m ∈ b.members, 0 < m.L) ∧ (∀ m ∈ b.members, ∃ e, 0 < e ∧ m.EI = .const e) := by
  refine ⟨⟨[⟨.const 1, 8, .FF, none⟩, ⟨.const 8, 8, .FF, none⟩], [-1, 0, -1, 0, -1, 0],
    List.replicate 6 none, []⟩, ?_⟩
  apply Exists.intro
  refine ⟨?_, ?_, ?_⟩
  · unfold eiProfile
    dsimp only
    rw [if_neg]
    norm_num [eiValues, eiStations, maxOf, minOf, List.zipIdx]
    exact List.cons_ne_nil _ _
  · intro m hm
    simp only [List.mem_cons, List.not_mem_nil, or_false] at hm
    rcases hm with rfl | rfl <;> norm_num
  · intro m hm
    simp only [List.mem_cons, List.not_mem_nil, or_false] at hm
    rcases hm with rfl | rfl
    · exact ⟨1, by norm_num, rfl⟩
    · exact ⟨8, by norm_num, rfl⟩

end PyCBA
