import Verif.Section.Model
import Mathlib.Tactic.Linarith
import Mathlib.Tactic.FieldSimp
import Mathlib.Tactic.Ring
import Mathlib.Tactic.LinearCombination
import Mathlib.Tactic.NormNum

/-!
C53: building and evaluating a `SectionEI`.
-/

set_option linter.unusedSectionVars false
set_option linter.unusedSimpArgs false

namespace PyCBA

variable {K : Type*} [Field K] [LinearOrder K] [IsStrictOrderedRing K]

theorem strictly_pairwise (l : List K) : strictly l = true → l.Pairwise (· < ·) := by
  induction l with
  | nil => intro _; exact List.Pairwise.nil
  | cons a l ih =>
    cases l with
    | nil => intro _; exact List.pairwise_singleton _ _
    | cons b l =>
      intro h
      simp only [strictly, Bool.and_eq_true, decide_eq_true_eq] at h
      have h2 := ih h.2
      rw [List.pairwise_cons]
      refine ⟨fun c hc => ?_, h2⟩
      rcases List.mem_cons.1 hc with rfl | hc
      · exact h.1
      · exact h.1.trans ((List.pairwise_cons.1 h2).1 c hc)

theorem allPos_iff (vs : List K) : allPos vs = true ↔ ∀ v ∈ vs, 0 < v := by
  simp [allPos]

/-! ### What is accepted -/

/-- The samples of a segment: the numbers given, or the callable at the stations used. -/
def Seg.samples (s : Seg K) : List K :=
  match s.ei with
  | .values vs => vs
  | .func f => (linspaceN (s.x.headD 0) (s.x.getLastD 0) ((s.degree.getD 8).toNat + 2)).map f

theorem Sec.add_ok {fit : Fit K} {t t' : Sec K} {s : Seg K} (h : t.add fit s = .ok t') :
    2 ≤ s.x.length ∧ s.x.Pairwise (· < ·) ∧
    (|s.x.headD 0 - if t.pieces = [] then 0 else t.fin|
      ≤ 1 / 10 ^ 9 * max 1 |if t.pieces = [] then 0 else t.fin|) ∧
    ∃ ps ks, segPieces fit s (s.x.headD 0) (s.x.getLastD 0) = .ok (ps, ks) ∧
      t' = ⟨t.pieces ++ ps, t.joins ++ [s.x.getLastD 0], t.kinks ++ ks,
        if t.joins = [] then s.x.headD 0 else t.x0, s.x.getLastD 0⟩ := by
  unfold Sec.add at h
  by_cases h1 : s.kind = .unknown
  · rw [if_pos h1] at h; cases h
  rw [if_neg h1] at h
  by_cases h2 : s.x.length < 2
  · rw [if_pos h2] at h; cases h
  rw [if_neg h2] at h
  by_cases h3 : strictly s.x = false
  · rw [if_pos h3] at h; cases h
  rw [if_neg h3] at h
  simp only at h
  by_cases h4 : ¬ (|s.x.headD 0 - if t.pieces = [] then 0 else t.fin|
      ≤ 1 / 10 ^ 9 * max 1 |if t.pieces = [] then 0 else t.fin|)
  · rw [if_pos h4] at h; cases h
  rw [if_neg h4] at h
  refine ⟨by omega, strictly_pairwise _ (by simpa using h3), not_not.1 h4, ?_⟩
  cases hp : segPieces fit s (s.x.headD 0) (s.x.getLastD 0) with
  | error e => rw [hp] at h; cases h
  | ok r =>
    obtain ⟨ps, ks⟩ := r
    rw [hp] at h
    exact ⟨ps, ks, rfl, (Except.ok.inj h).symm⟩

theorem getLastD_mem' {α : Type*} (l : List α) (d : α) (h : l ≠ []) : l.getLastD d ∈ l := by
  rw [List.getLastD_eq_getLast?, List.getLast?_eq_some_getLast h]
  exact List.getLast_mem h

theorem segPieces_ok {fit : Fit K} {s : Seg K} {x0 x1 : K} {ps : List (Piece K)} {ks : List K}
    (h : segPieces fit s x0 x1 = .ok (ps, ks)) :
    (s.kind = .const ∧ ∃ v, s.ei = .values [v] ∧ 0 < v ∧ ps = [⟨x0, x1, [v], 0⟩]) ∨
    ((s.kind = .linear ∨ s.kind = .pwl) ∧ ∃ vs, s.ei = .values vs ∧ vs.length = s.x.length ∧
      (∀ v ∈ vs, 0 < v) ∧ ps = linPieces s.x vs) ∨
    (s.kind = .poly ∧ (∃ f, s.ei = .func f ∧
      ∀ v ∈ (linspaceN x0 x1 ((s.degree.getD 8).toNat + 2)).map f, 0 < v) ∧ ∃ cs d, ps = [⟨x0, x1, cs, d⟩]) ∨
    (s.kind = .poly ∧ ∃ vs, s.ei = .values vs ∧ vs.length = s.x.length ∧ (∀ v ∈ vs, 0 < v) ∧
      ∃ d, ps = [⟨x0, x1, fit s.x vs d, d⟩]) := by
  obtain ⟨kind, x, ei, degree⟩ := s
  unfold segPieces at h
  cases kind <;> cases ei
  · rename_i vs
    rcases vs with _ | ⟨v, _ | ⟨v', vs⟩⟩
    · simp at h
    · simp only at h
      split at h
      · rename_i hp
        simp only [Except.ok.injEq, Prod.mk.injEq] at h
        left
        exact ⟨rfl, v, rfl, (allPos_iff _).1 hp v (by simp), h.1.symm⟩
      · cases h
    · simp at h
  · simp at h
  · rename_i vs
    simp only at h
    split at h
    · cases h
    · rename_i hl
      split at h
      · cases h
      · split at h
        · rename_i hp
          simp only [Except.ok.injEq, Prod.mk.injEq] at h
          right; left
          exact ⟨Or.inl rfl, vs, rfl, not_not.1 hl, (allPos_iff _).1 hp, h.1.symm⟩
        · cases h
  · simp at h
  · rename_i vs
    simp only at h
    split at h
    · cases h
    · rename_i hl
      split at h
      · rename_i hp
        simp only [Except.ok.injEq, Prod.mk.injEq] at h
        right; left
        exact ⟨Or.inr rfl, vs, rfl, not_not.1 hl, (allPos_iff _).1 hp, h.1.symm⟩
      · cases h
  · simp at h
  · rename_i vs
    simp only at h
    split at h
    · cases h
    · rename_i hl
      split at h
      · rename_i hp
        split at h
        · cases h
        · simp only [Except.ok.injEq, Prod.mk.injEq] at h
          right; right; right
          exact ⟨rfl, vs, rfl, not_not.1 hl, (allPos_iff _).1 hp, _, h.1.symm⟩
      · cases h
  · rename_i f
    simp only at h
    split at h
    · cases h
    · split at h
      · rename_i hp
        simp only [Except.ok.injEq, Prod.mk.injEq] at h
        right; right; left
        exact ⟨rfl, ⟨f, rfl, (allPos_iff _).1 hp⟩, _, _, h.1.symm⟩
      · cases h
  · simp at h
  · simp at h

/-- **C53** (acceptance): a segment is accepted only if it has at least two stations, in
increasing order, starts where the section ended (0 for the first) up to the tolerance
`1e-9 max(1, |end|)`, and all its rigidity samples are positive; the section then ends at
its last station. -/
theorem C53_accepts (fit : Fit K) (t t' : Sec K) (s : Seg K) (h : t.add fit s = .ok t') :
    2 ≤ s.x.length ∧ s.x.Pairwise (· < ·) ∧
    (|s.x.headD 0 - if t.pieces = [] then 0 else t.fin|
      ≤ 1 / 10 ^ 9 * max 1 |if t.pieces = [] then 0 else t.fin|) ∧
    (∀ v ∈ s.samples, 0 < v) ∧ t'.fin = s.x.getLastD 0 := by
  obtain ⟨h1, h2, h3, ps, ks, hp, rfl⟩ := Sec.add_ok h
  refine ⟨h1, h2, h3, ?_, rfl⟩
  unfold Seg.samples
  rcases segPieces_ok hp with ⟨_, v, he, hv, _⟩ | ⟨_, vs, he, _, hv, _⟩ | ⟨_, ⟨f, he, hv⟩, _⟩ |
    ⟨_, vs, he, _, hv, _⟩
  · rw [he]
    intro w hw
    rw [List.mem_singleton.1 hw]
    exact hv
  · rw [he]; exact hv
  · rw [he]; exact hv
  · rw [he]; exact hv

/-! ### Coverage -/

/-- Pieces that join exactly from `a` to `b`. -/
def Joined : K → List (Piece K) → K → Prop
  | a, [], b => a = b
  | a, p :: ps, b => p.x0 = a ∧ p.x0 < p.x1 ∧ Joined p.x1 ps b

theorem Joined.append {a b c : K} {ps qs : List (Piece K)} (h : Joined a ps b) (h' : Joined b qs c) :
    Joined a (ps ++ qs) c := by
  induction ps generalizing a with
  | nil => cases h; exact h'
  | cons p ps ih => exact ⟨h.1, h.2.1, ih h.2.2⟩

theorem Joined.le {a b : K} {ps : List (Piece K)} (h : Joined a ps b) : a ≤ b := by
  induction ps generalizing a with
  | nil => exact le_of_eq h
  | cons p ps ih => rw [← h.1]; exact h.2.1.le.trans (ih h.2.2)

theorem linPieces_joined (xs vs : List K) (hl : vs.length = xs.length) (h2 : 1 ≤ xs.length)
    (hs : xs.Pairwise (· < ·)) : Joined (xs.headD 0) (linPieces xs vs) (xs.getLastD 0) := by
  induction xs generalizing vs with
  | nil => simp at h2
  | cons a xs ih =>
    cases xs with
    | nil =>
      cases vs with
      | nil => simp at hl
      | cons v vs => simp [linPieces, Joined]
    | cons b xs =>
      rcases vs with _ | ⟨ya, _ | ⟨yb, vs⟩⟩
      · simp at hl
      · simp at hl
      · have := ih (yb :: vs) (by simpa using hl) (by simp) (List.pairwise_cons.1 hs).2
        exact ⟨rfl, (List.pairwise_cons.1 hs).1 b (by simp), this⟩

/-- Positive on the whole piece. -/
def Piece.Pos (p : Piece K) : Prop := ∀ x, p.x0 ≤ x → x ≤ p.x1 → 0 < p.eval x

theorem linPieces_pos (xs vs : List K) (hs : xs.Pairwise (· < ·)) (hv : ∀ v ∈ vs, 0 < v) :
    ∀ p ∈ linPieces xs vs, p.Pos := by
  induction xs generalizing vs with
  | nil => simp [linPieces]
  | cons a xs ih =>
    cases xs with
    | nil => simp [linPieces]
    | cons b xs =>
      rcases vs with _ | ⟨ya, _ | ⟨yb, vs⟩⟩
      · simp [linPieces]
      · simp [linPieces]
      · intro p hp
        rw [linPieces] at hp
        rcases List.mem_cons.1 hp with rfl | hp
        · intro x h0 h1
          have hab : a < b := (List.pairwise_cons.1 hs).1 b (by simp)
          have hya := hv ya (by simp)
          have hyb := hv yb (by simp)
          have hd : 0 < b - a := sub_pos.2 hab
          have he : (⟨a, b, [(yb - ya) / (b - a), ya - (yb - ya) / (b - a) * a], 1⟩ : Piece K).eval x
              = (ya * (b - x) + yb * (x - a)) / (b - a) := by
            simp only [Piece.eval, polyval, List.foldl_cons, List.foldl_nil]
            field_simp
            ring
          rw [he]
          simp only at h0 h1
          apply div_pos _ hd
          rcases lt_or_eq_of_le h1 with h | h
          · have : 0 < ya * (b - x) := mul_pos hya (sub_pos.2 h)
            have : 0 ≤ yb * (x - a) := mul_nonneg hyb.le (sub_nonneg.2 h0)
            linarith
          · rw [h]
            have : 0 < yb * (b - a) := mul_pos hyb hd
            linarith
        · exact ih (yb :: vs) (List.pairwise_cons.1 hs).2 (fun v hv' => hv v (by simp_all)) p hp

/-- Each segment starts exactly where the one before ended. -/
def Abut : K → List (Seg K) → Prop
  | _, [] => True
  | a, s :: ss => s.x.headD 0 = a ∧ Abut (s.x.getLastD 0) ss

/-- The state of a section built from segments that abut exactly. -/
structure Sec.Good (t : Sec K) : Prop where
  joined : Joined 0 t.pieces t.fin
  start : t.x0 = 0
  same : t.joins = [] ↔ t.pieces = []
  fin0 : t.pieces = [] → t.fin = 0
  joinsMem : ∀ e ∈ t.joins, 0 < e ∧ e ≤ t.fin

theorem segPieces_joined {fit : Fit K} {s : Seg K} {ps : List (Piece K)} {ks : List K}
    (h2 : 2 ≤ s.x.length) (hs : s.x.Pairwise (· < ·))
    (h : segPieces fit s (s.x.headD 0) (s.x.getLastD 0) = .ok (ps, ks)) :
    Joined (s.x.headD 0) ps (s.x.getLastD 0) ∧ ps ≠ [] ∧ (s.kind ≠ .poly → ∀ p ∈ ps, p.Pos) := by
  have hlt : s.x.headD 0 < s.x.getLastD 0 := by
    rcases hx : s.x with _ | ⟨a, _ | ⟨b, l⟩⟩
    · rw [hx] at h2; simp at h2
    · rw [hx] at h2; simp at h2
    · rw [hx] at hs
      have := (List.pairwise_cons.1 hs).1 ((b :: l).getLastD 0) (getLastD_mem' _ _ (by simp))
      simpa using this
  rcases segPieces_ok h with ⟨_, v, _, hv, rfl⟩ | ⟨_, vs, _, hl, hv, rfl⟩ | ⟨hk, _, cs, d, rfl⟩ |
    ⟨hk, vs, _, _, _, d, rfl⟩
  · refine ⟨⟨rfl, hlt, rfl⟩, by simp, fun _ p hp => ?_⟩
    rw [List.mem_singleton.1 hp]
    intro x _ _
    simpa [Piece.eval, polyval] using hv
  · refine ⟨linPieces_joined _ _ hl (by omega) hs, ?_, fun _ => linPieces_pos _ _ hs hv⟩
    rcases hx : s.x with _ | ⟨a, _ | ⟨b, l⟩⟩
    · rw [hx] at h2; simp at h2
    · rw [hx] at h2; simp at h2
    · rw [hx] at hl
      rcases vs with _ | ⟨ya, _ | ⟨yb, vs⟩⟩
      · simp at hl
      · simp at hl
      · simp [linPieces]
  · exact ⟨⟨rfl, hlt, rfl⟩, by simp, fun hn => absurd hk hn⟩
  · exact ⟨⟨rfl, hlt, rfl⟩, by simp, fun hn => absurd hk hn⟩

theorem Sec.empty_good : (Sec.empty : Sec K).Good :=
  ⟨rfl, rfl, by simp [Sec.empty], fun _ => rfl, by simp [Sec.empty]⟩

theorem Sec.add_good {fit : Fit K} {t t' : Sec K} {s : Seg K} (g : t.Good) (h : t.add fit s = .ok t')
    (ha : s.x.headD 0 = t.fin) :
    t'.Good ∧ t'.pieces ≠ [] ∧ t'.fin = s.x.getLastD 0 ∧
      (s.kind ≠ .poly → (∀ p ∈ t.pieces, p.Pos) → ∀ p ∈ t'.pieces, p.Pos) := by
  obtain ⟨h1, h2, -, ps, ks, hp, rfl⟩ := Sec.add_ok h
  obtain ⟨j1, j2, j3⟩ := segPieces_joined h1 h2 hp
  have hlt : t.fin < s.x.getLastD 0 := by
    rw [ha] at j1
    cases ps with
    | nil => exact absurd rfl j2
    | cons p ps => rw [← j1.1]; exact lt_of_lt_of_le j1.2.1 j1.2.2.le
  refine ⟨⟨?_, ?_, ?_, ?_, ?_⟩, ?_, rfl, ?_⟩
  · rw [ha] at j1
    exact g.joined.append j1
  · simp only
    split
    · rename_i hj
      rw [ha, g.fin0 (g.same.1 hj)]
    · exact g.start
  · simp [j2]
  · intro he
    simp [j2] at he
  · intro e he
    rcases List.mem_append.1 he with he | he
    · obtain ⟨e1, e2⟩ := g.joinsMem e he
      exact ⟨e1, e2.trans hlt.le⟩
    · rw [List.mem_singleton.1 he]
      exact ⟨lt_of_le_of_lt g.joined.le hlt, le_rfl⟩
  · simp [j2]
  · intro hk hpos p hp
    rcases List.mem_append.1 hp with hp | hp
    · exact hpos p hp
    · exact j3 hk p hp

theorem Sec.build_good {fit : Fit K} (segs : List (Seg K)) : ∀ (t t' : Sec K), t.Good →
    Abut t.fin segs → t.build fit segs = .ok t' →
    t'.Good ∧ (t.pieces ≠ [] ∨ segs ≠ [] → t'.pieces ≠ []) ∧
      ((∀ s ∈ segs, s.kind ≠ .poly) → (∀ p ∈ t.pieces, p.Pos) → ∀ p ∈ t'.pieces, p.Pos) := by
  induction segs with
  | nil =>
    intro t t' g _ h
    cases h
    exact ⟨g, fun h => by simpa using h, fun _ h => h⟩
  | cons s ss ih =>
    intro t t' g ha h
    unfold Sec.build at h
    split at h
    · cases h
    · rename_i t1 h1
      obtain ⟨g1, n1, f1, p1⟩ := Sec.add_good g h1 ha.1
      obtain ⟨g2, n2, p2⟩ := ih t1 t' g1 (by rw [f1]; exact ha.2) h
      exact ⟨g2, fun _ => n2 (Or.inl n1), fun hk hp =>
        p2 (fun s' hs' => hk s' (by simp [hs'])) (p1 (hk s (by simp)) hp)⟩

theorem joined_find {a b : K} (ps : List (Piece K)) (h : Joined a ps b) (hne : ps ≠ []) {x : K}
    (h0 : a ≤ x) (h1 : x ≤ b) :
    ∃ p ∈ ps, (ps.find? fun p => decide (p.x0 - 1 / 10 ^ 12 ≤ x ∧ x ≤ p.x1 + 1 / 10 ^ 12)) = some p ∧
      p.x0 ≤ x ∧ x ≤ p.x1 + 1 / 10 ^ 12 := by
  have hε : (0 : K) < 1 / 10 ^ 12 := by positivity
  induction ps generalizing a with
  | nil => exact absurd rfl hne
  | cons p ps ih =>
    have hx0 : p.x0 ≤ x := by rw [h.1]; exact h0
    by_cases hx : x ≤ p.x1 + 1 / 10 ^ 12
    · refine ⟨p, by simp, ?_, hx0, hx⟩
      rw [List.find?_cons_of_pos]
      simp only [decide_eq_true_eq]
      exact ⟨by linarith, hx⟩
    · have hne' : ps ≠ [] := by
        rintro rfl
        have : p.x1 = b := h.2.2
        apply hx
        linarith
      obtain ⟨q, hq, hf, h2⟩ := ih h.2.2 hne' (by push Not at hx; linarith)
      refine ⟨q, by simp [hq], ?_, h2⟩
      rw [List.find?_cons_of_neg]
      · exact hf
      · simp only [decide_eq_true_eq]
        exact fun h' => hx h'.2

/-- **C53** (coverage, segments that abut exactly): the section starts at 0, its length is
the last station, and every coordinate of the covered range gets a value: that of a piece
which starts at or before it and ends no more than `1e-12` before it.  For constant, linear
and piecewise linear segments it is positive unless the coordinate lies in the `1e-12` after
the end of a piece.  Inexact joins: `C53_gap_violation`; polynomials: `C53_poly_violation`;
just after a join: `C53_extrapolation_violation`. -/
theorem C53_total_partial (fit : Fit K) (segs : List (Seg K)) (t : Sec K) (hne : segs ≠ [])
    (h : Sec.empty.build fit segs = .ok t) (ha : Abut 0 segs) :
    t.x0 = 0 ∧ t.length = t.fin ∧ ∀ x, 0 ≤ x → x ≤ t.fin →
      ∃ p ∈ t.pieces, p.x0 ≤ x ∧ x ≤ p.x1 + 1 / 10 ^ 12 ∧ t.eval x = .ok (some (p.eval x)) ∧
        ((∀ s ∈ segs, s.kind ≠ .poly) → x ≤ p.x1 → 0 < p.eval x) := by
  obtain ⟨g, n, hp⟩ := Sec.build_good segs Sec.empty t Sec.empty_good ha h
  have hn := n (Or.inr hne)
  refine ⟨g.start, by rw [Sec.length, g.start, sub_zero], fun x h0 h1 => ?_⟩
  obtain ⟨p, hpm, hf, a1, a2⟩ := joined_find t.pieces g.joined hn h0 h1
  refine ⟨p, hpm, a1, a2, ?_, fun hk h3 => hp hk (by simp [Sec.empty]) p hpm x a1 h3⟩
  unfold Sec.eval
  cases hps : t.pieces with
  | nil => exact absurd hps hn
  | cons p0 ps =>
    rw [hps] at hf
    simp only
    rw [hf]

theorem linPieces_interp (xs : List K) : ∀ ys : List K, xs.Pairwise (· < ·) → ys.length = xs.length →
    ∀ k (h : k + 1 < xs.length) (h' : k + 1 < ys.length), ∃ p ∈ linPieces xs ys,
      p.x0 = xs[k] ∧ p.x1 = xs[k + 1] ∧
      ∀ r, p.eval (xs[k] + r * (xs[k + 1] - xs[k])) = ys[k] + r * (ys[k + 1] - ys[k]) := by
  induction xs with
  | nil => intro ys _ _ k h; simp at h
  | cons a xs ih =>
    intro ys hs hl k h h'
    rcases xs with _ | ⟨b, xs⟩
    · simp at h
    rcases ys with _ | ⟨c, _ | ⟨d, ys⟩⟩
    · simp at h'
    · simp at h'
    rw [List.pairwise_cons] at hs
    cases k with
    | zero =>
      refine ⟨_, List.mem_cons_self, rfl, rfl, fun r => ?_⟩
      have : b - a ≠ 0 := sub_ne_zero.2 (hs.1 b (by simp)).ne'
      simp only [Piece.eval, polyval, List.foldl_cons, List.foldl_nil, List.getElem_cons_zero,
        List.getElem_cons_succ, Nat.reduceAdd]
      field_simp
      ring
    | succ k =>
      obtain ⟨p, hp, h1⟩ := ih (d :: ys) hs.2 (by simpa using hl) k (by simpa using h) (by simpa using h')
      exact ⟨p, List.mem_cons_of_mem _ hp, by simpa using h1⟩

/-- **C53** (values): an accepted constant segment is one piece of that value over its whole
range; an accepted linear or piecewise linear segment has for each two neighbouring stations
a piece between them that interpolates their values linearly. -/
theorem C53_values (fit : Fit K) (t t' : Sec K) (s : Seg K) (h : t.add fit s = .ok t') :
    (∀ v, s.kind = .const → s.ei = .values [v] → ∃ p ∈ t'.pieces, p.x0 = s.x.headD 0 ∧
      p.x1 = s.x.getLastD 0 ∧ ∀ x, p.eval x = v) ∧
    (∀ ys, s.kind = .linear ∨ s.kind = .pwl → s.ei = .values ys → ys.length = s.x.length ∧
      ∀ k (h : k + 1 < s.x.length) (h' : k + 1 < ys.length), ∃ p ∈ t'.pieces,
        p.x0 = s.x[k] ∧ p.x1 = s.x[k + 1] ∧
        ∀ r, p.eval (s.x[k] + r * (s.x[k + 1] - s.x[k])) = ys[k] + r * (ys[k + 1] - ys[k])) := by
  obtain ⟨h1, h2, h3, ps, ks, hp, rfl⟩ := Sec.add_ok h
  refine ⟨fun v hk he => ?_, fun ys hk he => ?_⟩
  · rcases segPieces_ok hp with ⟨_, w, he', _, rfl⟩ | ⟨hk', _⟩ | ⟨hk', _⟩ | ⟨hk', _⟩
    · rw [he] at he'
      obtain rfl : v = w := by simpa using he'
      exact ⟨⟨s.x.headD 0, s.x.getLastD 0, [v], 0⟩, by simp, rfl, rfl, fun x => by
        simp [Piece.eval, polyval]⟩
    all_goals (rw [hk] at hk'; simp at hk')
  · rcases segPieces_ok hp with ⟨hk', _⟩ | ⟨_, vs, he', hl, _, rfl⟩ | ⟨hk', _⟩ | ⟨hk', _⟩
    · rcases hk with hk | hk <;> (rw [hk] at hk'; cases hk')
    · rw [he] at he'
      obtain rfl : ys = vs := by simpa using he'
      refine ⟨hl, fun k h h' => ?_⟩
      obtain ⟨p, hp, h4⟩ := linPieces_interp s.x ys h2 hl k h h'
      exact ⟨p, List.mem_append.2 (Or.inr hp), h4⟩
    all_goals (rcases hk with hk | hk <;> (rw [hk] at hk'; cases hk'))

/-! ### Breakpoints -/

theorem keepApart_sorted {tol : K} (ht : 0 ≤ tol) (l : List K) : ∀ a, (a :: l).Pairwise (· ≤ ·) →
    (a :: keepApart tol a l).Pairwise (· < ·) := by
  induction l with
  | nil => intro a _; exact List.pairwise_singleton _ _
  | cons b l ih =>
    intro a h
    have hab : a ≤ b := (List.pairwise_cons.1 h).1 b (by simp)
    have hb := ih b (List.pairwise_cons.1 h).2
    unfold keepApart
    split
    · rename_i hlt
      rw [List.pairwise_cons]
      refine ⟨fun c hc => ?_, hb⟩
      rcases List.mem_cons.1 hc with rfl | hc
      · linarith
      · have := (List.pairwise_cons.1 hb).1 c hc
        linarith
    · rw [List.pairwise_cons]
      refine ⟨fun c hc => ?_, (List.pairwise_cons.1 hb).2⟩
      have := (List.pairwise_cons.1 hb).1 c hc
      linarith

theorem keepApart_sub (tol : K) (l : List K) : ∀ a, ∀ c ∈ keepApart tol a l, c ∈ l := by
  induction l with
  | nil => intro a c hc; simp [keepApart] at hc
  | cons b l ih =>
    intro a c hc
    unfold keepApart at hc
    split at hc
    · rcases List.mem_cons.1 hc with rfl | hc
      · simp
      · exact List.mem_cons_of_mem _ (ih b c hc)
    · exact List.mem_cons_of_mem _ (ih b c hc)

theorem keepApart_mem (tol : K) (l : List K) : ∀ a, (a :: l).Pairwise (· ≤ ·) → ∀ e ∈ l, a < e →
    (∀ f ∈ a :: l, f < e → tol < e - f) → e ∈ keepApart tol a l := by
  induction l with
  | nil => intro a _ e he; simp at he
  | cons b l ih =>
    intro a h e he hae hf
    unfold keepApart
    have hb := (List.pairwise_cons.1 h).2
    by_cases hbe : b < e
    · have hel : e ∈ l := by
        rcases List.mem_cons.1 he with rfl | he
        · exact absurd hbe (lt_irrefl _)
        · exact he
      have := ih b hb e hel hbe fun f hf' => hf f (List.mem_cons_of_mem _ hf')
      split
      · exact List.mem_cons_of_mem _ this
      · exact this
    · have heq : e = b := by
        rcases List.mem_cons.1 he with rfl | he
        · rfl
        · exact le_antisymm (not_lt.1 hbe) ((List.pairwise_cons.1 hb).1 e he)
      subst heq
      rw [if_pos (hf a (by simp) hae)]
      simp

/-- **C53** (breakpoints): for every section, however built, the breakpoints are strictly
increasing and are all starts, joins or kinks; and each of these that is more than
`1e-9 max(1, length)` above every smaller one is a breakpoint. -/
theorem C53_breakpoints (t : Sec K) :
    t.breakpoints.Pairwise (· < ·) ∧
    (∀ e ∈ t.breakpoints, e ∈ [t.x0] ++ t.joins ++ t.kinks) ∧
    ∀ e ∈ [t.x0] ++ t.joins ++ t.kinks,
      (∀ f ∈ [t.x0] ++ t.joins ++ t.kinks, f < e → 1 / 10 ^ 9 * max 1 t.length < e - f) →
      e ∈ t.breakpoints := by
  have hs := List.pairwise_insertionSort (r := fun a b : K => a ≤ b) ([t.x0] ++ t.joins ++ t.kinks)
  have hm : ∀ e, e ∈ ([t.x0] ++ t.joins ++ t.kinks).insertionSort (· ≤ ·) ↔ e ∈ [t.x0] ++ t.joins ++ t.kinks :=
    fun e => (List.perm_insertionSort (r := fun a b : K => a ≤ b) _).mem_iff
  have htol : (0 : K) ≤ 1 / 10 ^ 9 * max 1 t.length :=
    mul_nonneg (by positivity) (le_trans zero_le_one (le_max_left _ _))
  unfold Sec.breakpoints
  simp only [← hm]
  generalize ([t.x0] ++ t.joins ++ t.kinks).insertionSort (· ≤ ·) = l at hs
  cases l with
  | nil => simp
  | cons a l =>
    simp only
    refine ⟨keepApart_sorted htol l a hs, ?_, ?_⟩
    · intro e he
      rcases List.mem_cons.1 he with rfl | he
      · simp
      · exact List.mem_cons_of_mem _ (keepApart_sub _ l a e he)
    · intro e he hf
      by_cases hae : a < e
      · refine List.mem_cons_of_mem _ (keepApart_mem _ l a hs e ?_ hae hf)
        rcases List.mem_cons.1 he with rfl | he
        · exact absurd hae (lt_irrefl _)
        · exact he
      · rcases List.mem_cons.1 he with rfl | he
        · simp
        · have := (List.pairwise_cons.1 hs).1 e he
          have : e = a := le_antisymm (not_lt.1 hae) this
          rw [this]
          simp

theorem segPieces_kinks {fit : Fit K} {s : Seg K} {x0 x1 : K} {ps : List (Piece K)} {ks : List K}
    (h : segPieces fit s x0 x1 = .ok (ps, ks)) (hk : s.kind = .pwl) : ks = s.x.tail.dropLast := by
  obtain ⟨kind, x, ei, degree⟩ := s
  simp only at hk
  subst hk
  unfold segPieces at h
  cases ei with
  | func f => simp at h
  | values vs =>
    simp only at h
    split at h
    · cases h
    · split at h
      · exact (Prod.mk.inj (Except.ok.inj h)).2.symm
      · cases h

theorem Sec.build_stations {fit : Fit K} (segs : List (Seg K)) : ∀ (t t' : Sec K),
    t.build fit segs = .ok t' → (∀ e ∈ t.joins, e ∈ t'.joins) ∧ (∀ e ∈ t.kinks, e ∈ t'.kinks) ∧
      ∀ s ∈ segs, s.x.getLastD 0 ∈ t'.joins ∧ (s.kind = .pwl → ∀ e ∈ s.x.tail.dropLast, e ∈ t'.kinks) := by
  induction segs with
  | nil =>
    intro t t' h
    cases h
    exact ⟨fun _ h => h, fun _ h => h, by simp⟩
  | cons s ss ih =>
    intro t t' h
    unfold Sec.build at h
    split at h
    · cases h
    · rename_i t1 h1
      obtain ⟨-, -, -, ps, ks, hp, e⟩ := Sec.add_ok h1
      obtain ⟨i1, i2, i3⟩ := ih t1 t' h
      subst e
      refine ⟨fun e he => i1 e (List.mem_append_left _ he), fun e he => i2 e (List.mem_append_left _ he), ?_⟩
      intro q hq
      rcases List.mem_cons.1 hq with rfl | hq
      · refine ⟨i1 _ (List.mem_append_right _ (List.mem_singleton_self _)), fun hk e he => i2 e ?_⟩
        rw [segPieces_kinks hp hk]
        exact List.mem_append_right _ he
      · exact i3 q hq

/-- **C53** (breakpoints at the stations): the end of every segment, and every inner station
of a piecewise linear one, is a breakpoint of the section, unless another start, join or
kink lies at most `1e-9 max(1, length)` below it. -/
theorem C53_stations (fit : Fit K) (segs : List (Seg K)) (t : Sec K)
    (h : Sec.empty.build fit segs = .ok t) (s : Seg K) (hs : s ∈ segs) (e : K)
    (he : e = s.x.getLastD 0 ∨ (s.kind = .pwl ∧ e ∈ s.x.tail.dropLast)) :
    e ∈ t.breakpoints ∨
      ∃ f ∈ [t.x0] ++ t.joins ++ t.kinks, f < e ∧ e - f ≤ 1 / 10 ^ 9 * max 1 t.length := by
  obtain ⟨-, -, h3⟩ := Sec.build_stations segs _ _ h
  obtain ⟨j1, j2⟩ := h3 s hs
  have hm : e ∈ [t.x0] ++ t.joins ++ t.kinks := by
    rcases he with rfl | ⟨hk, he⟩
    · exact List.mem_append_left _ (List.mem_append_right _ j1)
    · exact List.mem_append_right _ (j2 hk e he)
  by_cases hf : ∀ f ∈ [t.x0] ++ t.joins ++ t.kinks, f < e → 1 / 10 ^ 9 * max 1 t.length < e - f
  · exact Or.inl ((C53_breakpoints t).2.2 e hm hf)
  · push Not at hf
    exact Or.inr hf

theorem Sec.build_fin {fit : Fit K} (segs : List (Seg K)) (hne : segs ≠ []) : ∀ (t t' : Sec K),
    t.build fit segs = .ok t' → t'.fin = (segs.getLast hne).x.getLastD 0 := by
  induction segs with
  | nil => exact absurd rfl hne
  | cons s ss ih =>
    intro t t' h
    unfold Sec.build at h
    split at h
    · cases h
    · rename_i t1 h1
      by_cases hs : ss = []
      · subst hs
        cases h
        obtain ⟨-, -, -, ps, ks, hp, e⟩ := Sec.add_ok h1
        rw [e]
        rfl
      · rw [List.getLast_cons hs]
        exact ih hs t1 t' h

/-- **C53** (length of the span): a section of segments that abut exactly fits a span of
length `L` exactly if its last station is at `L` up to `1e-6 max(1, |L|)`; without segments
it fits no span. -/
theorem C53_fits (fit : Fit K) (segs : List (Seg K)) (t : Sec K) (h : Sec.empty.build fit segs = .ok t)
    (ha : Abut 0 segs) (L : K) :
    t.validate L = .ok () ↔ ∃ hne : segs ≠ [],
      |(segs.getLast hne).x.getLastD 0 - L| ≤ 1 / 10 ^ 6 * max 1 |L| := by
  by_cases hne : segs = []
  · subst hne
    cases h
    simp [Sec.validate, Sec.empty]
  · obtain ⟨g, n, -⟩ := Sec.build_good segs Sec.empty t Sec.empty_good ha h
    have hp := n (Or.inr hne)
    have hfin := Sec.build_fin segs hne _ _ h
    unfold Sec.validate
    rw [if_neg hp, Sec.length, g.start, sub_zero, hfin]
    constructor
    · intro hv
      split at hv
      · rename_i hL
        exact ⟨hne, hL⟩
      · cases hv
    · intro hL
      rw [if_pos hL.2]

theorem joined_outside {a b : K} (ps : List (Piece K)) (h : Joined a ps b) :
    ∀ p ∈ ps, a ≤ p.x0 ∧ p.x1 ≤ b := by
  induction ps generalizing a with
  | nil => simp
  | cons q ps ih =>
    intro p hp
    rcases List.mem_cons.1 hp with rfl | hp
    · exact ⟨h.1.ge, h.2.2.le⟩
    · obtain ⟨h1, h2⟩ := ih h.2.2 p hp
      exact ⟨by rw [← h.1]; exact h.2.1.le.trans h1, h2⟩

theorem joined_last {a b : K} (ps : List (Piece K)) : ∀ (a : K) (p : Piece K), Joined a (p :: ps) b →
    (ps.getLastD p) ∈ p :: ps ∧ (ps.getLastD p).x1 = b := by
  induction ps with
  | nil => intro a p h; exact ⟨by simp, h.2.2⟩
  | cons q ps ih =>
    intro a p h
    obtain ⟨h1, h2⟩ := ih p.x1 q h.2.2
    have e : (q :: ps).getLastD p = ps.getLastD q := by
      cases ps with
      | nil => rfl
      | cons r rs => simp [List.getLastD_eq_getLast?, List.getLast?_cons]
    rw [e]
    exact ⟨List.mem_cons_of_mem _ h1, h2⟩

/-- **C53** (outside): beyond the ends of a section of segments that abut exactly (by more
than `1e-12`) the rigidity is that of the piece at that end, continued. -/
theorem C53_outside (fit : Fit K) (segs : List (Seg K)) (t : Sec K) (hne : segs ≠ [])
    (h : Sec.empty.build fit segs = .ok t) (ha : Abut 0 segs) (x : K) :
    (x < -(1 / 10 ^ 12) → ∃ p ∈ t.pieces, p.x0 = 0 ∧ t.eval x = .ok (some (p.eval x))) ∧
    (t.fin + 1 / 10 ^ 12 < x → ∃ p ∈ t.pieces, p.x1 = t.fin ∧ t.eval x = .ok (some (p.eval x))) := by
  have hε : (0 : K) < 1 / 10 ^ 12 := by positivity
  obtain ⟨g, n, -⟩ := Sec.build_good segs Sec.empty t Sec.empty_good ha h
  have hn := n (Or.inr hne)
  have hout := joined_outside t.pieces g.joined
  have hj := g.joined
  have hfin : 0 ≤ t.fin := g.joined.le
  unfold Sec.eval
  cases hps : t.pieces with
  | nil => exact absurd hps hn
  | cons p0 ps =>
    rw [hps] at hout hj
    obtain ⟨l1, l2⟩ := joined_last (b := t.fin) (a := 0) ps 0 p0 hj
    constructor
    · intro hx
      have hf : ((p0 :: ps).find? fun p => decide (p.x0 - 1 / 10 ^ 12 ≤ x ∧ x ≤ p.x1 + 1 / 10 ^ 12)) = none := by
        rw [List.find?_eq_none]
        intro p hp hc
        simp only [decide_eq_true_eq] at hc
        linarith [(hout p hp).1, hc.1]
      refine ⟨p0, List.mem_cons_self, hj.1, ?_⟩
      simp only
      rw [hf]
      simp only
      rw [if_pos (by rw [g.start]; linarith)]
    · intro hx
      have hf : ((p0 :: ps).find? fun p => decide (p.x0 - 1 / 10 ^ 12 ≤ x ∧ x ≤ p.x1 + 1 / 10 ^ 12)) = none := by
        rw [List.find?_eq_none]
        intro p hp hc
        simp only [decide_eq_true_eq] at hc
        linarith [(hout p hp).2, hc.2]
      refine ⟨ps.getLastD p0, l1, l2, ?_⟩
      simp only
      rw [hf]
      simp only
      rw [if_neg (by rw [g.start]; linarith), if_pos (by linarith)]

/-! ### Concrete cases and violations -/

theorem segType_ne : SegType.linear ≠ .unknown ∧ SegType.const ≠ .unknown ∧ SegType.pwl ≠ .unknown ∧
    SegType.poly ≠ .unknown := by refine ⟨?_, ?_, ?_, ?_⟩ <;> intro h <;> cases h

/-- A haunch, a flat part and a kinked part. -/
def exSec : List (Seg ℚ) :=
  [⟨.linear, [0, 3], .values [3, 1], none⟩, ⟨.const, [3, 9], .values [1], none⟩,
    ⟨.pwl, [9, 10, 12], .values [1, 2, 3], none⟩]

example (fit : Fit ℚ) : ∃ t, Sec.empty.build fit exSec = .ok t ∧ Abut 0 exSec ∧ t.fin = 12 ∧
    t.breakpoints = [0, 3, 9, 10, 12] ∧ t.eval 2 = .ok (some (5 / 3)) ∧ t.eval 11 = .ok (some (5 / 2)) := by
  refine ⟨⟨[⟨0, 3, [-2 / 3, 3], 1⟩, ⟨3, 9, [1], 0⟩, ⟨9, 10, [1, -8], 1⟩, ⟨10, 12, [1 / 2, -3], 1⟩],
    [3, 9, 12], [10], 0, 12⟩, ?_, ⟨rfl, rfl, rfl, trivial⟩, rfl, by decide +kernel, ?_, ?_⟩
  · norm_num [exSec, Sec.build, Sec.add, Sec.empty, segPieces, linPieces, strictly, allPos, segType_ne]
    simp only [if_neg (List.cons_ne_nil _ _)]
    norm_num
  · norm_num [Sec.eval, Piece.eval, polyval, List.find?]
  · norm_num [Sec.eval, Piece.eval, polyval, List.find?]

/-- **C53 fails** (gap): a second segment starting half a nanometre after the end of the
first is accepted, and the coordinates between are assigned to no piece, so that the value
there is whatever the uninitialised array holds. -/
theorem C53_gap_violation (fit : Fit ℚ) : ∃ t,
    Sec.empty.build fit [⟨.const, [0, 1], .values [1], none⟩,
      ⟨.const, [1 + 1 / (2 * 10 ^ 9), 2], .values [1], none⟩] = .ok t ∧
    t.x0 = 0 ∧ t.fin = 2 ∧ t.eval (1 + 1 / (4 * 10 ^ 9)) = .ok none := by
  refine ⟨⟨[⟨0, 1, [1], 0⟩, ⟨1 + 1 / (2 * 10 ^ 9), 2, [1], 0⟩], [1, 2], [], 0, 2⟩, ?_, rfl, rfl, ?_⟩
  · norm_num [Sec.build, Sec.add, Sec.empty, segPieces, linPieces, strictly, allPos, segType_ne, abs_of_pos]
  · norm_num [Sec.eval, Piece.eval, polyval, List.find?]

/-- A fit that passes through the points when the degree is one less than their number. -/
def Fit.Interpolates (fit : Fit K) : Prop :=
  ∀ xs ys d, xs.length = d + 1 → ys.length = d + 1 → xs.Pairwise (· < ·) →
    (fit xs ys d).length = d + 1 ∧
      ∀ i (hi : i < xs.length) (hi' : i < ys.length), polyval (fit xs ys d) xs[i] = ys[i]

/-- **C53 fails** (polynomials): the positive samples 17, 1, 1 at 0, 1, 2 are accepted, and
every fit through them gives a rigidity of -1 at 3/2. -/
theorem C53_poly_violation (fit : Fit ℚ) (hfit : fit.Interpolates) : ∃ t,
    Sec.empty.build fit [⟨.poly, [0, 1, 2], .values [17, 1, 1], none⟩] = .ok t ∧
    t.x0 = 0 ∧ t.fin = 2 ∧ t.eval (3 / 2) = .ok (some (-1)) := by
  obtain ⟨h1, h2⟩ := hfit [0, 1, 2] [17, 1, 1] 2 rfl rfl (by norm_num)
  have e0 := h2 0 (by simp) (by simp)
  have e1 := h2 1 (by simp) (by simp)
  have e2 := h2 2 (by simp) (by simp)
  generalize hc : fit [0, 1, 2] [17, 1, 1] 2 = cs at *
  obtain ⟨a, b, c, rfl⟩ : ∃ a b c, cs = [a, b, c] := by
    rcases cs with _ | ⟨a, _ | ⟨b, _ | ⟨c, _ | ⟨d, cs⟩⟩⟩⟩
    · simp at h1
    · simp at h1
    · simp at h1
    · exact ⟨a, b, c, rfl⟩
    · simp at h1
  norm_num [polyval] at e0 e1 e2
  refine ⟨⟨[⟨0, 2, [a, b, c], 2⟩], [2], [], 0, 2⟩, ?_, rfl, rfl, ?_⟩
  · norm_num [Sec.build, Sec.add, Sec.empty, segPieces, linPieces, strictly, allPos, segType_ne, hc, show Int.toNat 2 = 2 from rfl]
  · norm_num [Sec.eval, Piece.eval, polyval, List.find?]
    linarith

/-- **C53 fails** (just after a join): a linear segment down to a small positive rigidity,
followed by a constant one, is evaluated by the linear piece for `1e-12` beyond its end,
where it is negative. -/
theorem C53_extrapolation_violation (fit : Fit ℚ) : ∃ t,
    Sec.empty.build fit [⟨.linear, [0, 1], .values [1, 1 / 10 ^ 13], none⟩,
      ⟨.const, [1, 2], .values [1], none⟩] = .ok t ∧
    ∃ v, t.eval (1 + 1 / 10 ^ 12) = .ok (some v) ∧ v < 0 := by
  refine ⟨⟨[⟨0, 1, [1 / 10 ^ 13 - 1, 1], 1⟩, ⟨1, 2, [1], 0⟩], [1, 2], [], 0, 2⟩, ?_,
    (1 / 10 ^ 13 - 1) * (1 + 1 / 10 ^ 12) + 1, ?_, by norm_num⟩
  · norm_num [Sec.build, Sec.add, Sec.empty, segPieces, linPieces, strictly, allPos, segType_ne]
  · norm_num [Sec.eval, Piece.eval, polyval, List.find?]

end PyCBA
