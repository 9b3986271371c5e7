import Verif.Section.Props
import Verif.Stiffness.Timo
import Verif.Stiffness.Props

set_option linter.unusedSectionVars false
set_option linter.unusedSimpArgs false

/-!
C72: members with a variable section whose segments all have the same rigidity.
Model of `Beam._gauss_nodes` on a section, and the stiffness and fixed-end forces.
-/

namespace PyCBA

open Matrix

variable {K : Type*} [Field K] [LinearOrder K] [IsStrictOrderedRing K]

/-! ### Model -/

/-- `np.polynomial.legendre.leggauss`: nodes and weights on `[-1, 1]`. -/
abbrev Leg (K : Type*) := ℕ → List (K × K)

/-- The contract of `leggauss(2)`: exact for the powers below 4.  (No larger table is used
by constant pieces.) -/
def Leg.Sound (leg : Leg K) : Prop :=
  ∀ j : ℕ, j < 4 →
    ((leg 2).map fun q : K × K => q.2 * q.1 ^ j).sum = (1 - (-1) ^ (j + 1)) / ((j : K) + 1)

/-- The value of a section where it has one (an entry never written, or an empty section,
stands as 0). -/
def Sec.value (t : Sec K) (x : K) : K := match t.eval x with
  | .ok (some v) => v
  | _ => 0

/-- The number of Gauss points of a piece, `beam.py` 1087-1090. -/
def Piece.points (p : Piece K) : ℕ := if p.degree = 0 then 2 else max (2 * p.degree + 8) 16

/-- `Beam._gauss_nodes`, `beam.py` 1083-1094, with the rigidity at each node. -/
def Sec.gauss (leg : Leg K) (t : Sec K) : List (GNode K) :=
  t.pieces.flatMap fun p => (leg p.points).map fun q =>
    let x := 1 / 2 * (p.x1 - p.x0) * (q.1 + 1) + p.x0
    ⟨x, 1 / 2 * (p.x1 - p.x0) * q.2, t.value x⟩

/-- What the member code reads from a section. -/
def Sec.data (leg : Leg K) (t : Sec K) : SecData K := ⟨t.gauss leg, t.value, t.breakpoints⟩

/-! ### Sections of constant rigidity -/

/-- All segments are constant with the same value. -/
def ConstSegs (e : K) (segs : List (Seg K)) : Prop :=
  ∀ s ∈ segs, s.kind = .const ∧ s.ei = .values [e]

theorem Sec.build_const {fit : Fit K} {e : K} (segs : List (Seg K)) (hc : ConstSegs e segs) :
    ∀ t t' : Sec K, (∀ p ∈ t.pieces, p.coeffs = [e] ∧ p.degree = 0) → t.build fit segs = .ok t' →
      ∀ p ∈ t'.pieces, p.coeffs = [e] ∧ p.degree = 0 := by
  induction segs with
  | nil =>
    intro t t' h0 h
    cases h
    exact h0
  | cons s ss ih =>
    intro t t' h0 h
    unfold Sec.build at h
    split at h
    · cases h
    · rename_i t1 h1
      refine ih (fun s' hs' => hc s' (by simp [hs'])) t1 t' ?_ h
      obtain ⟨_, _, _, ps, ks, hp, rfl⟩ := Sec.add_ok h1
      obtain ⟨hk, he⟩ := hc s (by simp)
      intro p hpm
      rcases List.mem_append.1 hpm with hpm | hpm
      · exact h0 p hpm
      · rcases segPieces_ok hp with ⟨_, v, he', _, rfl⟩ | ⟨hk', _⟩ | ⟨hk', _⟩ | ⟨hk', _⟩
        · rw [he] at he'
          obtain rfl : e = v := by simpa using he'
          rw [List.mem_singleton.1 hpm]
          exact ⟨rfl, rfl⟩
        all_goals (rw [hk] at hk'; simp at hk')

theorem Sec.value_const {fit : Fit K} {e : K} {segs : List (Seg K)} (hc : ConstSegs e segs)
    (hne : segs ≠ []) (ha : Abut 0 segs) {t : Sec K} (h : Sec.empty.build fit segs = .ok t) (x : K) :
    t.value x = e := by
  have hp := Sec.build_const segs hc Sec.empty t (by simp [Sec.empty]) h
  have hev : ∀ p ∈ t.pieces, p.eval x = e := fun p hpm => by
    simp [Piece.eval, (hp p hpm).1, polyval]
  by_cases hx : 0 ≤ x ∧ x ≤ t.fin
  · obtain ⟨_, _, ht⟩ := C53_total_partial fit segs t hne h ha
    obtain ⟨p, hpm, _, _, he, _⟩ := ht x hx.1 hx.2
    rw [Sec.value, he, ← hev p hpm]
  · obtain ⟨g, n, _⟩ := Sec.build_good segs Sec.empty t Sec.empty_good ha h
    have hn := n (Or.inr hne)
    have hx0 : t.x0 = 0 := g.start
    unfold Sec.value Sec.eval
    cases hps : t.pieces with
    | nil => exact absurd hps hn
    | cons p0 ps =>
      rw [hps] at hev
      simp only
      split
      · rename_i heq
        split at heq
        · rename_i p hf
          have := List.mem_of_find?_eq_some hf
          injection heq with heq
          injection heq with heq
          rw [← heq]
          exact hev p this
        · split at heq
          · injection heq with heq
            injection heq with heq
            rw [← heq]
            exact hev p0 (by simp)
          · split at heq
            · injection heq with heq
              injection heq with heq
              rw [← heq]
              refine hev _ ?_
              cases ps with
              | nil => simp
              | cons q qs => exact List.mem_cons_of_mem _ (getLastD_mem' _ _ (by simp))
            · rename_i h1 h2
              exfalso
              push Not at hx
              rw [hx0] at h1
              exact h2 (hx (not_lt.1 h1))
      · rename_i hne'
        exfalso
        split at hne'
        · exact hne' _ rfl
        · split at hne'
          · exact hne' _ rfl
          · split at hne'
            · exact hne' _ rfl
            · rename_i h1 h2
              push Not at hx
              rw [hx0] at h1
              exact h2 (hx (not_lt.1 h1))

/-- The two-point rule integrates a quadratic exactly over a piece. -/
theorem gauss2_exact {leg : Leg K} (hleg : leg.Sound) (a b c0 c1 c2 : K) :
    ((leg 2).map fun q => 1 / 2 * (b - a) * q.2 * (c0 + c1 * (1 / 2 * (b - a) * (q.1 + 1) + a)
      + c2 * (1 / 2 * (b - a) * (q.1 + 1) + a) ^ 2)).sum
      = (c0 * b + c1 / 2 * b ^ 2 + c2 / 3 * b ^ 3) - (c0 * a + c1 / 2 * a ^ 2 + c2 / 3 * a ^ 3) := by
  have m0 := hleg 0 (by norm_num)
  have m1 := hleg 1 (by norm_num)
  have m2 := hleg 2 (by norm_num)
  have key : ∀ l : List (K × K), (l.map fun q => 1 / 2 * (b - a) * q.2 *
      (c0 + c1 * (1 / 2 * (b - a) * (q.1 + 1) + a) + c2 * (1 / 2 * (b - a) * (q.1 + 1) + a) ^ 2)).sum
      = 1 / 2 * (b - a) * (
        (c0 + c1 * ((a + b) / 2) + c2 * ((a + b) / 2) ^ 2) * (l.map fun q => q.2 * q.1 ^ 0).sum
        + (c1 * ((b - a) / 2) + 2 * c2 * ((b - a) / 2) * ((a + b) / 2)) * (l.map fun q => q.2 * q.1 ^ 1).sum
        + c2 * ((b - a) / 2) ^ 2 * (l.map fun q => q.2 * q.1 ^ 2).sum) := by
    intro l
    induction l with
    | nil => simp
    | cons q l ih =>
      simp only [List.map_cons, List.sum_cons, ih]
      ring
  rw [key, m0, m1, m2]
  norm_num
  ring

theorem gauss_sum {leg : Leg K} (hleg : leg.Sound) (v : K → K) (c0 c1 c2 : K) (f : GNode K → K)
    (hf : ∀ x w, f ⟨x, w, v x⟩ = w * (c0 + c1 * x + c2 * x ^ 2)) (ps : List (Piece K)) :
    ∀ a b : K, Joined a ps b → (∀ p ∈ ps, p.degree = 0) →
    ((ps.flatMap fun p => (leg p.points).map fun q =>
      (⟨1 / 2 * (p.x1 - p.x0) * (q.1 + 1) + p.x0, 1 / 2 * (p.x1 - p.x0) * q.2,
        v (1 / 2 * (p.x1 - p.x0) * (q.1 + 1) + p.x0)⟩ : GNode K)).map f).sum
      = (c0 * b + c1 / 2 * b ^ 2 + c2 / 3 * b ^ 3) - (c0 * a + c1 / 2 * a ^ 2 + c2 / 3 * a ^ 3) := by
  induction ps with
  | nil =>
    intro a b h _
    have : a = b := h
    subst this
    simp
  | cons p ps ih =>
    intro a b h hd
    obtain ⟨h1, h2, h3⟩ := h
    rw [List.flatMap_cons, List.map_append, List.sum_append,
      ih p.x1 b h3 fun q hq => hd q (by simp [hq])]
    have hp : p.points = 2 := by simp [Piece.points, hd p (by simp)]
    rw [hp, List.map_map]
    have := gauss2_exact hleg p.x0 p.x1 c0 c1 c2
    have e1 : ((leg 2).map (f ∘ fun q => (⟨1 / 2 * (p.x1 - p.x0) * (q.1 + 1) + p.x0,
        1 / 2 * (p.x1 - p.x0) * q.2, v (1 / 2 * (p.x1 - p.x0) * (q.1 + 1) + p.x0)⟩ : GNode K))).sum
        = ((leg 2).map fun q => 1 / 2 * (p.x1 - p.x0) * q.2 *
          (c0 + c1 * (1 / 2 * (p.x1 - p.x0) * (q.1 + 1) + p.x0)
          + c2 * (1 / 2 * (p.x1 - p.x0) * (q.1 + 1) + p.x0) ^ 2)).sum := by
      congr 1
      refine List.map_congr_left fun q _ => ?_
      simp only [Function.comp_apply, hf]
    rw [e1, this, h1]
    ring

/-- The flexibility of a section of constant rigidity, however it is divided. -/
theorem flexibility_const {fit : Fit K} {leg : Leg K} (hleg : leg.Sound) {e : K} (he : 0 < e)
    {segs : List (Seg K)} (hc : ConstSegs e segs) (hne : segs ≠ []) (ha : Abut 0 segs) {t : Sec K}
    (h : Sec.empty.build fit segs = .ok t) (hL : t.fin ≠ 0) :
    flexibility (t.data leg).nodes t.fin
      = !![t.fin / (3 * e), -t.fin / (6 * e); -t.fin / (6 * e), t.fin / (3 * e)] := by
  obtain ⟨g, n, _⟩ := Sec.build_good segs Sec.empty t Sec.empty_good ha h
  have hd := Sec.build_const segs hc Sec.empty t (by simp [Sec.empty]) h
  have hv := Sec.value_const hc hne ha h
  have S := fun c0 c1 c2 f hf => gauss_sum hleg t.value c0 c1 c2 f hf t.pieces 0 t.fin g.joined
    (fun p hp => (hd p hp).2)
  have e00 := S (1 / e) (-2 / (t.fin * e)) (1 / (t.fin ^ 2 * e))
    (fun n => n.w * (1 - n.x / t.fin) * (1 - n.x / t.fin) / n.EI)
    (fun x w => by simp only [hv]; field_simp; ring)
  have e01 := S 0 (-1 / (t.fin * e)) (1 / (t.fin ^ 2 * e))
    (fun n => n.w * (1 - n.x / t.fin) * (-n.x / t.fin) / n.EI)
    (fun x w => by simp only [hv]; field_simp; ring)
  have e11 := S 0 0 (1 / (t.fin ^ 2 * e))
    (fun n => n.w * (-n.x / t.fin) * (-n.x / t.fin) / n.EI)
    (fun x w => by simp only [hv]; field_simp; ring)
  unfold flexibility Sec.data Sec.gauss
  simp only
  rw [e00, e01, e11]
  congr 1
  ext i j
  fin_cases i <;> fin_cases j <;> simp <;> field_simp <;> ring

theorem inv2_flex (e L : K) (he : 0 < e) (hL : 0 < L) :
    inv2 !![L / (3 * e), -L / (6 * e); -L / (6 * e), L / (3 * e)]
      = .ok !![4 * e / L, 2 * e / L; 2 * e / L, 4 * e / L] := by
  have hd : L / (3 * e) * (L / (3 * e)) - -L / (6 * e) * (-L / (6 * e)) = L ^ 2 / (12 * e ^ 2) := by
    field_simp
    ring
  have h0 : L ^ 2 / (12 * e ^ 2) ≠ 0 := by positivity
  simp only [inv2]
  simp only [Matrix.of_apply, Matrix.cons_val', Matrix.cons_val_zero, Matrix.cons_val_one,
    Matrix.cons_val_fin_one]
  rw [hd, if_neg h0]
  congr 1
  ext i j
  fin_cases i <;> fin_cases j <;> simp <;> field_simp <;> ring

/-- **C72** (stiffness): a member whose section is described by any number of exactly abutting
constant segments of the same rigidity has the stiffness of the prismatic member, for every
member type and every Gauss-Legendre table meeting its contract. -/
theorem C72_stiffness (fit : Fit K) (leg : Leg K) (hleg : leg.Sound) (e : K) (he : 0 < e)
    (segs : List (Seg K)) (hc : ConstSegs e segs) (hne : segs ≠ []) (ha : Abut 0 segs) (t : Sec K)
    (h : Sec.empty.build fit segs = .ok t) (hL : 0 < t.fin) (et : EType) :
    (⟨.section (t.data leg), t.fin, et, none⟩ : Member K).spanK
      = (⟨.const e, t.fin, et, none⟩ : Member K).spanK := by
  obtain ⟨c1, c2, c3⟩ := condenseFor_kFF e t.fin he hL
  simp only [Member.spanK, kNonprismatic, flexibility_const hleg he hc hne ha h hL.ne',
    inv2_flex e t.fin he hL, ← kFF_eq]
  cases et
  · rfl
  · exact c1
  · exact c2
  · exact c3

/-! ### Fixed-end forces -/

theorem sort_dedup_eq {l r : List K} (hr : r.Pairwise (· < ·)) (hm : ∀ x, x ∈ l ↔ x ∈ r) :
    (l.mergeSort (fun a b => a ≤ b)).dedup = r := by
  have hs : (l.mergeSort (fun a b => a ≤ b)).Pairwise (· ≤ ·) := by
    have := List.pairwise_mergeSort (le := fun a b : K => decide (a ≤ b))
      (by intro a b c; simp; exact le_trans) (by intro a b; simp; exact le_total a b) l
    exact this.imp (by intro a b; simp)
  have hs' := hs.sublist (List.dedup_sublist _)
  refine List.Perm.eq_of_pairwise (le := fun a b : K => a ≤ b) (fun a b _ _ h1 h2 => le_antisymm h1 h2)
    hs' (hr.imp le_of_lt) ?_
  refine (List.perm_ext_iff_of_nodup (List.nodup_dedup _) (hr.imp ne_of_lt)).2 fun x => ?_
  rw [List.mem_dedup, List.mem_mergeSort, hm]

theorem pieces_one (bps : List K) (L : K) (hL : 0 < L) (h : ∀ x ∈ bps, x = 0 ∨ x = L) :
    pieces bps L = [(0, L)] := by
  have hε : (0 : K) ≤ 1 / 10 ^ 12 := by positivity
  unfold pieces
  simp only
  rw [sort_dedup_eq (r := [0, L]) (by simpa using hL) (fun x => by
    simp only [List.mem_append, List.mem_cons, List.not_mem_nil, or_false]
    exact ⟨fun h' => h'.elim (h x) id, Or.inr⟩)]
  have h1 : -(1 / 10 ^ 12 : K) ≤ 0 ∧ (0 : K) ≤ L + 1 / 10 ^ 12 := ⟨by linarith, by linarith⟩
  have h2 : -(1 / 10 ^ 12 : K) ≤ L ∧ L ≤ L + 1 / 10 ^ 12 := ⟨by linarith, by linarith⟩
  rw [List.filter_cons_of_pos (by simpa using h1), List.filter_cons_of_pos (by simpa using h2)]
  simp [hL]

theorem pieces_two (bps : List K) (s L : K) (h0 : 0 < s) (h1 : s < L) (hs : s ∈ bps)
    (h : ∀ x ∈ bps, x = 0 ∨ x = s ∨ x = L) : pieces bps L = [(0, s), (s, L)] := by
  have hε : (0 : K) ≤ 1 / 10 ^ 12 := by positivity
  unfold pieces
  simp only
  rw [sort_dedup_eq (r := [0, s, L]) (by simp [h0, h1, h0.trans h1]) (fun x => by
    simp only [List.mem_append, List.mem_cons, List.not_mem_nil, or_false]
    constructor
    · rintro (h' | h' | h')
      · exact h x h'
      · exact Or.inl h'
      · exact Or.inr (Or.inr h')
    · rintro (h' | h' | h')
      · exact Or.inr (Or.inl h')
      · exact Or.inl (h' ▸ hs)
      · exact Or.inr (Or.inr h'))]
  have a1 : -(1 / 10 ^ 12 : K) ≤ 0 ∧ (0 : K) ≤ L + 1 / 10 ^ 12 := ⟨by linarith, by linarith⟩
  have a2 : -(1 / 10 ^ 12 : K) ≤ L ∧ L ≤ L + 1 / 10 ^ 12 := ⟨by linarith, by linarith⟩
  have a3 : -(1 / 10 ^ 12 : K) ≤ s ∧ s ≤ L + 1 / 10 ^ 12 := ⟨by linarith, by linarith⟩
  rw [List.filter_cons_of_pos (by simpa using a1), List.filter_cons_of_pos (by simpa using a3),
    List.filter_cons_of_pos (by simpa using a2)]
  simp [h0, h1]

theorem listRange_sum (f : ℕ → K) (n : ℕ) :
    ((List.range n).map f).sum = ∑ i ∈ Finset.range n, f i := rfl

/-- Replacing the two end samples by zero. -/
theorem simpson_endsZeroed (m : ℕ) (hm : m ≠ 0) (f : K → K) (a b : K) (hab : a ≠ b) :
    simpson m (endsZeroed a b f) a b = simpson m f a b - (b - a) / (2 * m) / 3 * (f a + f b) := by
  have hm' : (m : K) ≠ 0 := Nat.cast_ne_zero.2 hm
  unfold simpson
  simp only [listRange_sum]
  set h : K := (b - a) / (2 * m) with hh
  have hh0 : h ≠ 0 := div_ne_zero (sub_ne_zero.2 hab.symm) (by positivity)
  have hb : b = a + (2 * m : ℕ) * h := by
    rw [hh]; push_cast; field_simp; ring
  have key : ∀ j : ℕ, endsZeroed a b f (a + (j : ℕ) * h) = f (a + (j : ℕ) * h)
      - ((if j = 0 then f a else 0) + (if j = 2 * m then f b else 0)) := by
    intro j
    have e0 : a + (j : K) * h = a ↔ j = 0 := by
      constructor
      · intro hj
        have : (j : K) * h = 0 := by linarith
        rcases mul_eq_zero.1 this with h' | h'
        · exact_mod_cast h'
        · exact absurd h' hh0
      · rintro rfl; simp
    have eb : a + (j : K) * h = b ↔ j = 2 * m := by
      constructor
      · intro hj
        rw [hb] at hj
        have : ((j : K) - (2 * m : ℕ)) * h = 0 := by linear_combination hj
        rcases mul_eq_zero.1 this with h' | h'
        · exact_mod_cast sub_eq_zero.1 h'
        · exact absurd h' hh0
      · rintro rfl; exact hb.symm
    unfold endsZeroed
    simp only [e0, eb]
    by_cases h1 : j = 0
    · have h2 : j ≠ 2 * m := by omega
      simp [h1, hm]
    · by_cases h2 : j = 2 * m
      · rw [if_pos (Or.inr h2), if_neg h1, if_pos h2, eb.2 h2]
        ring
      · rw [if_neg (by tauto), if_neg h1, if_neg h2]
        ring
  simp only [key]
  rw [← sub_eq_zero]
  have e1 : ∀ i : ℕ, (if 2 * i + 1 = 0 then f a else (0 : K)) = 0 := fun i => if_neg (by omega)
  have e2 : ∀ i : ℕ, (if 2 * i + 1 = 2 * m then f b else (0 : K)) = 0 := fun i => if_neg (by omega)
  have e3 : ∀ i : ℕ, (if 2 * i + 2 = 0 then f a else (0 : K)) = 0 := fun i => if_neg (by omega)
  have e4 : ∀ i ∈ Finset.range m, (if 2 * i = 2 * m then f b else (0 : K)) = 0 := fun i hi => by
    rw [Finset.mem_range] at hi
    exact if_neg (by omega)
  have e5 : ∀ i : ℕ, (if 2 * i = 0 then f a else (0 : K)) = if i = 0 then f a else 0 := fun i => by
    congr 1
    simp
  have e6 : ∀ i : ℕ, (if 2 * i + 2 = 2 * m then f b else (0 : K)) = if i = m - 1 then f b else 0 := fun i => by
    congr 1
    simp only [eq_iff_iff]
    omega
  have s0 : ∑ i ∈ Finset.range m, (if i = 0 then f a else (0 : K)) = f a := by
    rw [Finset.sum_ite_eq' (Finset.range m) 0 (fun _ => f a), if_pos (by simp; omega)]
  have s1 : ∑ i ∈ Finset.range m, (if i = m - 1 then f b else (0 : K)) = f b := by
    rw [Finset.sum_ite_eq' (Finset.range m) (m - 1) (fun _ => f b), if_pos (by simp; omega)]
  have : ∑ i ∈ Finset.range m, h / 3 * ((f (a + (2 * i : ℕ) * h)
        - ((if 2 * i = 0 then f a else 0) + (if 2 * i = 2 * m then f b else 0)))
      + 4 * (f (a + (2 * i + 1 : ℕ) * h)
        - ((if 2 * i + 1 = 0 then f a else 0) + (if 2 * i + 1 = 2 * m then f b else 0)))
      + (f (a + (2 * i + 2 : ℕ) * h)
        - ((if 2 * i + 2 = 0 then f a else 0) + (if 2 * i + 2 = 2 * m then f b else 0))))
      = ∑ i ∈ Finset.range m, (h / 3 * (f (a + (2 * i : ℕ) * h) + 4 * f (a + (2 * i + 1 : ℕ) * h)
        + f (a + (2 * i + 2 : ℕ) * h)) - h / 3 * ((if i = 0 then f a else 0)
        + (if i = m - 1 then f b else 0))) := by
    refine Finset.sum_congr rfl fun i hi => ?_
    rw [e1, e2, e3, e4 i hi, e5, e6]
    ring
  have s2 : ∑ i ∈ Finset.range m, h / 3 * ((if i = 0 then f a else 0) + (if i = m - 1 then f b else 0))
      = h / 3 * (f a + f b) := by
    rw [← Finset.mul_sum, Finset.sum_add_distrib, s0, s1]
  rw [this, Finset.sum_sub_distrib, s2]
  ring

/-- Primary end rotations of a uniform load over one integration piece, for a constant
rigidity. -/
theorem udl_piece (w e L a b : K) (he : 0 < e) (hL : 0 < L) (hab : a < b) (v : K → K)
    (hv : ∀ x, v x = e) :
    let M := fun x : K => w * L / 2 * x - w / 2 * x ^ 2
    let F0 := fun x : K => (w * L / 2 * x ^ 2 / 2 - w / 2 * x ^ 3 / 3
      - (w * L / 2 * x ^ 3 / 3 - w / 2 * x ^ 4 / 4) / L) / e
    let F1 := fun x : K => - (w * L / 2 * x ^ 3 / 3 - w / 2 * x ^ 4 / 4) / L / e
    simpson 1000 (fun x => (1 - x / L) * (endsZeroed a b ((Load.udl w).ssM L) x / v x
        + (Load.udl w).kappaImp x)) a b
      = F0 b - F0 a - (b - a) / 6000 * ((1 - a / L) * M a + (1 - b / L) * M b) / e ∧
    simpson 1000 (fun x => (-x / L) * (endsZeroed a b ((Load.udl w).ssM L) x / v x
        + (Load.udl w).kappaImp x)) a b
      = F1 b - F1 a - (b - a) / 6000 * ((-a / L) * M a + (-b / L) * M b) / e := by
  intro M F0 F1
  have hM : ∀ x, (Load.udl w).ssM L x = M x := fun x => rfl
  have hk : ∀ x, (Load.udl w).kappaImp x = 0 := fun x => rfl
  have r0 : (fun x => (1 - x / L) * (endsZeroed a b ((Load.udl w).ssM L) x / v x
        + (Load.udl w).kappaImp x)) = endsZeroed a b fun x => (1 - x / L) * (M x / e) := by
    funext x
    rw [hv, hk]
    unfold endsZeroed
    split <;> simp [hM]
  have r1 : (fun x => (-x / L) * (endsZeroed a b ((Load.udl w).ssM L) x / v x
        + (Load.udl w).kappaImp x)) = endsZeroed a b fun x => (-x / L) * (M x / e) := by
    funext x
    rw [hv, hk]
    unfold endsZeroed
    split <;> simp [hM]
  rw [r0, r1, simpson_endsZeroed _ (by norm_num) _ _ _ hab.ne, simpson_endsZeroed _ (by norm_num) _ _ _ hab.ne,
    simpson_cubic 1000 (by norm_num) _ 0 (w * L / 2 / e) (-(w / 2) / e - w * L / 2 / e / L) (w / 2 / e / L) a b
      (fun x => by simp only [M]; field_simp; ring),
    simpson_cubic 1000 (by norm_num) _ 0 0 (-(w * L / 2) / e / L) (w / 2 / e / L) a b
      (fun x => by simp only [M]; field_simp; ring)]
  constructor
  · simp only [F0, M]
    push_cast
    field_simp
    ring
  · simp only [F1, M]
    push_cast
    field_simp
    ring

/-- **C72** (one segment): under a uniform load the fixed-end forces of a member whose
section is one constant segment are those of the prismatic member, for every member type. -/
theorem C72_udl_one_segment_partial (fit : Fit K) (leg : Leg K) (hleg : leg.Sound) (e L w : K)
    (he : 0 < e) (hL : 0 < L) (et : EType) :
    ∃ t, Sec.empty.build fit [⟨.const, [0, L], .values [e], none⟩] = .ok t ∧
      (⟨.section (t.data leg), L, et, none⟩ : Member K).ref (.udl w)
        = (⟨.const e, L, et, none⟩ : Member K).ref (.udl w) := by
  have hb : Sec.empty.build fit [⟨.const, [0, L], .values [e], none⟩]
      = .ok ⟨[⟨0, L, [e], 0⟩], [L], [], 0, L⟩ := by
    have : (0 : K) ≤ 1 / 10 ^ 9 := by positivity
    simp [Sec.build, Sec.add, Sec.empty, segPieces, strictly, allPos, hL, he, segType_ne]
  refine ⟨_, hb, ?_⟩
  set t : Sec K := ⟨[⟨0, L, [e], 0⟩], [L], [], 0, L⟩ with ht
  have hc : ConstSegs e [(⟨.const, [0, L], .values [e], none⟩ : Seg K)] := by
    intro s hs
    rw [List.mem_singleton.1 hs]
    exact ⟨rfl, rfl⟩
  have hab : Abut 0 [(⟨.const, [0, L], .values [e], none⟩ : Seg K)] := ⟨rfl, trivial⟩
  have hfl := flexibility_const hleg he hc (by simp) hab hb hL.ne'
  have hst := C72_stiffness fit leg hleg e he _ hc (by simp) hab t hb hL .FF
  have hv := Sec.value_const hc (by simp) hab hb
  have hps : pieces (t.data leg).bps L = [(0, L)] := by
    refine pieces_one _ L hL fun x hx => ?_
    have := (C53_breakpoints t).2.1 x hx
    simpa [ht] using this
  have hth : theta0 (.udl w) (.section (t.data leg)) none L
      = (w * L ^ 3 / (24 * e), -(w * L ^ 3 / (24 * e))) := by
    obtain ⟨u0, u1⟩ := udl_piece w e L 0 L he hL hL (t.data leg).eval hv
    simp only [theta0, Rigidity.bps, List.append_nil, Rigidity.eval, hps, List.map_cons, List.map_nil,
      List.sum_cons, List.sum_nil, add_zero]
    simp only [add_zero] at u0 u1
    refine (congrArg₂ Prod.mk u0 u1).trans ?_
    rw [Prod.mk.injEq]
    constructor
    · field_simp
      ring
    · field_simp
      ring
  have hcn : (⟨.section (t.data leg), L, et, none⟩ : Member K).cnl (.udl w) = .ok (udlCnl w L) := rfl
  have hcn' : (⟨.const e, L, et, none⟩ : Member K).cnl (.udl w) = .ok (udlCnl w L) := rfl
  have hfl' : flexibility (t.data leg).nodes L
      = !![L / (3 * e), -L / (6 * e); -L / (6 * e), L / (3 * e)] := hfl
  have hst' : kNonprismatic (t.data leg) L .FF = .ok (kFF e L) := hst
  simp only [Member.ref, hcn, hcn', hfl', inv2_flex e L he hL, hth, hst']
  have hff : refFF (udlCnl w L)
      (!![4 * e / L, 2 * e / L; 2 * e / L, 4 * e / L] 0 0 * (w * L ^ 3 / (24 * e))
        + !![4 * e / L, 2 * e / L; 2 * e / L, 4 * e / L] 0 1 * -(w * L ^ 3 / (24 * e)))
      (!![4 * e / L, 2 * e / L; 2 * e / L, 4 * e / L] 1 0 * (w * L ^ 3 / (24 * e))
        + !![4 * e / L, 2 * e / L; 2 * e / L, 4 * e / L] 1 1 * -(w * L ^ 3 / (24 * e))) L = udlCnl w L := by
    simp only [refFF, udlCnl, Matrix.of_apply, Matrix.cons_val', Matrix.cons_val_zero, Matrix.cons_val_one,
      Matrix.cons_val_fin_one]
    congr 1 <;> field_simp <;> ring
  rw [hff]
  have k11 : kFF e L 1 1 = 4 * e / L := by simp [kFF]
  have k33 : kFF e L 3 3 = 4 * e / L := by simp [kFF]
  have k0 : 4 * e / L ≠ 0 := by positivity
  cases et
  · simp [releaseRef, releaseCnl]
  · simp only [releaseRef, releaseCnl, k33, if_neg k0]
    congr 1
    simp only [kFF, udlCnl, Matrix.of_apply, Matrix.cons_val', Matrix.cons_val_zero, Matrix.cons_val_one,
      Matrix.cons_val_fin_one, Matrix.cons_val]
    congr 1 <;> field_simp <;> ring
  · simp only [releaseRef, releaseCnl, k11, if_neg k0]
    congr 1
    simp only [kFF, udlCnl, Matrix.of_apply, Matrix.cons_val', Matrix.cons_val_zero, Matrix.cons_val_one,
      Matrix.cons_val_fin_one, Matrix.cons_val]
    congr 1 <;> field_simp <;> ring
  · simp only [releaseRef, releaseCnl, udlCnl]
    congr 1
    congr 1 <;> field_simp <;> ring

/-- **C72 fails** (two segments): dividing the same section into two constant segments at any
point `s` inside the span changes the fixed-end moments of a uniform load: they are short by
`(4 - 6 s/L) M(s)/6000` and `(2 - 6 s/L) M(s)/6000`, where `M(s) = w s (L-s)/2`, because the
moment is set to zero at the ends of each integration piece. -/
theorem C72_two_segments_violation (fit : Fit K) (leg : Leg K) (hleg : leg.Sound) (e L w s : K)
    (he : 0 < e) (hL : 0 < L) (hw : w ≠ 0) (h0 : 1 / 10 ^ 9 * max 1 L < s)
    (h1 : 1 / 10 ^ 9 * max 1 L < L - s) :
    ∃ t r, Sec.empty.build fit [⟨.const, [0, s], .values [e], none⟩, ⟨.const, [s, L], .values [e], none⟩]
        = .ok t ∧
      (⟨.section (t.data leg), L, .FF, none⟩ : Member K).ref (.udl w) = .ok r ∧
      r.Ma = w * L ^ 2 / 12 - (4 - 6 * s / L) * (w * s * (L - s) / 2) / 6000 ∧
      r.Mb = -w * L ^ 2 / 12 - (2 - 6 * s / L) * (w * s * (L - s) / 2) / 6000 ∧
      (⟨.const e, L, .FF, none⟩ : Member K).ref (.udl w) ≠ .ok r := by
  have htol : (0 : K) ≤ 1 / 10 ^ 9 * max 1 L :=
    mul_nonneg (by positivity) (le_trans zero_le_one (le_max_left _ _))
  have hs0 : 0 < s := lt_of_le_of_lt htol h0
  have hsL : s < L := by linarith
  have hb : Sec.empty.build fit [⟨.const, [0, s], .values [e], none⟩, ⟨.const, [s, L], .values [e], none⟩]
      = .ok ⟨[⟨0, s, [e], 0⟩, ⟨s, L, [e], 0⟩], [s, L], [], 0, L⟩ := by
    have : (0 : K) ≤ 1 / 10 ^ 9 * max 1 |s| :=
      mul_nonneg (by positivity) (le_trans zero_le_one (le_max_left _ _))
    have h' : ¬ (1 / 10 ^ 9 * max 1 |s| < 0) := not_lt.2 this
    have h'' : ¬ ((10 ^ 9 : K)⁻¹ * max 1 |s| < 0) := by simpa using h'
    simp [Sec.build, Sec.add, Sec.empty, segPieces, strictly, allPos, hs0, hsL, he, segType_ne, h'']
  set t : Sec K := ⟨[⟨0, s, [e], 0⟩, ⟨s, L, [e], 0⟩], [s, L], [], 0, L⟩ with ht
  have hc : ConstSegs e [(⟨.const, [0, s], .values [e], none⟩ : Seg K), ⟨.const, [s, L], .values [e], none⟩] := by
    intro s' hs
    rcases List.mem_cons.1 hs with rfl | hs
    · exact ⟨rfl, rfl⟩
    · rw [List.mem_singleton.1 hs]
      exact ⟨rfl, rfl⟩
  have hab : Abut 0 [(⟨.const, [0, s], .values [e], none⟩ : Seg K), ⟨.const, [s, L], .values [e], none⟩] :=
    ⟨rfl, rfl, trivial⟩
  have hfl := flexibility_const hleg he hc (by simp) hab hb hL.ne'
  have hv := Sec.value_const hc (by simp) hab hb
  have hlen : t.length = L := by simp [ht, Sec.length]
  have hps : pieces (t.data leg).bps L = [(0, s), (s, L)] := by
    refine pieces_two _ s L hs0 hsL ?_ fun x hx => ?_
    · refine (C53_breakpoints t).2.2 s (by simp [ht]) ?_
      intro f hf hfs
      rw [hlen]
      simp [ht] at hf
      rcases hf with rfl | rfl | rfl
      · simpa only [sub_zero] using h0
      · exact absurd hfs (lt_irrefl _)
      · exact absurd hfs (not_lt.2 hsL.le)
    · have := (C53_breakpoints t).2.1 x hx
      simpa [ht] using this
  have hth : theta0 (.udl w) (.section (t.data leg)) none L
      = (w * L ^ 3 / (24 * e) - L / 6000 * (1 - s / L) * (w * L / 2 * s - w / 2 * s ^ 2) / e,
        -(w * L ^ 3 / (24 * e)) + L / 6000 * (s / L) * (w * L / 2 * s - w / 2 * s ^ 2) / e) := by
    obtain ⟨u0, u1⟩ := udl_piece w e L 0 s he hL hs0 (t.data leg).eval hv
    obtain ⟨v0, v1⟩ := udl_piece w e L s L he hL hsL (t.data leg).eval hv
    simp only [theta0, Rigidity.bps, List.append_nil, Rigidity.eval, hps, List.map_cons, List.map_nil,
      List.sum_cons, List.sum_nil, add_zero]
    simp only [add_zero] at u0 u1 v0 v1
    refine Prod.ext ((congrArg₂ (· + ·) u0 v0).trans ?_) ((congrArg₂ (· + ·) u1 v1).trans ?_)
    · simp only
      field_simp
      ring
    · simp only
      field_simp
      ring
  have hcn : (⟨.section (t.data leg), L, .FF, none⟩ : Member K).cnl (.udl w) = .ok (udlCnl w L) := rfl
  have hcn' : (⟨.const e, L, .FF, none⟩ : Member K).cnl (.udl w) = .ok (udlCnl w L) := rfl
  have hfl' : flexibility (t.data leg).nodes L
      = !![L / (3 * e), -L / (6 * e); -L / (6 * e), L / (3 * e)] := hfl
  have href : (⟨.section (t.data leg), L, .FF, none⟩ : Member K).ref (.udl w) = .ok (refFF (udlCnl w L)
      (4 * e / L * (w * L ^ 3 / (24 * e) - L / 6000 * (1 - s / L) * (w * L / 2 * s - w / 2 * s ^ 2) / e)
        + 2 * e / L * (-(w * L ^ 3 / (24 * e)) + L / 6000 * (s / L) * (w * L / 2 * s - w / 2 * s ^ 2) / e))
      (2 * e / L * (w * L ^ 3 / (24 * e) - L / 6000 * (1 - s / L) * (w * L / 2 * s - w / 2 * s ^ 2) / e)
        + 4 * e / L * (-(w * L ^ 3 / (24 * e)) + L / 6000 * (s / L) * (w * L / 2 * s - w / 2 * s ^ 2) / e)) L) := by
    simp only [Member.ref, hcn, hfl', inv2_flex e L he hL, hth, releaseRef]
    rfl
  refine ⟨t, _, hb, href, ?_, ?_, ?_⟩
  · simp only [refFF, Matrix.of_apply, Matrix.cons_val', Matrix.cons_val_zero, Matrix.cons_val_one,
      Matrix.cons_val_fin_one]
    field_simp
    ring
  · simp only [refFF, Matrix.of_apply, Matrix.cons_val', Matrix.cons_val_zero, Matrix.cons_val_one,
      Matrix.cons_val_fin_one]
    field_simp
    ring
  · intro heq
    simp only [Member.ref, hcn'] at heq
    have heq := Except.ok.inj heq
    have ea := congrArg CNL.Ma heq
    have eb := congrArg CNL.Mb heq
    simp only [releaseCnl, udlCnl, refFF, Matrix.of_apply, Matrix.cons_val', Matrix.cons_val_zero,
      Matrix.cons_val_one, Matrix.cons_val_fin_one, sub_zero] at ea eb
    have hM : w * s * (L - s) ≠ 0 := mul_ne_zero (mul_ne_zero hw hs0.ne') (sub_ne_zero.2 hsL.ne')
    have ea' : w * s * (L - s) * (4 * L - 6 * s) = 0 := by
      field_simp at ea
      linear_combination (w / 288) * ea
    have eb' : w * s * (L - s) * (2 * L - 6 * s) = 0 := by
      field_simp at eb
      linear_combination (w / 288) * eb
    have h4 := (mul_eq_zero.1 ea').resolve_left hM
    have h2 := (mul_eq_zero.1 eb').resolve_left hM
    linarith

/-- A Gauss-Legendre table with the required contract exists over the reals. -/
noncomputable def leg2 : Leg ℝ := fun _ => [(-1 / √3, 1), (1 / √3, 1)]

theorem leg2_sound : leg2.Sound := by
  intro j hj
  have h3 : √3 ^ 2 = (3 : ℝ) := Real.sq_sqrt (by norm_num)
  have h0 : √3 ≠ (0 : ℝ) := by positivity
  unfold leg2
  interval_cases j
  · norm_num
  · norm_num
    ring
  · norm_num
    field_simp
    rw [h3]
    norm_num
  · norm_num
    ring

/-- A concrete case of the three theorems: a 10 m span divided at 4 m. -/
example (fit : Fit ℝ) : ∃ t r,
    Sec.empty.build fit [⟨.const, [0, 4], .values [30000], none⟩, ⟨.const, [4, 10], .values [30000], none⟩]
      = .ok t ∧
    (⟨.section (t.data leg2), 10, .FF, none⟩ : Member ℝ).ref (.udl 12) = .ok r ∧
    r.Ma = 100 - 0.0384 * 1 ∧ (⟨.const 30000, 10, .FF, none⟩ : Member ℝ).ref (.udl 12) ≠ .ok r := by
  obtain ⟨t, r, h1, h2, h3, _, h4⟩ := C72_two_segments_violation fit leg2 leg2_sound 30000 10 12 4
    (by norm_num) (by norm_num) (by norm_num) (by norm_num) (by norm_num)
  exact ⟨t, r, h1, h2, by rw [h3]; norm_num, h4⟩

end PyCBA
