import Verif.Similar.MirrorMember

/-!
End forces of the loads of a member seen from the other side (for C105).
-/

set_option linter.unusedSectionVars false
set_option linter.unusedSimpArgs false

namespace PyCBA

open Matrix Finset

variable {K : Type*} [Field K] [LinearOrder K] [IsStrictOrderedRing K]

/-! ### Simpson's rule -/

/-- Simpson's rule for the reflected integrand. -/
theorem simpson_reflect (m : ℕ) (hm : m ≠ 0) (φ ψ : K → K) (u a b L : K) (hab : a ≤ b)
    (h : ∀ x, a ≤ x → x ≤ b → ψ (L - x) = u * φ x) :
    simpson m ψ (L - b) (L - a) = u * simpson m φ a b := by
  have hm0 : (0 : K) < m := Nat.cast_pos.2 (Nat.pos_of_ne_zero hm)
  unfold simpson
  simp only [listRange_sum]
  rw [← Finset.sum_range_reflect, Finset.mul_sum]
  apply Finset.sum_congr rfl
  intro i hi
  have hi := Finset.mem_range.1 hi
  have hh : (L - a - (L - b)) / (2 * m) = (b - a) / (2 * m) := by ring
  rw [hh]
  set d : K := (b - a) / (2 * m) with hd
  have hd0 : 0 ≤ d := div_nonneg (by linarith) (by positivity)
  have hbd : b = a + 2 * m * d := by
    rw [hd]; field_simp; ring
  have pt : ∀ j : ℕ, j ≤ 2 * m → ψ (L - (a + j * d)) = u * φ (a + j * d) := by
    intro j hj
    apply h
    · have : (0 : K) ≤ j * d := by positivity
      linarith
    · rw [hbd]
      have : (j : K) ≤ 2 * m := by exact_mod_cast hj
      have := mul_le_mul_of_nonneg_right this hd0
      linarith
  have c0 : ((m - 1 - i : ℕ) : K) = m - 1 - i := by
    rw [Nat.cast_sub (by omega), Nat.cast_sub (by omega)]; simp
  have e0 : L - b + ((2 * (m - 1 - i) : ℕ) : K) * d = L - (a + ((2 * i + 2 : ℕ) : K) * d) := by
    rw [hbd]; push_cast; rw [c0]; ring
  have e1 : L - b + ((2 * (m - 1 - i) + 1 : ℕ) : K) * d = L - (a + ((2 * i + 1 : ℕ) : K) * d) := by
    rw [hbd]; push_cast; rw [c0]; ring
  have e2 : L - b + ((2 * (m - 1 - i) + 2 : ℕ) : K) * d = L - (a + ((2 * i : ℕ) : K) * d) := by
    rw [hbd]; push_cast; rw [c0]; ring
  rw [e0, e1, e2, pt _ (by omega), pt _ (by omega), pt _ (by omega)]
  ring

/-! ### The pieces between breakpoints -/

/-- The sorted breakpoints of a section whose breakpoints are on the span. -/
theorem pieces_sorted (bps : List K) (L : K) (hL : 0 < L) (hb : ∀ x ∈ bps, 0 ≤ x ∧ x ≤ L) :
    ∃ e : List K, pieces bps L = (e.zip e.tail).filter (fun p => p.1 < p.2) ∧
      e.Pairwise (· < ·) ∧ ∀ x, x ∈ e ↔ x ∈ bps ∨ x = 0 ∨ x = L := by
  set e := ((bps ++ [0, L]).mergeSort (fun a b => a ≤ b)).dedup with he
  have hmem : ∀ x, x ∈ e ↔ x ∈ bps ∨ x = 0 ∨ x = L := by
    intro x; simp [he, List.mem_dedup, List.mem_mergeSort]
  have hin : ∀ x ∈ e, 0 ≤ x ∧ x ≤ L := by
    intro x hx
    rcases (hmem x).1 hx with hx | rfl | rfl
    · exact hb x hx
    · exact ⟨le_rfl, hL.le⟩
    · exact ⟨hL.le, le_rfl⟩
  have hsort : e.Pairwise (· < ·) := by
    have h1 : ((bps ++ [0, L]).mergeSort (fun a b => a ≤ b)).Pairwise (· ≤ ·) := by
      have := List.pairwise_mergeSort (le := fun a b : K => decide (a ≤ b))
        (fun a b c h1 h2 => by simp at *; exact h1.trans h2) (fun a b => by simp [le_total])
        (bps ++ [0, L])
      simpa using this
    have h2 : e.Pairwise (· ≤ ·) := h1.sublist (List.dedup_sublist _)
    have h3 : e.Nodup := List.nodup_dedup _
    exact (List.Pairwise.and h2 h3).imp fun h => lt_of_le_of_ne h.1 h.2
  have hfil : e.filter (fun x => -(1 / 10 ^ 12) ≤ x ∧ x ≤ L + 1 / 10 ^ 12) = e := by
    rw [List.filter_eq_self]
    intro x hx
    have h10 : (0 : K) < 1 / 10 ^ 12 := by positivity
    have := hin x hx
    simp only [decide_eq_true_eq]
    constructor <;> linarith [this.1, this.2]
  have hset : (e.set 0 0).set (e.length - 1) L = e := by
    have h0 : (0 : K) ∈ e := (hmem 0).2 (Or.inr (Or.inl rfl))
    have hLm : L ∈ e := (hmem L).2 (Or.inr (Or.inr rfl))
    have s0 : e.set 0 0 = e := by
      cases hh : e with
      | nil => rfl
      | cons a t =>
        rw [hh] at h0 hsort hin
        rcases List.mem_cons.1 h0 with h | h
        · rw [← h]; rfl
        · have := (List.pairwise_cons.1 hsort).1 0 h
          exact absurd (hin a List.mem_cons_self).1 (not_le.2 this)
    rw [s0]
    apply List.ext_getElem (by simp)
    intro i h1 h2
    rw [List.getElem_set]
    split_ifs with hi
    · obtain ⟨j, hj, hjL⟩ := List.getElem_of_mem hLm
      rcases Nat.lt_or_ge j i with hji | hji
      · have := List.pairwise_iff_getElem.1 hsort j i hj h2 hji
        rw [hjL] at this
        exact absurd (hin _ (List.getElem_mem h2)).2 (not_le.2 this)
      · have : j = i := by omega
        subst this
        exact hjL.symm
    · rfl
  refine ⟨e, ?_, hsort, hmem⟩
  unfold pieces
  simp only [← he, hfil, hset]

theorem zip_tail_reverse {α : Type*} (l : List α) :
    l.reverse.zip l.reverse.tail = ((l.zip l.tail).map fun p => (p.2, p.1)).reverse := by
  apply List.ext_getElem
  · simp
  · intro i h1 h2
    simp only [List.getElem_zip, List.getElem_tail, List.getElem_reverse, List.getElem_map,
      List.length_map, List.length_zip, List.length_tail, Prod.mk.injEq]
    simp at h1
    constructor <;> congr 1 <;> omega

/-- The pieces seen from the other side. -/
theorem pieces_mirror (bps bps' : List K) (L : K) (hL : 0 < L) (hb : ∀ x ∈ bps, 0 ≤ x ∧ x ≤ L)
    (h : bps'.Perm (bps.map (L - ·))) :
    pieces bps' L = ((pieces bps L).map fun p => (L - p.2, L - p.1)).reverse := by
  have hb' : ∀ x ∈ bps', 0 ≤ x ∧ x ≤ L := by
    intro x hx
    obtain ⟨y, hy, rfl⟩ := List.mem_map.1 (h.mem_iff.1 hx)
    have := hb y hy
    constructor <;> linarith [this.1, this.2]
  obtain ⟨e, h1, h2, h3⟩ := pieces_sorted bps L hL hb
  obtain ⟨e', h1', h2', h3'⟩ := pieces_sorted bps' L hL hb'
  have he : e' = (e.map (L - ·)).reverse := by
    apply List.Perm.eq_of_pairwise (le := (· < ·)) (fun a b _ _ h h' => absurd h' (not_lt.2 h.le)) h2'
    · rw [List.pairwise_reverse, List.pairwise_map]
      exact h2.imp fun h => by simpa using h
    · rw [List.perm_ext_iff_of_nodup (h2'.imp ne_of_lt)]
      · intro x
        rw [h3', List.mem_reverse, List.mem_map, h.mem_iff, List.mem_map]
        constructor
        · rintro (⟨y, hy, rfl⟩ | rfl | rfl)
          · exact ⟨y, (h3 y).2 (Or.inl hy), rfl⟩
          · exact ⟨L, (h3 L).2 (by simp), by simp⟩
          · exact ⟨0, (h3 0).2 (by simp), by simp⟩
        · rintro ⟨y, hy, rfl⟩
          rcases (h3 y).1 hy with hy | rfl | rfl
          · exact Or.inl ⟨y, hy, rfl⟩
          · right; right; simp
          · right; left; simp
      · rw [List.nodup_reverse]
        exact List.Nodup.map (fun a b h => by simpa using h) (h2.imp ne_of_lt)
  rw [h1', he, h1, zip_tail_reverse, ← List.map_tail, List.zip_map, List.map_map,
    List.filter_reverse, List.filter_map]
  congr 2
  congr 1
  funext p
  simp

/-- No breakpoint lies inside a piece. -/
theorem pieces_inside (bps : List K) (L : K) (hL : 0 < L) (hb : ∀ x ∈ bps, 0 ≤ x ∧ x ≤ L)
    (p : K × K) (hp : p ∈ pieces bps L) :
    p.1 < p.2 ∧ 0 ≤ p.1 ∧ p.2 ≤ L ∧ ∀ x ∈ bps, ¬ (p.1 < x ∧ x < p.2) := by
  obtain ⟨e, h1, h2, h3⟩ := pieces_sorted bps L hL hb
  rw [h1, List.mem_filter] at hp
  obtain ⟨hz, hlt⟩ := hp
  have hin : ∀ x ∈ e, 0 ≤ x ∧ x ≤ L := by
    intro x hx
    rcases (h3 x).1 hx with hx | rfl | rfl
    · exact hb x hx
    · exact ⟨le_rfl, hL.le⟩
    · exact ⟨hL.le, le_rfl⟩
  obtain ⟨i, hi, rfl⟩ := List.getElem_of_mem hz
  simp at hi
  simp only [List.getElem_zip, List.getElem_tail] at hlt ⊢
  refine ⟨by simpa using hlt, (hin _ (List.getElem_mem _)).1, (hin _ (List.getElem_mem _)).2, ?_⟩
  rintro x hx ⟨ha, hb⟩
  obtain ⟨j, hj, rfl⟩ := List.getElem_of_mem ((h3 x).2 (Or.inl hx))
  have key : ∀ a b (ha : a < e.length) (hb : b < e.length), e[a] < e[b] → a < b := by
    intro a b ha hb hlt
    by_contra hn
    rcases Nat.lt_or_ge b a with h | h
    · exact absurd (List.pairwise_iff_getElem.1 h2 b a hb ha h) (not_lt.2 hlt.le)
    · have : a = b := by omega
      subst this
      exact lt_irrefl _ hlt
  have k1 := key _ _ _ _ ha
  have k2 := key _ _ _ _ hb
  omega

/-! ### End rotations and end forces -/

theorem Rigidity.IsMirror.bps {L : K} {r r' : Rigidity K} (h : r.IsMirror L r') :
    r'.bps.Perm (r.bps.map (L - ·)) := by
  cases h with
  | const v => exact List.Perm.refl _
  | sec s s' hn hb he => exact hb

theorem Rigidity.IsMirror.eval {L : K} {r r' : Rigidity K} (h : r.IsMirror L r') (x : K) (h0 : 0 < x)
    (hL : x < L) (hx : x ∉ r.bps) : r'.eval (L - x) = r.eval x := by
  cases h with
  | const v => rfl
  | sec s s' hn hb he => exact he x h0 hL hx

/-- The breakpoints of a member's rigidities. -/
def breaks (EI : Rigidity K) (GAv : Option (Rigidity K)) : List K :=
  EI.bps ++ (match GAv with
    | some g => g.bps
    | none => [])

/-- The primary end rotations seen from the other side. -/
theorem theta0_mirror (ld ld' : Load K) (EI EI' : Rigidity K) (GAv GAv' : Option (Rigidity K)) (L : K)
    (hL : 0 < L) (hE : EI.IsMirror L EI') (hG : Option.Rel (Rigidity.IsMirror L) GAv GAv')
    (hb : ∀ x ∈ breaks EI GAv, 0 ≤ x ∧ x ≤ L)
    (hM : ∀ x, ld'.ssM L (L - x) = ld.ssM L x)
    (hV : GAv ≠ none → ∀ x, ld'.ssV L (L - x) = -ld.ssV L x)
    (hk : ∀ x, ld'.kappaImp (L - x) = ld.kappaImp x) :
    theta0 ld' EI' GAv' L = (-(theta0 ld EI GAv L).2, -(theta0 ld EI GAv L).1) := by
  have hL0 := hL.ne'
  have hperm : (breaks EI' GAv').Perm ((breaks EI GAv).map (L - ·)) := by
    unfold breaks
    rw [List.map_append]
    apply hE.bps.append
    cases hG with
    | none => exact List.Perm.refl _
    | some h => exact h.bps
  have hp := pieces_mirror _ _ L hL hb hperm
  have heval : ∀ p ∈ pieces (breaks EI GAv) L, ∀ x, p.1 < x → x < p.2 →
      EI'.eval (L - x) = EI.eval x := by
    intro p hp x h1 h2
    obtain ⟨_, k1, k2, k3⟩ := pieces_inside _ L hL hb p hp
    exact hE.eval x (by linarith) (by linarith) fun hx =>
      k3 x (List.mem_append_left _ hx) ⟨h1, h2⟩
  have hends : ∀ (p : K × K) (φ ψ : K → K) (ρ ρ' : K → K) (u x : K),
      (∀ x, p.1 < x → x < p.2 → ρ' (L - x) = ρ x) → (∀ x, ψ (L - x) = u * φ x) → p.1 ≤ x → x ≤ p.2 →
      endsZeroed (L - p.2) (L - p.1) ψ (L - x) / ρ' (L - x)
        = u * (endsZeroed p.1 p.2 φ x / ρ x) := by
    intro p φ ψ ρ ρ' u x h1 h2 h3 h4
    unfold endsZeroed
    by_cases hx : x = p.1 ∨ x = p.2
    · rw [if_pos hx, if_pos (by rcases hx with h | h <;> simp [h])]
      simp
    · push Not at hx
      rw [if_neg (by
        push Not
        exact ⟨fun h => hx.2 (by linarith), fun h => hx.1 (by linarith)⟩),
        if_neg (by push Not; exact hx),
        h1 x (lt_of_le_of_ne h3 (Ne.symm hx.1)) (lt_of_le_of_ne h4 hx.2), h2]
      ring
  have main : ∀ p ∈ pieces (breaks EI GAv) L,
      simpson 1000 (fun x => (1 - x / L) * (endsZeroed (L - p.2) (L - p.1) (ld'.ssM L) x / EI'.eval x
          + ld'.kappaImp x)) (L - p.2) (L - p.1)
        = -simpson 1000 (fun x => (-x / L) * (endsZeroed p.1 p.2 (ld.ssM L) x / EI.eval x
          + ld.kappaImp x)) p.1 p.2 ∧
      simpson 1000 (fun x => (-x / L) * (endsZeroed (L - p.2) (L - p.1) (ld'.ssM L) x / EI'.eval x
          + ld'.kappaImp x)) (L - p.2) (L - p.1)
        = -simpson 1000 (fun x => (1 - x / L) * (endsZeroed p.1 p.2 (ld.ssM L) x / EI.eval x
          + ld.kappaImp x)) p.1 p.2 := by
    intro p hp
    have hlt := (pieces_inside _ L hL hb p hp).1
    constructor
    · rw [simpson_reflect 1000 (by norm_num) (fun x => (-x / L) * (endsZeroed p.1 p.2 (ld.ssM L) x
        / EI.eval x + ld.kappaImp x)) _ (-1) p.1 p.2 L hlt.le]
      · ring
      · intro x h1 h2
        rw [hends p (ld.ssM L) _ (EI.eval) _ 1 x (heval p hp) (by simpa using hM) h1 h2, hk,
          sub_div, div_self hL0]
        ring
    · rw [simpson_reflect 1000 (by norm_num) (fun x => (1 - x / L) * (endsZeroed p.1 p.2 (ld.ssM L) x
        / EI.eval x + ld.kappaImp x)) _ (-1) p.1 p.2 L hlt.le]
      · ring
      · intro x h1 h2
        rw [hends p (ld.ssM L) _ (EI.eval) _ 1 x (heval p hp) (by simpa using hM) h1 h2, hk,
          neg_div, sub_div, div_self hL0]
        ring
  have sumrev : ∀ (F G : K × K → K), (∀ p ∈ pieces (breaks EI GAv) L,
      F (L - p.2, L - p.1) = -G p) →
      ((pieces (breaks EI' GAv') L).map F).sum = -((pieces (breaks EI GAv) L).map G).sum := by
    intro F G h
    rw [hp, List.map_reverse, List.sum_reverse, List.map_map, ← neg_one_mul,
      ← List.sum_map_mul_left]
    congr 1
    apply List.map_congr_left
    intro p hp
    simp only [Function.comp, h p hp]
    ring
  cases hG with
  | none =>
    unfold theta0
    simp only
    refine Prod.ext ?_ ?_
    · exact sumrev _ _ fun p hp => by simp only [add_zero]; exact (main p hp).1
    · exact sumrev _ _ fun p hp => by simp only [add_zero]; exact (main p hp).2
  | @some g g' hg =>
    have hevalg : ∀ p ∈ pieces (breaks EI (some g)) L, ∀ x, p.1 < x → x < p.2 →
        g'.eval (L - x) = g.eval x := by
      intro p hp x h1 h2
      obtain ⟨_, k1, k2, k3⟩ := pieces_inside _ L hL hb p hp
      exact hg.eval x (by linarith) (by linarith) fun hx =>
        k3 x (List.mem_append_right _ hx) ⟨h1, h2⟩
    have shear : ∀ p ∈ pieces (breaks EI (some g)) L,
        simpson 1000 (fun x => (-1 / L) * (endsZeroed (L - p.2) (L - p.1) (ld'.ssV L) x
          / g'.eval x)) (L - p.2) (L - p.1)
        = -simpson 1000 (fun x => (-1 / L) * (endsZeroed p.1 p.2 (ld.ssV L) x / g.eval x))
          p.1 p.2 := by
      intro p hp
      have hlt := (pieces_inside _ L hL hb p hp).1
      rw [simpson_reflect 1000 (by norm_num) (fun x => (-1 / L) * (endsZeroed p.1 p.2 (ld.ssV L) x
        / g.eval x)) _ (-1) p.1 p.2 L hlt.le]
      · ring
      · intro x h1 h2
        rw [hends p (ld.ssV L) _ (g.eval) _ (-1) x (hevalg p hp) (by
          intro x; rw [hV (by simp)]; ring) h1 h2]
        ring
    unfold theta0
    simp only
    refine Prod.ext ?_ ?_
    · exact sumrev _ _ fun p hp => by
        simp only
        rw [(main p hp).1, shear p hp]; ring
    · exact sumrev _ _ fun p hp => by
        simp only
        rw [(main p hp).2, shear p hp]; ring

/-- What a load must satisfy for the end forces to be mirrored exactly. -/
def Member.Mirrors (m : Member K) (ld : Load K) : Prop :=
  ((∀ k E, ld ≠ .ic k E) → ld.OnSpan m.L) ∧
    ((∃ g, m.GAv = some g ∧ ¬ ((∃ v, g = .const v) ∧ ∃ v, m.EI = .const v)) → ∀ P a, ld ≠ .pl P a)

/-- Members whose rigidities are given on the span. -/
def Member.Fits (m : Member K) : Prop := 0 < m.L ∧ ∀ x ∈ breaks m.EI m.GAv, 0 ≤ x ∧ x ≤ m.L

theorem icTheta_mirror (k : List K) (a b L : K) (hab : a ≤ b) (hL : L ≠ 0) :
    simpson 1000 (fun x => (1 - x / L) * polyInc (polyFlip L k) x) (L - b) (L - a)
      = -simpson 1000 (fun x => -x / L * polyInc k x) a b ∧
    simpson 1000 (fun x => -x / L * polyInc (polyFlip L k) x) (L - b) (L - a)
      = -simpson 1000 (fun x => (1 - x / L) * polyInc k x) a b := by
  constructor
  · rw [simpson_reflect 1000 (by norm_num) (fun x => -x / L * polyInc k x) _ (-1) a b L hab]
    · ring
    · intro x _ _
      rw [polyInc_flip, sub_sub_cancel, sub_div, div_self hL]
      ring
  · rw [simpson_reflect 1000 (by norm_num) (fun x => (1 - x / L) * polyInc k x) _ (-1) a b L hab]
    · ring
    · intro x _ _
      rw [polyInc_flip, sub_sub_cancel, neg_div, sub_div, div_self hL]
      ring

theorem Member.cnl_mirror (m m' : Member K) (h : m.IsMirror m') (hf : m.Fits) (ld : Load K)
    (hl : m.Mirrors ld) : m'.cnl (ld.image m.L) = (m.cnl ld).map CNL.mirror := by
  obtain ⟨EI, L, et, GAv⟩ := m
  obtain ⟨EI', L', et', GAv'⟩ := m'
  obtain ⟨h1, h2, h3, h4⟩ := h
  obtain ⟨hL, hb⟩ := hf
  simp only at h1 h2 h3 h4 hL hb
  subst h1 h2
  have hL0 := hL.ne'
  have other : (∀ k E, ld ≠ .ic k E) → Member.cnl ⟨EI', L', et.flip, GAv'⟩ (ld.image L')
      = (Member.cnl ⟨EI, L', et, GAv⟩ ld).map CNL.mirror := by
    intro hne
    have e1 : ∀ m : Member K, m.cnl ld = match ld.getCnl m.L with
        | .error e => .error e
        | .ok (.plainList _) => .error .attributeError
        | .ok (.cnl c) => .ok c := by
      intro m
      cases ld <;> first | rfl | exact absurd rfl (hne _ _)
    have e2 : ∀ m : Member K, m.cnl (ld.image L') = match (ld.mirror L').getCnl m.L with
        | .error e => .error e
        | .ok (.plainList _) => .error .attributeError
        | .ok (.cnl c) => .ok c := by
      intro m
      cases ld <;> first | rfl | exact absurd rfl (hne _ _)
    obtain ⟨c, c1, c2⟩ := C07_mirror ld L' hL (hl.1 hne) hne
    rw [e1, e2]
    simp only [c1, c2, Except.map]
  cases ld with
  | ic k E =>
    cases h3 with
    | const v =>
      simp only [Load.image, Member.cnl, Except.map, icCnl, icEndMoments, CNL.mirror]
      obtain ⟨t1, t2⟩ := icTheta_mirror k 0 L' L' hL.le hL0
      simp only [sub_self, sub_zero] at t1 t2
      rw [t1, t2]
      generalize simpson 1000 (fun x => -x / L' * polyInc k x) 0 L' = u
      generalize simpson 1000 (fun x => (1 - x / L') * polyInc k x) 0 L' = w
      refine congrArg Except.ok (CNL.ext ?_ ?_ ?_ ?_) <;> simp only <;> ring
    | sec s s' hn hbp he =>
      simp only [Load.image, Member.cnl, icCnlSection]
      have hbs : ∀ x ∈ s.bps, 0 ≤ x ∧ x ≤ L' := fun x hx => hb x (List.mem_append_left _ hx)
      rw [pieces_mirror s.bps s'.bps L' hL hbs hbp, flexibility_mirror _ _ L' hL0 hn, inv2_mirror]
      have sumrev : ∀ (F G : K × K → K), (∀ p ∈ pieces s.bps L', F (L' - p.2, L' - p.1) = -G p) →
          ((((pieces s.bps L').map fun p => (L' - p.2, L' - p.1)).reverse).map F).sum
            = -((pieces s.bps L').map G).sum := by
        intro F G h
        rw [List.map_reverse, List.sum_reverse, List.map_map, ← neg_one_mul,
          ← List.sum_map_mul_left]
        congr 1
        apply List.map_congr_left
        intro p hp
        simp only [Function.comp, h p hp]
        ring
      have s1 := sumrev (fun p => simpson 1000 (fun x => (1 - x / L') * polyInc (polyFlip L' k) x)
          p.1 p.2) (fun p => simpson 1000 (fun x => -x / L' * polyInc k x) p.1 p.2) fun p hp =>
          (icTheta_mirror k p.1 p.2 L' (pieces_inside _ L' hL hbs p hp).1.le hL0).1
      have s2 := sumrev (fun p => simpson 1000 (fun x => -x / L' * polyInc (polyFlip L' k) x)
          p.1 p.2) (fun p => simpson 1000 (fun x => (1 - x / L') * polyInc k x) p.1 p.2) fun p hp =>
          (icTheta_mirror k p.1 p.2 L' (pieces_inside _ L' hL hbs p hp).1.le hL0).2
      rw [s1, s2]
      generalize ((pieces s.bps L').map fun p =>
        simpson 1000 (fun x => -x / L' * polyInc k x) p.1 p.2).sum = u
      generalize ((pieces s.bps L').map fun p =>
        simpson 1000 (fun x => (1 - x / L') * polyInc k x) p.1 p.2).sum = w
      cases inv2 (flexibility s.nodes L') with
      | error e => rfl
      | ok i =>
        simp only [Except.map, CNL.mirror, mirror2]
        refine congrArg Except.ok (CNL.ext ?_ ?_ ?_ ?_) <;> simp <;> ring
  | udl w => exact other (by simp)
  | pl P a => exact other (by simp)
  | pudl w a c => exact other (by simp)
  | trapez w1 w2 a c => exact other (by simp)
  | mamb Ma Mb => exact other (by simp)
  | ml mm a => exact other (by simp)

theorem releaseCnl_mirror (c : CNL K) (L : K) (et : EType) :
    releaseCnl c.mirror L et.flip = (releaseCnl c L et).mirror := by
  cases et <;> ext <;> simp only [EType.flip, releaseCnl, CNL.mirror] <;> ring

theorem refFF_mirror (c : CNL K) (Ma Mb L : K) :
    refFF c.mirror (-Mb) (-Ma) L = (refFF c Ma Mb L).mirror := by
  ext <;> simp only [refFF, CNL.mirror] <;> ring

theorem refTimoFF_mirror (c : CNL K) (e g L : K) :
    refTimoFF c.mirror e g L = (refTimoFF c e g L).mirror := by
  unfold refTimoFF
  rw [← refFF_mirror]
  simp only [CNL.mirror]
  congr 1 <;> ring

theorem releaseRef_mirror (c : CNL K) (k : Except PyErr (Mat4 K)) (L : K) (et : EType) :
    releaseRef c.mirror (k.map matMirror) L et.flip = (releaseRef c k L et).map CNL.mirror := by
  cases et with
  | FF => rfl
  | PP =>
    simp only [EType.flip, releaseRef, Except.map, CNL.mirror]
    congr 1
    ext <;> simp only <;> ring
  | FP =>
    cases k with
    | error e => rfl
    | ok k =>
      simp only [EType.flip, releaseRef, Except.map]
      have : matMirror k 1 1 = k 3 3 := by simp [matMirror, flipSign]
      rw [this]
      split_ifs
      · rfl
      · simp only [CNL.mirror]
        congr 1
        ext <;> simp [matMirror, flipSign] <;> ring
  | PF =>
    cases k with
    | error e => rfl
    | ok k =>
      simp only [EType.flip, releaseRef, Except.map]
      have : matMirror k 3 3 = k 1 1 := by simp [matMirror, flipSign]
      rw [this]
      split_ifs
      · rfl
      · simp only [CNL.mirror]
        congr 1
        ext <;> simp [matMirror, flipSign] <;> ring

theorem Member.ref_mirror (m m' : Member K) (h : m.IsMirror m') (hf : m.Fits) (ld : Load K)
    (hl : m.Mirrors ld) : m'.ref (ld.image m.L) = (m.ref ld).map CNL.mirror := by
  have hc := Member.cnl_mirror m m' h hf ld hl
  obtain ⟨EI, L, et, GAv⟩ := m
  obtain ⟨EI', L', et', GAv'⟩ := m'
  obtain ⟨h1, h2, h3, h4⟩ := h
  obtain ⟨hL, hb⟩ := hf
  simp only at h1 h2 h3 h4 hL hb hc
  subst h1 h2
  have hL0 := hL.ne'
  have hM := fun x => Load.ssM_image ld L' x hL hl.1
  have hk := fun x => kappaImp_image ld L' x
  unfold Member.ref
  rw [hc]
  cases Member.cnl ⟨EI, L', et, GAv⟩ ld with
  | error e => rfl
  | ok c =>
    simp only [Except.map]
    cases h4 with
    | none =>
      cases h3 with
      | const v =>
        simp only
        rw [releaseCnl_mirror]
      | sec s s' hn hbp he =>
        simp only
        rw [flexibility_mirror _ _ L' hL0 hn, inv2_mirror,
          theta0_mirror ld (ld.image L') (.section s) (.section s') none none L' hL
            (.sec s s' hn hbp he) .none hb hM (fun h => absurd rfl h) hk]
        have := kNonprismatic_mirror s s' L' hL0 .FF hn
        rw [show EType.flip .FF = .FF from rfl] at this
        rw [this]
        cases inv2 (flexibility s.nodes L') with
        | error e => rfl
        | ok i =>
          simp only [Except.map]
          have e1 : refFF c.mirror (mirror2 i 0 0 * -(theta0 ld (.section s) none L').2
                + mirror2 i 0 1 * -(theta0 ld (.section s) none L').1)
              (mirror2 i 1 0 * -(theta0 ld (.section s) none L').2
                + mirror2 i 1 1 * -(theta0 ld (.section s) none L').1) L'
              = (refFF c (i 0 0 * (theta0 ld (.section s) none L').1
                + i 0 1 * (theta0 ld (.section s) none L').2)
                (i 1 0 * (theta0 ld (.section s) none L').1
                + i 1 1 * (theta0 ld (.section s) none L').2) L').mirror := by
            rw [← refFF_mirror]
            congr 1 <;> simp only [mirror2, of_apply, cons_val_zero, cons_val_one, cons_val', cons_val_fin_one] <;> ring
          rw [e1]
          exact releaseRef_mirror _ _ _ _
    | @some g g' hg =>
      have general : ∀ (g g' e e' : Rigidity K), g.IsMirror L' g' → e.IsMirror L' e' →
          (∀ x ∈ breaks e (some g), 0 ≤ x ∧ x ≤ L') → (∀ P a, ld ≠ .pl P a) →
          (match inv2 (timoFlexibility e' g' L') with
          | .error er => .error er
          | .ok Kth =>
            releaseRef (refFF c.mirror (Kth 0 0 * (theta0 (ld.image L') e' (some g') L').1
                + Kth 0 1 * (theta0 (ld.image L') e' (some g') L').2)
              (Kth 1 0 * (theta0 (ld.image L') e' (some g') L').1
                + Kth 1 1 * (theta0 (ld.image L') e' (some g') L').2) L')
              (kTimoshenko e' g' L' .FF) L' et.flip)
          = Except.map CNL.mirror (match inv2 (timoFlexibility e g L') with
          | .error er => .error er
          | .ok Kth =>
            releaseRef (refFF c (Kth 0 0 * (theta0 ld e (some g) L').1
                + Kth 0 1 * (theta0 ld e (some g) L').2)
              (Kth 1 0 * (theta0 ld e (some g) L').1
                + Kth 1 1 * (theta0 ld e (some g) L').2) L')
              (kTimoshenko e g L' .FF) L' et) := by
        intro g g' e e' hg he hb hnp
        have hV := fun x => Load.ssV_image ld L' x hL hl.1 fun P => hnp P x
        rw [timoFlexibility_mirror _ _ _ _ L' hL0 he hg, inv2_mirror,
          theta0_mirror ld (ld.image L') e e' (some g) (some g') L' hL he (.some hg) hb hM
            (fun _ => hV) hk]
        have := kTimoshenko_mirror e e' g g' L' hL0 he hg .FF
        rw [show EType.flip .FF = .FF from rfl] at this
        rw [this]
        cases inv2 (timoFlexibility e g L') with
        | error e => rfl
        | ok i =>
          simp only [Except.map]
          have e1 : refFF c.mirror (mirror2 i 0 0 * -(theta0 ld e (some g) L').2
                + mirror2 i 0 1 * -(theta0 ld e (some g) L').1)
              (mirror2 i 1 0 * -(theta0 ld e (some g) L').2
                + mirror2 i 1 1 * -(theta0 ld e (some g) L').1) L'
              = (refFF c (i 0 0 * (theta0 ld e (some g) L').1
                + i 0 1 * (theta0 ld e (some g) L').2)
                (i 1 0 * (theta0 ld e (some g) L').1
                + i 1 1 * (theta0 ld e (some g) L').2) L').mirror := by
            rw [← refFF_mirror]
            congr 1 <;> simp only [mirror2, of_apply, cons_val_zero, cons_val_one, cons_val', cons_val_fin_one] <;> ring
          rw [e1]
          exact releaseRef_mirror _ _ _ _
      cases hg with
      | const v =>
        cases h3 with
        | const e =>
          simp only
          rw [refTimoFF_mirror]
          have := kTimoshenko_mirror (.const e) (.const e) (.const v) (.const v) L' hL0 (.const e)
            (.const v) .FF
          rw [show EType.flip .FF = .FF from rfl] at this
          conv_lhs => rw [this]
          exact releaseRef_mirror _ _ _ _
        | sec s s' hn hbp he =>
          exact general _ _ _ _ (.const v) (.sec s s' hn hbp he) hb
            (hl.2 ⟨_, rfl, by rintro ⟨_, v, hv⟩; cases hv⟩)
      | sec t t' hn' hb' he' =>
        cases h3 with
        | const e =>
          exact general _ _ _ _ (.sec t t' hn' hb' he') (.const e) hb
            (hl.2 ⟨_, rfl, by rintro ⟨⟨v, hv⟩, _⟩; cases hv⟩)
        | sec s s' hn hbp he =>
          exact general _ _ _ _ (.sec t t' hn' hb' he') (.sec s s' hn hbp he) hb
            (hl.2 ⟨_, rfl, by rintro ⟨⟨v, hv⟩, _⟩; cases hv⟩)

end PyCBA
