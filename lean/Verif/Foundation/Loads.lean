import Verif.Foundation.Props
import Verif.Load.Props

/-!
C64: restricting the loads of a foundation member to its pieces, and the balance of
the whole member.
-/

set_option linter.unusedSectionVars false
set_option linter.unusedSimpArgs false

namespace PyCBA

open Matrix Finset

/-! ### Totals of the loads a foundation member accepts -/

theorem total_udl {L : ℝ} (hL : 0 < L) (w : ℝ) :
    (Load.udl w).total L = w * L ∧ (Load.udl w).momentAboutLeft L = w * L ^ 2 / 2 := by
  obtain ⟨c, h1, h2, h3⟩ := C01_fixed_end_equilibrium (.udl w) L hL trivial
  cases h1
  rw [← h2, ← h3]
  simp only [udlCnl]
  constructor <;> ring

theorem total_pl (L P a : ℝ) :
    (Load.pl P a).total L = P ∧ (Load.pl P a).momentAboutLeft L = P * a := by
  simp [Load.total, Load.momentAboutLeft, Load.intensity, Load.forces, Load.couples]

theorem total_pudl {L : ℝ} (hL : 0 < L) (w : ℝ) {a c : ℝ} (h0 : 0 ≤ a) (hc : 0 ≤ c) (h1 : a + c ≤ L) :
    (Load.pudl w a c).total L = w * c ∧
      (Load.pudl w a c).momentAboutLeft L = w * c * (a + c / 2) := by
  obtain ⟨k, e1, e2, e3⟩ := C01_fixed_end_equilibrium (.pudl w a c) L hL ⟨h0, by linarith, hc⟩
  rw [pudl_getCnl w a c L (by linarith), min_eq_left (by linarith : c ≤ L - a)] at e1
  cases e1
  rw [← e2, ← e3]
  have hL0 := hL.ne'
  simp only [pudlCnl]
  constructor <;> field_simp <;> ring

/-! ### Dividing an interval among the pieces -/

variable {K : Type*} [Field K] [LinearOrder K] [IsStrictOrderedRing K]

/-- `t` limited to a piece. -/
def clampIn (x0 x1 t : K) : K := max x0 (min t x1)

theorem sum_clampIn (G : K → K) {h t : K} (hh : 0 ≤ h) (ht : 0 ≤ t) (m : ℕ) :
    ∑ e ∈ range m, (G (clampIn ((e : K) * h) (((e : K) + 1) * h) t) - G ((e : K) * h))
      = G (min t ((m : K) * h)) - G 0 := by
  induction m with
  | zero => simp [min_eq_right ht]
  | succ m ih =>
    rw [Finset.sum_range_succ, ih]
    have hm : (m : K) * h ≤ ((m : K) + 1) * h := by nlinarith
    push_cast
    rcases le_total t ((m : K) * h) with h1 | h1
    · have e1 : clampIn ((m : K) * h) (((m : K) + 1) * h) t = (m : K) * h := by
        rw [clampIn, min_eq_left (h1.trans hm), max_eq_left h1]
      rw [e1, min_eq_left h1, min_eq_left (h1.trans hm)]
      ring
    · have e1 : clampIn ((m : K) * h) (((m : K) + 1) * h) t = min t (((m : K) + 1) * h) := by
        rw [clampIn, max_eq_right (le_min h1 hm)]
      rw [e1, min_eq_right h1]
      ring

/-- What a piece gets of the interval from `a` to `b`. -/
theorem clamp_piece {x0 x1 a b : K} (hx : x0 ≤ x1) (hab : a ≤ b) :
    (max a x0 < min b x1 → clampIn x0 x1 a = max a x0 ∧ clampIn x0 x1 b = min b x1) ∧
    (min b x1 ≤ max a x0 → clampIn x0 x1 a = clampIn x0 x1 b) := by
  simp only [clampIn]
  constructor
  · intro h
    obtain ⟨h1, h2⟩ := lt_min_iff.1 h
    obtain ⟨h3, h4⟩ := max_lt_iff.1 h2
    obtain ⟨h5, h6⟩ := max_lt_iff.1 h1
    refine ⟨by rw [min_eq_left h3.le, max_comm], ?_⟩
    rw [max_eq_right]
    exact le_min h6.le hx
  · intro h
    rcases min_le_iff.1 h with h1 | h1
    · rcases le_max_iff.1 h1 with h2 | h2
      · rw [le_antisymm hab h2]
      · rw [max_eq_left ((min_le_left _ _).trans (hab.trans h2)), max_eq_left ((min_le_left _ _).trans h2)]
    · rcases le_max_iff.1 h1 with h2 | h2
      · rw [min_eq_right h2, min_eq_right (h2.trans hab)]
      · have := le_antisymm hx h2
        rw [this, max_eq_left (min_le_right _ _), max_eq_left (min_le_right _ _)]

/-! ### Loads restricted to the pieces -/

/-- A partial load is clear of the tolerances of `_subelement_loads`: it covers no
piece by less than `1e-12 L`, and where its ends are `np.isclose` to the ends of a
piece they are equal to them. -/
def Found.Clear (F : Found K) : Load K → Prop
  | .pudl _ a c => ∀ e < F.n, max a ((e : K) * F.h) < min (a + c) (((e : K) + 1) * F.h) →
      1 / 10 ^ 12 * F.L < min (a + c) (((e : K) + 1) * F.h) - max a ((e : K) * F.h) ∧
      (npClose (max a ((e : K) * F.h)) ((e : K) * F.h) →
        npClose (min (a + c) (((e : K) + 1) * F.h)) (((e : K) + 1) * F.h) →
        max a ((e : K) * F.h) = (e : K) * F.h ∧
        min (a + c) (((e : K) + 1) * F.h) = ((e : K) + 1) * F.h)
  | _ => True

theorem Found.n_h (F : Found K) (hn : 0 < F.n) : (F.n : K) * F.h = F.L := by
  have : (F.n : K) ≠ 0 := by exact_mod_cast hn.ne'
  rw [Found.h, mul_div_cancel₀ _ this]

/-- The piece a point load is put on. -/
theorem Found.pl_piece [FloorRing K] (F : Found K) (hn : 0 < F.n) (hL : 0 < F.L) {a : K}
    (h0 : 0 ≤ a) (h1 : a ≤ F.L) : ∃ i < F.n, min (truncInt (a / F.h)) ((F.n : ℤ) - 1) = (i : ℤ) ∧
      0 ≤ a - (i : K) * F.h ∧ a - (i : K) * F.h ≤ F.h := by
  have hh := F.h_pos hn hL
  have hq : 0 ≤ a / F.h := div_nonneg h0 hh.le
  have hf : 0 ≤ ⌊a / F.h⌋ := Int.floor_nonneg.2 hq
  have fl := Int.floor_le (a / F.h)
  have fu := Int.lt_floor_add_one (a / F.h)
  have hi : 0 ≤ min ⌊a / F.h⌋ ((F.n : ℤ) - 1) := le_min hf (by omega)
  obtain ⟨i, hi'⟩ := Int.eq_ofNat_of_zero_le hi
  rw [truncInt, if_pos hq]
  have hle := min_le_right ⌊a / F.h⌋ ((F.n : ℤ) - 1)
  refine ⟨i, by omega, hi', ?_, ?_⟩
  · have h2 : (i : ℤ) ≤ ⌊a / F.h⌋ := hi' ▸ min_le_left _ _
    have h3 : (i : K) ≤ a / F.h := by
      have : ((i : ℤ) : K) ≤ (⌊a / F.h⌋ : K) := by exact_mod_cast h2
      push_cast at this
      linarith
    rw [le_div_iff₀ hh] at h3
    linarith
  · rcases min_choice ⌊a / F.h⌋ ((F.n : ℤ) - 1) with h2 | h2
    · have h3 : ((i : ℤ) : K) = (⌊a / F.h⌋ : K) := by
        rw [show (i : ℤ) = ⌊a / F.h⌋ from (hi'.symm.trans h2)]
      push_cast at h3
      rw [← h3, div_lt_iff₀ hh] at fu
      linarith
    · have h3 : (i : ℤ) = (F.n : ℤ) - 1 := hi'.symm.trans h2
      have h4 : (i : K) = (F.n : K) - 1 := by
        have : ((i : ℤ) : K) = (((F.n : ℤ) - 1 : ℤ) : K) := by rw [h3]
        push_cast at this
        exact this
      have := F.n_h hn
      rw [h4]
      linarith

theorem Found.subLoad_pl [FloorRing K] (F : Found K) (P a : K) {i : ℕ}
    (hi : min (truncInt (a / F.h)) ((F.n : ℤ) - 1) = (i : ℤ)) :
    F.subLoad (.pl P a) = .ok fun k => if k = i then [.pl P (a - (i : K) * F.h)] else [] := by
  simp only [Found.subLoad, hi]
  have h1 : ¬ (i : ℤ) < 0 := by omega
  rw [if_neg h1, if_neg h1]
  simp

theorem Found.subLoad_sums (F : Found ℝ) (hn : 0 < F.n) (hL : 0 < F.L) (l : Load ℝ)
    (hon : l.OnSpan F.L) (hcl : F.Clear l) (per : ℕ → List (Load ℝ)) (h : F.subLoad l = .ok per) :
    (∀ e < F.n, ∀ k ∈ per e, k.OnSpan F.h) ∧
    ∑ e ∈ range F.n, ((per e).map fun k => k.total F.h).sum = l.total F.L ∧
    ∑ e ∈ range F.n, ((per e).map fun k => k.momentAboutLeft F.h + (e : ℝ) * F.h * k.total F.h).sum
      = l.momentAboutLeft F.L := by
  have hh := F.h_pos hn hL
  have hnh := F.n_h hn
  cases l with
  | udl w =>
    cases h
    obtain ⟨t1, t2⟩ := total_udl hh w
    obtain ⟨s1, s2⟩ := total_udl hL w
    refine ⟨fun e _ k hk => by rw [List.mem_singleton.1 hk]; trivial, ?_, ?_⟩
    · simp only [List.map_cons, List.map_nil, List.sum_singleton, t1, s1, Finset.sum_const,
        Finset.card_range, nsmul_eq_mul]
      rw [← hnh]; ring
    · simp only [List.map_cons, List.map_nil, List.sum_singleton, t1, t2, s2]
      have := sum_clampIn (fun t : ℝ => t ^ 2 / 2) hh.le hL.le F.n
      rw [hnh, min_self] at this
      have e1 : ∀ e ∈ range F.n, w * F.h ^ 2 / 2 + (e : ℝ) * F.h * (w * F.h)
          = w * ((fun t : ℝ => t ^ 2 / 2) (clampIn ((e : ℝ) * F.h) (((e : ℝ) + 1) * F.h) F.L)
            - (fun t : ℝ => t ^ 2 / 2) ((e : ℝ) * F.h)) := by
        intro e he
        have he' : (e : ℝ) + 1 ≤ F.n := by exact_mod_cast Finset.mem_range.1 he
        have h1 : ((e : ℝ) + 1) * F.h ≤ F.L := by
          rw [← hnh]
          exact mul_le_mul_of_nonneg_right he' hh.le
        have h2 : (e : ℝ) * F.h ≤ ((e : ℝ) + 1) * F.h := by nlinarith
        rw [clampIn, min_eq_right h1, max_eq_right h2]
        ring
      rw [Finset.sum_congr rfl e1, ← Finset.mul_sum, this]
      ring
  | pl P a =>
    obtain ⟨h0, h1⟩ := hon
    obtain ⟨i, hi, hi', b0, b1⟩ := F.pl_piece hn hL h0 h1
    rw [F.subLoad_pl P a hi'] at h
    cases h
    have key : ∀ (f : ℕ → Load ℝ → ℝ), ∑ e ∈ range F.n,
        ((if e = i then [Load.pl P (a - (i : ℝ) * F.h)] else []).map (f e)).sum
          = f i (.pl P (a - (i : ℝ) * F.h)) := by
      intro f
      rw [Finset.sum_eq_single i]
      · simp
      · intro b _ hb
        simp [hb]
      · intro hb
        exact absurd (Finset.mem_range.2 hi) hb
    refine ⟨?_, ?_, ?_⟩
    · intro e _ k hk
      dsimp only at hk
      split at hk
      · rw [List.mem_singleton.1 hk]
        exact ⟨b0, b1⟩
      · cases hk
    · rw [key fun _ k => k.total F.h, (total_pl _ _ _).1, (total_pl _ _ _).1]
    · rw [key fun e k => k.momentAboutLeft F.h + (e : ℝ) * F.h * k.total F.h,
        (total_pl _ _ _).1, (total_pl _ _ _).2, (total_pl _ _ _).2]
      ring
  | pudl w a c =>
    obtain ⟨h0, hc, h1⟩ := hon
    have hab : a ≤ a + c := by linarith
    have he1 : ∀ e : ℕ, (e : ℝ) * F.h ≤ ((e : ℝ) + 1) * F.h := fun e => by nlinarith
    simp only [Found.subLoad, Except.ok.injEq] at h
    have key : ∀ e < F.n, (∀ k ∈ per e, k.OnSpan F.h) ∧
        ((per e).map fun k => k.total F.h).sum
          = w * (clampIn ((e : ℝ) * F.h) (((e : ℝ) + 1) * F.h) (a + c)
            - clampIn ((e : ℝ) * F.h) (((e : ℝ) + 1) * F.h) a) ∧
        ((per e).map fun k => k.momentAboutLeft F.h + (e : ℝ) * F.h * k.total F.h).sum
          = w * ((clampIn ((e : ℝ) * F.h) (((e : ℝ) + 1) * F.h) (a + c)) ^ 2 / 2
            - (clampIn ((e : ℝ) * F.h) (((e : ℝ) + 1) * F.h) a) ^ 2 / 2) := by
      intro e he
      obtain ⟨p1, p2⟩ := clamp_piece (he1 e) hab
      have hc1 := hcl e he
      have b1 : (e : ℝ) * F.h ≤ max a ((e : ℝ) * F.h) := le_max_right _ _
      have b2 : min (a + c) (((e : ℝ) + 1) * F.h) ≤ ((e : ℝ) + 1) * F.h := min_le_right _ _
      rw [← h]
      dsimp only
      by_cases hlt : max a ((e : ℝ) * F.h) < min (a + c) (((e : ℝ) + 1) * F.h)
      · obtain ⟨q1, q2⟩ := p1 hlt
        obtain ⟨r1, r2⟩ := hc1 hlt
        rw [if_pos r1, q1, q2]
        by_cases hsn : npClose (max a ((e : ℝ) * F.h)) ((e : ℝ) * F.h) ∧
            npClose (min (a + c) (((e : ℝ) + 1) * F.h)) (((e : ℝ) + 1) * F.h)
        · rw [if_pos hsn]
          obtain ⟨u1, u2⟩ := r2 hsn.1 hsn.2
          obtain ⟨t1, t2⟩ := total_udl hh w
          rw [u1, u2]
          refine ⟨fun k hk => by rw [List.mem_singleton.1 hk]; trivial, ?_, ?_⟩
          · simp only [List.map_cons, List.map_nil, List.sum_singleton, t1]
            ring
          · simp only [List.map_cons, List.map_nil, List.sum_singleton, t1, t2]
            ring
        · rw [if_neg hsn]
          generalize max a ((e : ℝ) * F.h) = lo at *
          generalize min (a + c) (((e : ℝ) + 1) * F.h) = hi at *
          obtain ⟨t1, t2⟩ := total_pudl hh w (a := lo - (e : ℝ) * F.h) (c := hi - lo)
            (by linarith) (by linarith) (by linarith)
          refine ⟨fun k hk => by
            rw [List.mem_singleton.1 hk]; exact ⟨by linarith, by linarith, by linarith⟩, ?_, ?_⟩
          · simp only [List.map_cons, List.map_nil, List.sum_singleton, t1]
          · simp only [List.map_cons, List.map_nil, List.sum_singleton, t1, t2]
            ring
      · push Not at hlt
        have : ¬ 1 / 10 ^ 12 * F.L < min (a + c) (((e : ℝ) + 1) * F.h) - max a ((e : ℝ) * F.h) := by
          have : 0 < 1 / 10 ^ 12 * F.L := by positivity
          linarith
        rw [if_neg this, p2 hlt]
        simp
    obtain ⟨t1, t2⟩ := total_pudl hL w h0 hc h1
    have s1 := sum_clampIn (fun t : ℝ => t) hh.le (by linarith : 0 ≤ a + c) F.n
    have s2 := sum_clampIn (fun t : ℝ => t) hh.le h0 F.n
    have s3 := sum_clampIn (fun t : ℝ => t ^ 2 / 2) hh.le (by linarith : 0 ≤ a + c) F.n
    have s4 := sum_clampIn (fun t : ℝ => t ^ 2 / 2) hh.le h0 F.n
    rw [hnh, min_eq_left h1] at s1 s3
    rw [hnh, min_eq_left (by linarith : a ≤ F.L)] at s2 s4
    refine ⟨fun e he => (key e he).1, ?_, ?_⟩
    · rw [Finset.sum_congr rfl fun e he => (key e (Finset.mem_range.1 he)).2.1, ← Finset.mul_sum, t1]
      have e1 := congrArg₂ (· - ·) s1 s2
      simp only [← Finset.sum_sub_distrib] at e1
      rw [Finset.sum_congr rfl fun e _ => by rw [← sub_sub_sub_cancel_right _ _ ((e : ℝ) * F.h)], e1]
      ring
    · rw [Finset.sum_congr rfl fun e he => (key e (Finset.mem_range.1 he)).2.2, ← Finset.mul_sum, t2]
      have e1 := congrArg₂ (· - ·) s3 s4
      simp only [← Finset.sum_sub_distrib] at e1
      rw [Finset.sum_congr rfl fun e _ => by
        rw [← sub_sub_sub_cancel_right _ _ (((e : ℝ) * F.h) ^ 2 / 2)], e1]
      ring
  | _ => cases h

/-- **C64**, loads: the pieces of the loads lie on their sub-elements, and together they
have the total and the moment of the loads, for any number of pieces and any loads on
the member that are clear of the tolerances of the code.  Missing: partial loads
within those tolerances, for which the total is not preserved
(`C64_load_violation`, with the error bounded by `C64_load_error`). -/
theorem C64_loads_partial (F : Found ℝ) (hn : 0 < F.n) (hL : 0 < F.L) (loads : List (Load ℝ))
    (hon : ∀ l ∈ loads, l.OnSpan F.L) (hcl : ∀ l ∈ loads, F.Clear l) (per : ℕ → List (Load ℝ))
    (h : F.subLoads loads = .ok per) :
    (∀ e < F.n, ∀ k ∈ per e, k.OnSpan F.h) ∧
    ∑ e ∈ range F.n, ((per e).map fun k => k.total F.h).sum
      = (loads.map fun l => l.total F.L).sum ∧
    ∑ e ∈ range F.n, ((per e).map fun k => k.momentAboutLeft F.h + (e : ℝ) * F.h * k.total F.h).sum
      = (loads.map fun l => l.momentAboutLeft F.L).sum := by
  induction loads generalizing per with
  | nil =>
    cases h
    simp
  | cons l ls ih =>
    simp only [Found.subLoads] at h
    split at h
    · cases h
    rename_i p hp
    split at h
    · cases h
    rename_i q hq
    cases h
    obtain ⟨a1, a2, a3⟩ := F.subLoad_sums hn hL l (hon l (by simp)) (hcl l (by simp)) p hp
    obtain ⟨b1, b2, b3⟩ := ih (fun l hl => hon l (by simp [hl])) (fun l hl => hcl l (by simp [hl])) q hq
    refine ⟨?_, ?_, ?_⟩
    · intro e he k hk
      rcases List.mem_append.1 hk with hk | hk
      · exact a1 e he k hk
      · exact b1 e he k hk
    · simp only [List.map_append, List.sum_append, Finset.sum_add_distrib, List.map_cons, List.sum_cons]
      rw [a2, b2]
    · simp only [List.map_append, List.sum_append, Finset.sum_add_distrib, List.map_cons, List.sum_cons]
      rw [a3, b3]

/-- `C64_loads_partial` on a member of length 8 in 4 pieces with the three kinds of load;
the partial load covers one piece and parts of two. -/
example : ∃ per, (⟨8, 1, 1, 4⟩ : Found ℝ).subLoads [.udl 3, .pl 5 7, .pudl 2 1 4] = .ok per ∧
    ∑ e ∈ range 4, ((per e).map fun k => k.total 2).sum
      = ([.udl 3, .pl 5 7, .pudl 2 1 4].map fun l : Load ℝ => l.total 8).sum := by
  have hh : (⟨8, 1, 1, 4⟩ : Found ℝ).h = 2 := by norm_num [Found.h]
  obtain ⟨i, hi, hi', -, -⟩ := (⟨8, 1, 1, 4⟩ : Found ℝ).pl_piece (a := 7) (by norm_num) (by norm_num)
    (by norm_num) (by norm_num)
  have hok : ∃ per, (⟨8, 1, 1, 4⟩ : Found ℝ).subLoads [.udl 3, .pl 5 7, .pudl 2 1 4] = .ok per := by
    simp only [Found.subLoads]
    rw [Found.subLoad_pl _ _ _ hi']
    exact ⟨_, rfl⟩
  obtain ⟨per, h⟩ := hok
  refine ⟨per, h, ?_⟩
  have := (C64_loads_partial ⟨8, 1, 1, 4⟩ (by norm_num) (by norm_num) _ ?_ ?_ per h).2.1
  · rwa [hh] at this
  · simp only [List.mem_cons, List.not_mem_nil, or_false, forall_eq_or_imp, forall_eq, Load.OnSpan]
    norm_num
  · simp only [List.mem_cons, List.not_mem_nil, or_false, forall_eq_or_imp, forall_eq, Found.Clear,
      true_and, hh]
    intro e he
    have he : e < 4 := he
    interval_cases e <;> norm_num [npClose]

/-- C64 fails within the tolerances: a partial load of length `0.99995` from `9.00005` to
the end of a member of length 10 in 10 pieces is replaced by a load over the whole
last piece, so the fixed-end forces carry a load that was not applied. -/
theorem C64_load_violation : ∃ (F : Found ℚ) (w a c : ℚ) (refs : List (Vec4 ℚ)),
    (Load.pudl w a c).OnSpan F.L ∧ F.refs [.pudl w a c] = .ok refs ∧
    ∑ e ∈ range F.n, ((refs.getD e 0) 0 + (refs.getD e 0) 2) ≠ w * c := by
  have h : ((⟨10, 1, 1, 10⟩ : Found ℚ).refs [.pudl 1 (9 + 5 / 10 ^ 5) (1 - 5 / 10 ^ 5)]).toOption.isSome := by
    decide +kernel
  obtain ⟨refs, hr⟩ := Option.isSome_iff_exists.1 h
  have hr' : (⟨10, 1, 1, 10⟩ : Found ℚ).refs [.pudl 1 (9 + 5 / 10 ^ 5) (1 - 5 / 10 ^ 5)] = .ok refs := by
    revert hr
    cases (⟨10, 1, 1, 10⟩ : Found ℚ).refs [.pudl 1 (9 + 5 / 10 ^ 5) (1 - 5 / 10 ^ 5)] with
    | error e => intro hr; cases hr
    | ok r => intro hr; cases hr; rfl
  refine ⟨⟨10, 1, 1, 10⟩, 1, 9 + 5 / 10 ^ 5, 1 - 5 / 10 ^ 5, refs, by norm_num [Load.OnSpan], hr', ?_⟩
  have e : ((⟨10, 1, 1, 10⟩ : Found ℚ).refs [.pudl 1 (9 + 5 / 10 ^ 5) (1 - 5 / 10 ^ 5)]).toOption.map
      (fun refs => ∑ e ∈ range 10, ((refs.getD e 0) 0 + (refs.getD e 0) 2)) = some 1 := by
    decide +kernel
  rw [hr] at e
  have e' : ∑ e ∈ range 10, ((refs.getD e 0) 0 + (refs.getD e 0) 2) = 1 := by simpa using e
  simp only [e']
  norm_num

theorem sum_le_of_unique {n : ℕ} {f : ℕ → K} {t : K} (ht : 0 ≤ t) (h1 : ∀ e < n, f e ≤ t)
    (h2 : ∀ e < n, ∀ e' < n, f e ≠ 0 → f e' ≠ 0 → e = e') : ∑ e ∈ range n, f e ≤ t := by
  by_cases h : ∃ e < n, f e ≠ 0
  · obtain ⟨e, he, hne⟩ := h
    rw [Finset.sum_eq_single e]
    · exact h1 e he
    · intro b hb hbe
      by_contra hc
      exact hbe (h2 b (Finset.mem_range.1 hb) e he hc hne)
    · intro hb
      exact absurd (Finset.mem_range.2 he) hb
  · push Not at h
    rw [Finset.sum_eq_zero fun e he => h e (Finset.mem_range.1 he)]
    exact ht

theorem piece_unique {h a : K} (hh : 0 < h) {e e' : ℕ} (h1 : (e : K) * h < a) (h2 : a < ((e : K) + 1) * h)
    (h3 : (e' : K) * h < a) (h4 : a < ((e' : K) + 1) * h) : e = e' := by
  have a1 : (e : K) < (e' : K) + 1 := lt_of_mul_lt_mul_right (h1.trans h4) hh.le
  have a2 : (e' : K) < (e : K) + 1 := lt_of_mul_lt_mul_right (h3.trans h2) hh.le
  have b1 : e < e' + 1 := by exact_mod_cast a1
  have b2 : e' < e + 1 := by exact_mod_cast a2
  omega

/-- **C64**, loads, for every partial load on the member: the total on the pieces differs
from the total of the load by no more than its intensity over two tolerances of
`np.isclose` and `n` of the lengths the code neglects. -/
theorem C64_load_error (F : Found ℝ) (hn : 0 < F.n) (hL : 0 < F.L) (w a c : ℝ)
    (hon : (Load.pudl w a c).OnSpan F.L) (per : ℕ → List (Load ℝ))
    (h : F.subLoad (.pudl w a c) = .ok per) :
    |∑ e ∈ range F.n, ((per e).map fun k => k.total F.h).sum - (Load.pudl w a c).total F.L|
      ≤ |w| * (2 * (1 / 10 ^ 8 + 1 / 10 ^ 5 * F.L) + F.n * (1 / 10 ^ 12 * F.L)) := by
  have hh := F.h_pos hn hL
  have hnh := F.n_h hn
  obtain ⟨h0, hc, h1⟩ := hon
  have hab : a ≤ a + c := by linarith
  have he1 : ∀ e : ℕ, (e : ℝ) * F.h ≤ ((e : ℝ) + 1) * F.h := fun e => by nlinarith
  have he0 : ∀ e : ℕ, 0 ≤ (e : ℝ) * F.h := fun e => by positivity
  have heL : ∀ e < F.n, ((e : ℝ) + 1) * F.h ≤ F.L := by
    intro e he
    have he' : (e : ℝ) + 1 ≤ F.n := by exact_mod_cast he
    rw [← hnh]
    exact mul_le_mul_of_nonneg_right he' hh.le
  simp only [Found.subLoad, Except.ok.injEq] at h
  set tol : ℝ := 1 / 10 ^ 8 + 1 / 10 ^ 5 * F.L with htol
  have htol0 : 0 ≤ tol := by positivity
  -- the excess at the two ends of a piece whose load was extended over it
  let S : ℕ → Prop := fun e =>
    1 / 10 ^ 12 * F.L < min (a + c) (((e : ℝ) + 1) * F.h) - max a ((e : ℝ) * F.h) ∧
    npClose (max a ((e : ℝ) * F.h)) ((e : ℝ) * F.h) ∧
    npClose (min (a + c) (((e : ℝ) + 1) * F.h)) (((e : ℝ) + 1) * F.h)
  classical
  let A : ℕ → ℝ := fun e => if S e then max a ((e : ℝ) * F.h) - (e : ℝ) * F.h else 0
  let B : ℕ → ℝ := fun e => if S e then ((e : ℝ) + 1) * F.h - min (a + c) (((e : ℝ) + 1) * F.h) else 0
  let cov : ℕ → ℝ := fun e => clampIn ((e : ℝ) * F.h) (((e : ℝ) + 1) * F.h) (a + c)
    - clampIn ((e : ℝ) * F.h) (((e : ℝ) + 1) * F.h) a
  have key : ∀ e < F.n, ∃ t, ((per e).map fun k => k.total F.h).sum = w * t ∧
      t ≤ cov e + (A e + B e) ∧ cov e - 1 / 10 ^ 12 * F.L ≤ t := by
    intro e he
    obtain ⟨p1, p2⟩ := clamp_piece (he1 e) hab
    have b1 : (e : ℝ) * F.h ≤ max a ((e : ℝ) * F.h) := le_max_right _ _
    have b2 : min (a + c) (((e : ℝ) + 1) * F.h) ≤ ((e : ℝ) + 1) * F.h := min_le_right _ _
    have hs0 : 0 < 1 / 10 ^ 12 * F.L := by positivity
    rw [← h]
    dsimp only
    by_cases r1 : 1 / 10 ^ 12 * F.L < min (a + c) (((e : ℝ) + 1) * F.h) - max a ((e : ℝ) * F.h)
    · obtain ⟨q1, q2⟩ := p1 (by linarith)
      rw [if_pos r1]
      by_cases hsn : npClose (max a ((e : ℝ) * F.h)) ((e : ℝ) * F.h) ∧
          npClose (min (a + c) (((e : ℝ) + 1) * F.h)) (((e : ℝ) + 1) * F.h)
      · rw [if_pos hsn]
        have hS : S e := ⟨r1, hsn⟩
        refine ⟨F.h, by simp [(total_udl hh w).1], ?_, ?_⟩
        · simp only [A, B, cov, if_pos hS, q1, q2]
          linarith
        · simp only [cov, q1, q2]
          linarith
      · rw [if_neg hsn]
        have hS : ¬ S e := fun h => hsn h.2
        refine ⟨min (a + c) (((e : ℝ) + 1) * F.h) - max a ((e : ℝ) * F.h), ?_, ?_, ?_⟩
        · have := (total_pudl hh w (a := max a ((e : ℝ) * F.h) - (e : ℝ) * F.h)
            (c := min (a + c) (((e : ℝ) + 1) * F.h) - max a ((e : ℝ) * F.h))
            (by linarith) (by linarith) (by linarith)).1
          simp [this]
        · simp only [A, B, cov, if_neg hS, q1, q2]
          linarith
        · simp only [cov, q1, q2]
          linarith
    · rw [if_neg r1]
      have hS : ¬ S e := fun h => r1 h.1
      have hcov : 0 ≤ cov e ∧ cov e ≤ 1 / 10 ^ 12 * F.L := by
        by_cases hlt : max a ((e : ℝ) * F.h) < min (a + c) (((e : ℝ) + 1) * F.h)
        · obtain ⟨q1, q2⟩ := p1 hlt
          simp only [cov, q1, q2]
          constructor <;> linarith
        · push Not at hlt
          simp only [cov, p2 hlt, sub_self]
          exact ⟨le_rfl, hs0.le⟩
      refine ⟨0, by simp, ?_, by linarith⟩
      simp only [A, B, if_neg hS]
      linarith
  choose! t ht1 ht2 ht3 using key
  rw [Finset.sum_congr rfl fun e he => ht1 e (Finset.mem_range.1 he), ← Finset.mul_sum,
    (total_pudl hL w h0 hc h1).1, ← mul_sub, abs_mul]
  refine mul_le_mul_of_nonneg_left ?_ (abs_nonneg w)
  have s1 := sum_clampIn (fun t : ℝ => t) hh.le (by linarith : 0 ≤ a + c) F.n
  have s2 := sum_clampIn (fun t : ℝ => t) hh.le h0 F.n
  rw [hnh, min_eq_left h1] at s1
  rw [hnh, min_eq_left (by linarith : a ≤ F.L)] at s2
  have hcov : ∑ e ∈ range F.n, cov e = c := by
    have e1 := congrArg₂ (· - ·) s1 s2
    simp only [← Finset.sum_sub_distrib] at e1
    simp only [cov]
    rw [Finset.sum_congr rfl fun e _ => by rw [← sub_sub_sub_cancel_right _ _ ((e : ℝ) * F.h)], e1]
    ring
  have hA : ∑ e ∈ range F.n, A e ≤ tol := by
    apply sum_le_of_unique htol0
    · intro e he
      simp only [A]
      split
      · rename_i hS
        have := le_of_abs_le hS.2.1
        rw [abs_of_nonneg (he0 e)] at this
        have := heL e he
        have := he1 e
        rw [htol]
        linarith
      · exact htol0
    · intro e he e' he' n1 n2
      have part : ∀ e : ℕ, A e ≠ 0 → (e : ℝ) * F.h < a ∧ a < ((e : ℝ) + 1) * F.h := by
        intro e hne
        simp only [A] at hne
        split at hne
        · rename_i hS
          have hlt : (e : ℝ) * F.h < a := by
            by_contra hc
            push Not at hc
            rw [max_eq_right hc, sub_self] at hne
            exact hne rfl
          refine ⟨hlt, ?_⟩
          have h2 := hS.1
          rw [max_eq_left hlt.le] at h2
          have : 0 < 1 / 10 ^ 12 * F.L := by positivity
          have := min_le_right (a + c) (((e : ℝ) + 1) * F.h)
          linarith
        · exact absurd rfl hne
      obtain ⟨u1, u2⟩ := part e n1
      obtain ⟨u3, u4⟩ := part e' n2
      exact piece_unique hh u1 u2 u3 u4
  have hB : ∑ e ∈ range F.n, B e ≤ tol := by
    apply sum_le_of_unique htol0
    · intro e he
      simp only [B]
      split
      · rename_i hS
        have := neg_le_of_abs_le hS.2.2
        rw [abs_of_nonneg ((he0 e).trans (he1 e))] at this
        have := heL e he
        rw [htol]
        linarith
      · exact htol0
    · intro e he e' he' n1 n2
      have part : ∀ e : ℕ, B e ≠ 0 → (e : ℝ) * F.h < a + c ∧ a + c < ((e : ℝ) + 1) * F.h := by
        intro e hne
        simp only [B] at hne
        split at hne
        · rename_i hS
          have hlt : a + c < ((e : ℝ) + 1) * F.h := by
            by_contra hc
            push Not at hc
            rw [min_eq_right hc, sub_self] at hne
            exact hne rfl
          refine ⟨?_, hlt⟩
          have h2 := hS.1
          rw [min_eq_left hlt.le] at h2
          have : 0 < 1 / 10 ^ 12 * F.L := by positivity
          have := le_max_right a ((e : ℝ) * F.h)
          linarith
        · exact absurd rfl hne
      obtain ⟨u1, u2⟩ := part e n1
      obtain ⟨u3, u4⟩ := part e' n2
      exact piece_unique hh u1 u2 u3 u4
  have up : ∑ e ∈ range F.n, t e ≤ ∑ e ∈ range F.n, (cov e + (A e + B e)) :=
    Finset.sum_le_sum fun e he => ht2 e (Finset.mem_range.1 he)
  have lo : ∑ e ∈ range F.n, (cov e - 1 / 10 ^ 12 * F.L) ≤ ∑ e ∈ range F.n, t e :=
    Finset.sum_le_sum fun e he => ht3 e (Finset.mem_range.1 he)
  rw [Finset.sum_add_distrib, Finset.sum_add_distrib, hcov] at up
  rw [Finset.sum_sub_distrib, hcov, Finset.sum_const, Finset.card_range, nsmul_eq_mul] at lo
  have : (0 : ℝ) ≤ F.n * (1 / 10 ^ 12 * F.L) := by positivity
  rw [abs_le]
  constructor <;> linarith

end PyCBA
