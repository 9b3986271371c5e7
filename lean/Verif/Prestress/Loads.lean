import Verif.Prestress.Props

/-!
C63: the equivalent loads of a tendon on a simply supported span.
-/

namespace PyCBA

set_option linter.unusedSectionVars false
set_option linter.unusedSimpArgs false

variable {K : Type*} [Field K] [LinearOrder K] [IsStrictOrderedRing K]

/-! ## Moments of the exact (undropped) actions of the tendon -/

/-- Moment about `x` of the curvature action of a piece on the part left of `x`. -/
def TSeg.wMac (F : K) (s : TSeg K) (x : K) : K :=
  F * s.epp / 2 * (mb (x - s.x1) ^ 2 - mb (x - s.x2) ^ 2)

/-- Moment about `x` of all actions left of `x`; `p` is the slope before the first piece. -/
def tendonMac (F : K) : K → List (TSeg K) → K → K
  | _, [], _ => 0
  | p, s :: rest, x =>
    s.wMac F x + F * (s.slopeStart - p) * mb (x - s.x1) + tendonMac F s.slopeEnd rest x

/-- The simply supported moment belonging to the moment `f` of the actions left of a point. -/
def ssOf (f : K → K) (L x : K) : K := x / L * f L - f x

theorem tendonMac_before (F : K) (segs : List (TSeg K)) : ∀ (p x0 e0 x1 e1 x : K),
    SegChain segs x0 e0 x1 e1 → x ≤ x0 → tendonMac F p segs x = 0 := by
  induction segs with
  | nil => intros; rfl
  | cons s rest ih =>
    intro p x0 e0 x1 e1 x h hx
    obtain ⟨h1, _, h3, h4⟩ := h
    simp only [tendonMac, TSeg.wMac]
    rw [ih _ _ _ _ _ x h4 (by linarith), mb_of_nonpos (by linarith : x - s.x1 ≤ 0),
      mb_of_nonpos (by linarith : x - s.x2 ≤ 0)]
    ring

theorem tendonMac_on (F : K) (segs : List (TSeg K)) : ∀ (p x0 e0 x1 e1 x : K),
    SegChain segs x0 e0 x1 e1 → ∀ s ∈ segs, s.x1 ≤ x → x ≤ s.x2 →
      tendonMac F p segs x = F * (s.ecc x - e0 - p * (x - x0)) := by
  induction segs with
  | nil => intro _ _ _ _ _ _ _ s hs; simp at hs
  | cons t rest ih =>
    intro p x0 e0 x1 e1 x h s hs ha hb
    obtain ⟨h1, h2, h3, h4⟩ := h
    rcases List.mem_cons.mp hs with rfl | hs
    · simp only [tendonMac, TSeg.wMac]
      rw [tendonMac_before F rest _ _ _ _ _ x h4 hb, mb_of_nonneg (by linarith : 0 ≤ x - s.x1),
        mb_of_nonpos (by linarith : x - s.x2 ≤ 0), TSeg.ecc, ← h1, ← h2]
      ring
    · have hge := (h4.mem_bounds s hs).1
      simp only [tendonMac, TSeg.wMac]
      rw [ih t.slopeEnd _ _ _ _ x h4 s hs ha hb, mb_of_nonneg (by linarith : 0 ≤ x - t.x1),
        mb_of_nonneg (by linarith : 0 ≤ x - t.x2)]
      have he := t.ecc_x2 h3
      rw [TSeg.ecc, h2] at he
      rw [← h1]
      simp only [TSeg.slopeEnd, TSeg.length]
      linear_combination F * he

/-! ## The rows the code writes -/

/-- The joints of the pieces are at the supports or more than `1e-9` away from them. -/
def ClearEnds (L : K) (segs : List (TSeg K)) : Prop :=
  ∀ s ∈ segs, (s.x1 = 0 ∨ pTol < s.x1 ∧ s.x1 < L - pTol) ∧ (s.x2 = L ∨ s.x2 < L - pTol)

/-- None of the curvatures and kinks is in the range that the code drops. -/
def NoneTiny : Option K → List (TSeg K) → Prop
  | _, [] => True
  | prev, s :: rest => NotTiny s.epp ∧ (∀ p, prev = some p → NotTiny (s.slopeStart - p)) ∧
      NoneTiny (some s.slopeEnd) rest

theorem parseLM_app {LM1 LM2 : List (Row K)} {l1 l2 : List (SpanLoad K)}
    (h1 : parseLM LM1 = .ok l1) (h2 : parseLM LM2 = .ok l2) :
    parseLM (LM1 ++ LM2) = .ok (l1 ++ l2) := by
  have := parseLM_append LM1 LM2
  rw [h1, h2] at this
  exact this

theorem abs_ssOf_le {f : K → K} {L x B : K} (hL : 0 < L) (h0 : 0 ≤ x) (hx : x ≤ L)
    (hf : ∀ y, 0 ≤ y → y ≤ L → 0 ≤ f y ∧ f y ≤ B) (c : K) :
    |ssOf (fun y => c * f y) L x| ≤ |c| * B := by
  have h1 := hf L hL.le le_rfl
  have h2 := hf x h0 hx
  have hr0 : 0 ≤ x / L := div_nonneg h0 hL.le
  have hr1 : x / L ≤ 1 := (div_le_one hL).mpr hx
  have e : ssOf (fun y => c * f y) L x = c * (x / L * f L - f x) := by simp only [ssOf]; ring
  rw [e, abs_mul]
  refine mul_le_mul_of_nonneg_left ?_ (abs_nonneg c)
  rw [abs_le]
  have h3 : 0 ≤ x / L * f L := mul_nonneg hr0 h1.1
  have h4 : x / L * f L ≤ 1 * f L := mul_le_mul_of_nonneg_right hr1 h1.1
  constructor <;> linarith

theorem curvRow_ok (i : ℤ) (F L : K) (hL : 0 < L) (s : TSeg K) (h0 : 0 ≤ s.x1) (h1 : s.x1 < s.x2)
    (h2 : s.x2 ≤ L) (hc : (s.x1 = 0 ∨ pTol < s.x1 ∧ s.x1 < L - pTol) ∧ (s.x2 = L ∨ s.x2 < L - pTol)) :
    ∃ ls, parseLM (curvRow (i + 1) F L s) = .ok ls ∧ (∀ l ∈ ls, l.iSpan = i) ∧
      ∀ x, 0 ≤ x → x ≤ L →
        |(ls.map fun l => l.load.ssM L x).sum - ssOf (s.wMac F) L x| ≤ |F| * pTol * (L ^ 2 / 2) ∧
        (NotTiny s.epp → (ls.map fun l => l.load.ssM L x).sum = ssOf (s.wMac F) L x) := by
  have hT := pTol_pos (K := K)
  have hpos : 0 ≤ |F| * pTol * (L ^ 2 / 2) := by positivity
  by_cases hb : pTol < |s.epp|
  · by_cases hf : s.x1 ≤ pTol ∧ L - pTol ≤ s.x2
    · have ha : s.x1 = 0 := hc.1.resolve_right (fun h => absurd h.1 (not_lt.mpr hf.1))
      have hb' : s.x2 = L := hc.2.resolve_right (not_lt.mpr hf.2)
      refine ⟨[⟨i + 1 - 1, .udl (F * s.epp)⟩], ?_, ?_, ?_⟩
      · simp only [curvRow, if_pos hb, if_pos hf]; rfl
      · intro l hl; rw [List.mem_singleton] at hl; subst hl; simp
      · intro x hx hx'
        have key : ([(⟨i + 1 - 1, .udl (F * s.epp)⟩ : SpanLoad K)].map
            fun l => l.load.ssM L x).sum = ssOf (s.wMac F) L x := by
          simp only [List.map_cons, List.map_nil, List.sum_cons, List.sum_nil, Load.ssM, Load.stn,
            udlStn, ssOf, TSeg.wMac, ha, hb', sub_zero, sub_self]
          rw [mb_of_nonneg hL.le, mb_of_nonneg hx, mb_of_nonneg (le_refl (0 : K)),
            mb_of_nonpos (by linarith : x - L ≤ 0)]
          field_simp
          ring
        exact ⟨by rw [key, sub_self, abs_zero]; exact hpos, fun _ => key⟩
    · refine ⟨[⟨i + 1 - 1, .pudl (F * s.epp) s.x1 s.length⟩], ?_, ?_, ?_⟩
      · simp only [curvRow, if_pos hb, if_neg hf]; rfl
      · intro l hl; rw [List.mem_singleton] at hl; subst hl; simp
      · intro x hx hx'
        have key : ([(⟨i + 1 - 1, .pudl (F * s.epp) s.x1 s.length⟩ : SpanLoad K)].map
            fun l => l.load.ssM L x).sum = ssOf (s.wMac F) L x := by
          have e : s.length + s.x1 = s.x2 := by simp only [TSeg.length]; ring
          simp only [List.map_cons, List.map_nil, List.sum_cons, List.sum_nil, Load.ssM, Load.stn,
            pudlStn, ssOf, TSeg.wMac, e]
          rw [mb_of_nonneg (by linarith : 0 ≤ L - s.x1), mb_of_nonneg (by linarith : 0 ≤ L - s.x2)]
          simp only [TSeg.length]
          field_simp
          ring
        exact ⟨by rw [key, sub_self, abs_zero]; exact hpos, fun _ => key⟩
  · refine ⟨[], ?_, by simp, ?_⟩
    · simp only [curvRow, if_neg hb]; rfl
    · intro x hx hx'
      constructor
      · rw [List.map_nil, List.sum_nil, zero_sub, abs_neg]
        have hfun : s.wMac F = fun y => (F * s.epp) *
            ((mb (y - s.x1) ^ 2 - mb (y - s.x2) ^ 2) / 2) := by
          funext y; simp only [TSeg.wMac]; ring
        rw [hfun]
        refine (abs_ssOf_le (B := L ^ 2 / 2) hL hx hx' ?_ _).trans ?_
        · intro y hy hy'
          have m1 : 0 ≤ mb (y - s.x2) := le_max_right _ _
          have m2 : mb (y - s.x2) ≤ mb (y - s.x1) := max_le_max (by linarith) le_rfl
          have m3 : mb (y - s.x1) ≤ L := max_le (by linarith) hL.le
          constructor
          · have := pow_le_pow_left₀ m1 m2 2
            linarith
          · have h5 := pow_le_pow_left₀ (m1.trans m2) m3 2
            have h6 : 0 ≤ mb (y - s.x2) ^ 2 := by positivity
            linarith
        · rw [abs_mul]
          push Not at hb
          have : |F| * |s.epp| ≤ |F| * pTol := mul_le_mul_of_nonneg_left hb (abs_nonneg F)
          exact mul_le_mul_of_nonneg_right this (by positivity)
      · rintro (h | h)
        · simp [ssOf, TSeg.wMac, h]
        · exact absurd h hb

theorem kinkRow_ok (i : ℤ) (F L : K) (hL : 0 < L) (p : K) (s : TSeg K) (h0 : pTol < s.x1)
    (h1 : s.x1 < L - pTol) :
    ∃ ls, parseLM (kinkRow (i + 1) F L (some p) s) = .ok ls ∧ (∀ l ∈ ls, l.iSpan = i) ∧
      ∀ x, 0 ≤ x → x ≤ L →
        |(ls.map fun l => l.load.ssM L x).sum
          - ssOf (fun y => F * (s.slopeStart - p) * mb (y - s.x1)) L x| ≤ |F| * pTol * L ∧
        (NotTiny (s.slopeStart - p) → (ls.map fun l => l.load.ssM L x).sum =
          ssOf (fun y => F * (s.slopeStart - p) * mb (y - s.x1)) L x) := by
  have hT := pTol_pos (K := K)
  have hpos : 0 ≤ |F| * pTol * L := by positivity
  by_cases hb : pTol < |s.slopeStart - p|
  · refine ⟨[⟨i + 1 - 1, .pl (F * (s.slopeStart - p)) s.x1⟩], ?_, ?_, ?_⟩
    · simp only [kinkRow, if_pos (⟨hb, h0, h1⟩ : _ ∧ _ ∧ _)]; rfl
    · intro l hl; rw [List.mem_singleton] at hl; subst hl; simp
    · intro x hx hx'
      have key : ([(⟨i + 1 - 1, .pl (F * (s.slopeStart - p)) s.x1⟩ : SpanLoad K)].map
          fun l => l.load.ssM L x).sum
            = ssOf (fun y => F * (s.slopeStart - p) * mb (y - s.x1)) L x := by
        simp only [List.map_cons, List.map_nil, List.sum_cons, List.sum_nil, Load.ssM, Load.stn,
          plStn, ssOf]
        rw [max_eq_left (by linarith : (0 : K) ≤ L - s.x1),
          mb_of_nonneg (by linarith : 0 ≤ L - s.x1)]
        field_simp
        ring
      exact ⟨by rw [key, sub_self, abs_zero]; exact hpos, fun _ => key⟩
  · refine ⟨[], ?_, by simp, ?_⟩
    · simp only [kinkRow]; rw [if_neg (fun h => hb h.1)]; rfl
    · intro x hx hx'
      constructor
      · rw [List.map_nil, List.sum_nil, zero_sub, abs_neg]
        refine (abs_ssOf_le (B := L) hL hx hx' ?_ _).trans ?_
        · intro y hy hy'
          exact ⟨le_max_right _ _, max_le (by linarith) hL.le⟩
        · rw [abs_mul]
          push Not at hb
          have : |F| * |s.slopeStart - p| ≤ |F| * pTol := mul_le_mul_of_nonneg_left hb (abs_nonneg F)
          exact mul_le_mul_of_nonneg_right this hL.le
      · rintro (h | h)
        · simp [ssOf, h]
        · exact absurd h hb

theorem ssOf_add (f g : K → K) (L x : K) :
    ssOf (fun y => f y + g y) L x = ssOf f L x + ssOf g L x := by simp only [ssOf]; ring

theorem sum_map_append (l1 l2 : List (SpanLoad K)) (L x : K) :
    ((l1 ++ l2).map fun l => l.load.ssM L x).sum
      = (l1.map fun l => l.load.ssM L x).sum + (l2.map fun l => l.load.ssM L x).sum := by
  rw [List.map_append, List.sum_append]

/-- The rows of the pieces after the first one. -/
theorem segRows_some_ok (i : ℤ) (F L : K) (hL : 0 < L) (segs : List (TSeg K)) :
    ∀ (p x0 e0 e1 : K), 0 < x0 → SegChain segs x0 e0 L e1 → ClearEnds L segs →
    ∃ ls, parseLM (segRows (i + 1) F L (some p) segs) = .ok ls ∧ (∀ l ∈ ls, l.iSpan = i) ∧
      ∀ x, 0 ≤ x → x ≤ L →
        |(ls.map fun l => l.load.ssM L x).sum - ssOf (tendonMac F p segs) L x|
          ≤ segs.length * (|F| * pTol * (L ^ 2 / 2 + L)) ∧
        (NoneTiny (some p) segs →
          (ls.map fun l => l.load.ssM L x).sum = ssOf (tendonMac F p segs) L x) := by
  induction segs with
  | nil =>
    intro p x0 e0 e1 _ _ _
    exact ⟨[], rfl, by simp, fun x _ _ => ⟨by simp [ssOf, tendonMac], fun _ => by
      simp [ssOf, tendonMac]⟩⟩
  | cons s rest ih =>
    intro p x0 e0 e1 hx0 h hcl
    have hbd := h.mem_bounds s List.mem_cons_self
    obtain ⟨h1, h2, h3, h4⟩ := h
    have hc := hcl s List.mem_cons_self
    have hT := pTol_pos (K := K)
    obtain ⟨hx1, hx1'⟩ := hc.1.resolve_left (by rw [h1]; exact hx0.ne')
    obtain ⟨la, ha1, ha2, ha3⟩ := curvRow_ok i F L hL s (by linarith) h3 hbd.2.2 hc
    obtain ⟨lb, hb1, hb2, hb3⟩ := kinkRow_ok i F L hL p s hx1 hx1'
    obtain ⟨lc, hc1, hc2, hc3⟩ := ih s.slopeEnd s.x2 s.e2 e1 (by linarith) h4
      (fun t ht => hcl t (List.mem_cons_of_mem _ ht))
    refine ⟨la ++ lb ++ lc, parseLM_app (parseLM_app ha1 hb1) hc1, ?_, ?_⟩
    · intro l hl
      rcases List.mem_append.mp hl with hl | hl
      · rcases List.mem_append.mp hl with hl | hl
        · exact ha2 l hl
        · exact hb2 l hl
      · exact hc2 l hl
    · intro x hx hx'
      obtain ⟨a1, a2⟩ := ha3 x hx hx'
      obtain ⟨b1, b2⟩ := hb3 x hx hx'
      obtain ⟨c1, c2⟩ := hc3 x hx hx'
      have hsplit : ssOf (tendonMac F p (s :: rest)) L x = ssOf (s.wMac F) L x
          + ssOf (fun y => F * (s.slopeStart - p) * mb (y - s.x1)) L x
          + ssOf (tendonMac F s.slopeEnd rest) L x := by
        simp only [ssOf, tendonMac]; ring
      rw [sum_map_append, sum_map_append, hsplit]
      constructor
      · rw [abs_le] at a1 b1 c1 ⊢
        have hlen : ((s :: rest).length : K) = rest.length + 1 := by simp
        rw [hlen]
        constructor <;> nlinarith [a1.1, a1.2, b1.1, b1.2, c1.1, c1.2]
      · rintro ⟨n1, n2, n3⟩
        rw [a2 n1, b2 (n2 p rfl), c2 n3]

/-- The rows of all pieces of a span. -/
theorem segRows_ok (i : ℤ) (F L : K) (hL : 0 < L) (s : TSeg K) (rest : List (TSeg K)) (e0 e1 : K)
    (h : SegChain (s :: rest) 0 e0 L e1) (hcl : ClearEnds L (s :: rest)) :
    ∃ ls, parseLM (segRows (i + 1) F L none (s :: rest)) = .ok ls ∧ (∀ l ∈ ls, l.iSpan = i) ∧
      ∀ x, 0 ≤ x → x ≤ L →
        |(ls.map fun l => l.load.ssM L x).sum - ssOf (tendonMac F s.slopeStart (s :: rest)) L x|
          ≤ (s :: rest).length * (|F| * pTol * (L ^ 2 / 2 + L)) ∧
        (NoneTiny none (s :: rest) → (ls.map fun l => l.load.ssM L x).sum
          = ssOf (tendonMac F s.slopeStart (s :: rest)) L x) := by
  have hbd := h.mem_bounds s List.mem_cons_self
  obtain ⟨h1, h2, h3, h4⟩ := h
  have hT := pTol_pos (K := K)
  obtain ⟨la, ha1, ha2, ha3⟩ := curvRow_ok i F L hL s h1.ge h3 hbd.2.2 (hcl s List.mem_cons_self)
  obtain ⟨lc, hc1, hc2, hc3⟩ := segRows_some_ok i F L hL rest s.slopeEnd s.x2 s.e2 e1 (by linarith) h4
    (fun t ht => hcl t (List.mem_cons_of_mem _ ht))
  have hrows : segRows (i + 1) F L none (s :: rest)
      = curvRow (i + 1) F L s ++ segRows (i + 1) F L (some s.slopeEnd) rest := by
    simp [segRows, kinkRow]
  refine ⟨la ++ lc, by rw [hrows]; exact parseLM_app ha1 hc1, ?_, ?_⟩
  · intro l hl
    rcases List.mem_append.mp hl with hl | hl
    · exact ha2 l hl
    · exact hc2 l hl
  · intro x hx hx'
    obtain ⟨a1, a2⟩ := ha3 x hx hx'
    obtain ⟨c1, c2⟩ := hc3 x hx hx'
    have hsplit : ssOf (tendonMac F s.slopeStart (s :: rest)) L x = ssOf (s.wMac F) L x
        + ssOf (tendonMac F s.slopeEnd rest) L x := by
      simp only [ssOf, tendonMac]; ring
    rw [sum_map_append, hsplit]
    constructor
    · have hz : 0 ≤ |F| * pTol * L := by positivity
      rw [abs_le] at a1 c1 ⊢
      have hlen : ((s :: rest).length : K) = rest.length + 1 := by simp
      rw [hlen]
      constructor <;> nlinarith [a1.1, a1.2, c1.1, c1.2]
    · rintro ⟨n1, _, n3⟩
      rw [a2 n1, c2 n3]

/-- The anchorage couples. -/
theorem coupleRow_ok (i : ℤ) (F L : K) (hL : 0 < L) (e : K) (right : Bool) (sl : K) :
    ∃ ls, parseLM (coupleRow (i + 1) (if right then -1 else 1) (if right then L else 0)
        (some (e, F, sl))) = .ok ls ∧ (∀ l ∈ ls, l.iSpan = i) ∧
      ∀ x, 0 ≤ x → x ≤ L →
        |(ls.map fun l => l.load.ssM L x).sum
          + F * e * (if right then x / L else 1 - x / L)| ≤ |F| * pTol ∧
        (NotTiny e → (ls.map fun l => l.load.ssM L x).sum
          = -(F * e * (if right then x / L else 1 - x / L))) := by
  have hT := pTol_pos (K := K)
  have hpos : 0 ≤ |F| * pTol := by positivity
  by_cases hb : pTol < |e|
  · refine ⟨[⟨i + 1 - 1, .ml ((if right then -1 else 1) * F * e) (if right then L else 0)⟩],
      ?_, ?_, ?_⟩
    · simp only [coupleRow, if_pos hb]; rfl
    · intro l hl; rw [List.mem_singleton] at hl; subst hl; simp
    · intro x hx hx'
      have key : ([(⟨i + 1 - 1, .ml ((if right then -1 else 1) * F * e)
          (if right then L else 0)⟩ : SpanLoad K)].map fun l => l.load.ssM L x).sum
            = -(F * e * (if right then x / L else 1 - x / L)) := by
        cases right
        · simp only [List.map_cons, List.map_nil, List.sum_cons, List.sum_nil, Load.ssM, Load.stn,
            mlStn, Bool.false_eq_true, if_false, if_true, sub_zero]
          have : hv x 1 = 1 := by
            rw [hv, if_neg (not_lt.mpr hx)]
            split_ifs <;> rfl
          rw [this]
          field_simp
          ring
        · simp only [List.map_cons, List.map_nil, List.sum_cons, List.sum_nil, Load.ssM, Load.stn,
            mlStn, if_true, if_neg hL.ne']
          have : hv (x - L) 0 = 0 := by
            rw [hv]
            rcases hx'.lt_or_eq with h | h
            · rw [if_pos (by linarith)]
            · rw [h, sub_self, if_neg (lt_irrefl _), if_pos rfl]
          rw [this]
          field_simp
          ring
      exact ⟨by rw [key, neg_add_cancel, abs_zero]; exact hpos, fun _ => key⟩
  · refine ⟨[], ?_, by simp, ?_⟩
    · simp only [coupleRow, if_neg hb]; rfl
    · intro x hx hx'
      have hr0 : 0 ≤ x / L := div_nonneg hx hL.le
      have hr1 : x / L ≤ 1 := (div_le_one hL).mpr hx'
      constructor
      · rw [List.map_nil, List.sum_nil, zero_add, abs_mul, abs_mul]
        push Not at hb
        have h1 : |F| * |e| ≤ |F| * pTol := mul_le_mul_of_nonneg_left hb (abs_nonneg F)
        have h2 : |if right then x / L else 1 - x / L| ≤ 1 := by
          rw [abs_le]; split_ifs <;> constructor <;> linarith
        calc |F| * |e| * |if right then x / L else 1 - x / L| ≤ |F| * |e| * 1 :=
              mul_le_mul_of_nonneg_left h2 (by positivity)
          _ ≤ |F| * pTol := by rw [mul_one]; exact h1
      · rintro (h | h)
        · simp [h]
        · exact absurd h hb

theorem SegChain.getLast_e2 {segs : List (TSeg K)} : ∀ {x0 e0 x1 e1 : K} (hne : segs ≠ []),
    SegChain segs x0 e0 x1 e1 → (segs.getLast hne).e2 = e1 ∧ (segs.getLast hne).x2 = x1 := by
  induction segs with
  | nil => intro _ _ _ _ h; exact absurd rfl h
  | cons s rest ih =>
    intro x0 e0 x1 e1 hne h
    obtain ⟨_, _, _, h4⟩ := h
    by_cases hr : rest = []
    · subst hr
      exact ⟨h4.2, h4.1⟩
    · rw [List.getLast_cons hr]
      exact ih hr h4

/-- What the code does on a single span with supports at both ends. -/
theorem equivalentLoads_single (L F : K) (R : ℕ → K) (hR : cantOf R 0 = none) (p : Profile K)
    (s : TSeg K) (rest : List (TSeg K)) (hp : p.segments L none = .ok (s :: rest)) :
    equivalentLoads [L] R [F] [some p] = .ok (segRows 1 F L none (s :: rest)
      ++ coupleRow 1 1 0 (some (s.e1, F, s.slopeStart))
      ++ coupleRow 1 (-1) L (some (((s :: rest).getLast (List.cons_ne_nil _ _)).e2, F,
          ((s :: rest).getLast (List.cons_ne_nil _ _)).slopeEnd))) := by
  have h1 : ¬ (R 0 = 0 ∧ R 1 = 0) := by
    intro h
    simp [cantOf, h.1, h.2] at hR
  have h2 : ¬ (R 2 = 0 ∧ R 3 = 0) := by
    intro h
    simp only [cantOf, Nat.mul_zero, Nat.zero_add, Nat.mul_one, if_neg h1] at hR
    simp [h.1, h.2] at hR
  have hstep : ptStep R 0 L F (some p) ⟨[], none, none⟩ = .ok ⟨[] ++ segRows 1 F L none (s :: rest),
      some (s.e1, F, s.slopeStart), some (((s :: rest).getLast (List.cons_ne_nil _ _)).e2, F,
          ((s :: rest).getLast (List.cons_ne_nil _ _)).slopeEnd)⟩ := by
    simp only [ptStep, hR, hp]
    rfl
  simp only [equivalentLoads, List.length_cons, List.length_nil, List.zip_cons_cons,
    List.zip_nil_right, ptLoop, hstep, tipRow, decide_eq_true_eq]
  simp [h1, h2]

/-! ## C63 -/

/-- **C63**: on a simply supported span (neither end free) the equivalent loads of an
ordered profile whose bends are not within `1e-9` of a support reproduce the primary moment
`-F e(x)` at every section: exactly when no curvature, kink or end eccentricity is so small
that the code drops it, and in every case up to the moment of what is dropped. -/
theorem C63_primary_moment_partial (L F : K) (hL : 0 < L) (R : ℕ → K) (hR : cantOf R 0 = none)
    (p : Profile K) (hp : p.Ordered L) (segs : List (TSeg K)) (hs : p.segments L none = .ok segs)
    (hcl : ClearEnds L segs) :
    ∃ LM ls, equivalentLoads [L] R [F] [some p] = .ok LM ∧ parseLM LM = .ok ls ∧
      (∀ l ∈ ls, l.iSpan = 0) ∧
      ∀ x e, OnTendon segs x e →
        |(ls.map fun l => l.load.ssM L x).sum - -(F * e)|
          ≤ |F| * pTol * (segs.length * (L ^ 2 / 2 + L) + 2) ∧
        (NoneTiny none segs → NotTiny p.endEcc.1 → NotTiny p.endEcc.2 →
          (ls.map fun l => l.load.ssM L x).sum = -(F * e)) := by
  obtain ⟨segs', h1, h2, h3, _⟩ := p.segments_chain L hp
  obtain rfl : segs' = segs := Except.ok.inj (h1.symm.trans hs)
  cases segs' with
  | nil => exact absurd rfl h2
  | cons s rest =>
    have hlast := (h3.getLast_e2 (List.cons_ne_nil _ _)).1
    obtain ⟨la, a1, a2, a3⟩ := segRows_ok 0 F L hL s rest _ _ h3 hcl
    obtain ⟨lb, b1, b2, b3⟩ := coupleRow_ok 0 F L hL p.endEcc.1 false s.slopeStart
    obtain ⟨lc, c1, c2, c3⟩ := coupleRow_ok 0 F L hL p.endEcc.2 true
      ((s :: rest).getLast (List.cons_ne_nil _ _)).slopeEnd
    refine ⟨_, la ++ lb ++ lc, equivalentLoads_single L F R hR p s rest hs, ?_, ?_, ?_⟩
    · rw [hlast, h3.2.1]
      exact parseLM_app (parseLM_app a1 b1) c1
    · intro l hl
      rcases List.mem_append.mp hl with hl | hl
      · rcases List.mem_append.mp hl with hl | hl
        · exact a2 l hl
        · exact b2 l hl
      · exact c2 l hl
    · rintro x e ⟨t, ht, hx1, hx2, hte⟩
      obtain ⟨m1, _, m2⟩ := h3.mem_bounds t ht
      have hx : 0 ≤ x := m1.trans hx1
      have hx' : x ≤ L := hx2.trans m2
      obtain ⟨a4, a5⟩ := a3 x hx hx'
      obtain ⟨b4, b5⟩ := b3 x hx hx'
      obtain ⟨c4, c5⟩ := c3 x hx hx'
      -- the exact moments
      have hid : ssOf (tendonMac F s.slopeStart (s :: rest)) L x
          = x / L * (F * (p.endEcc.2 - p.endEcc.1)) - F * (e - p.endEcc.1) := by
        have hl1 := tendonMac_on F (s :: rest) s.slopeStart _ _ _ _ x h3 t ht hx1 hx2
        have hml : (s :: rest).getLast (List.cons_ne_nil _ _) ∈ s :: rest := List.getLast_mem _
        have hxl := (h3.getLast_e2 (List.cons_ne_nil _ _)).2
        have hbl := h3.mem_bounds _ hml
        have hl2 := tendonMac_on F (s :: rest) s.slopeStart _ _ _ _ L h3 _ hml
          (by rw [← hxl]; exact hbl.2.1.le) hxl.ge
        have hel := TSeg.ecc_x2 _ hbl.2.1
        rw [hxl, hlast] at hel
        rw [ssOf, hl1, hl2, hel, hte]
        field_simp
        ring
      simp only [Bool.false_eq_true, if_false, if_true] at b4 b5 c4 c5
      rw [sum_map_append, sum_map_append]
      constructor
      · rw [hid] at a4
        rw [abs_le] at a4 b4 c4 ⊢
        constructor <;> nlinarith [a4.1, a4.2, b4.1, b4.2, c4.1, c4.2]
      · intro n1 n2 n3
        rw [a5 n1, b5 n2, c5 n3, hid]
        ring

end PyCBA
