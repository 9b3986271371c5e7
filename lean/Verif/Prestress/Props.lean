import Verif.Prestress.Model
import Verif.Stiffness.Model
import Verif.Load.ReleaseProps
import Mathlib.Tactic.Linarith
import Mathlib.Tactic.FieldSimp
import Mathlib.Tactic.Ring
import Mathlib.Tactic.LinearCombination
import Mathlib.Analysis.Calculus.Deriv.Pow

/-!
C62 (tendon profiles) and the moment part of C63 (equivalent loads).
-/

namespace PyCBA

set_option linter.unusedSectionVars false
set_option linter.unusedSimpArgs false

variable {K : Type*} [Field K] [LinearOrder K] [IsStrictOrderedRing K]

/-! ## Specification -/

/-- The point `(x, e)` lies on the tendon: on one of its pieces, over the interval of
that piece. -/
def OnTendon (segs : List (TSeg K)) (x e : K) : Prop :=
  ∃ s ∈ segs, s.x1 ≤ x ∧ x ≤ s.x2 ∧ s.ecc x = e

/-- The points the documentation says the profile passes through on a span of length `L`
with supports at both ends. -/
def Profile.controls (L : K) : Profile K → List (K × K)
  | .parabola el em er cl cr => [(cl, el), ((cl + (L - cr)) / 2, em), (L - cr, er)]
  | .compound el em er _ _ c => [(0, el), (c, em), (L, er)]
  | .harp el em er a cl cr => [(cl, el), (a, em), (L - cr, er)]
  | .doubleHarp el e1 e2 er a b cl cr => [(cl, el), (a, e1), (b, e2), (L - cr, er)]

/-- A distance the code does not treat as zero unless it is zero. -/
def NotTiny (v : K) : Prop := v = 0 ∨ pTol < |v|

/-- The ordering of the parameters that the profile needs.  The high points are at the
supports or more than `1e-9` inside them. -/
def Profile.Ordered (L : K) : Profile K → Prop
  | .parabola _ _ _ cl cr =>
      0 ≤ cl ∧ 0 ≤ cr ∧ NotTiny cl ∧ NotTiny cr ∧ pTol < L - cr - cl
  | .compound _ _ _ a b c => 0 < a ∧ a < c ∧ c < L - b ∧ 0 < b
  | .harp _ _ _ a cl cr => 0 ≤ cl ∧ 0 ≤ cr ∧ NotTiny cl ∧ NotTiny cr ∧ cl < a ∧ a < L - cr
  | .doubleHarp _ _ _ _ a b cl cr =>
      0 ≤ cl ∧ 0 ≤ cr ∧ NotTiny cl ∧ NotTiny cr ∧ cl < a ∧ a < b ∧ b < L - cr

/-! ## Chains of pieces -/

theorem pTol_pos : (0 : K) < pTol := by unfold pTol; positivity

/-- The pieces follow one another from `(x, e)` to `(x', e')`. -/
def SegChain : List (TSeg K) → K → K → K → K → Prop
  | [], x, e, x', e' => x = x' ∧ e = e'
  | s :: rest, x, e, x', e' => s.x1 = x ∧ s.e1 = e ∧ s.x1 < s.x2 ∧ SegChain rest s.x2 s.e2 x' e'

theorem TSeg.ecc_x1 (s : TSeg K) : s.ecc s.x1 = s.e1 := by simp [TSeg.ecc]

theorem TSeg.ecc_x2 (s : TSeg K) (h : s.x1 < s.x2) : s.ecc s.x2 = s.e2 := by
  have hl : s.x2 - s.x1 ≠ 0 := (sub_pos.mpr h).ne'
  simp only [TSeg.ecc, TSeg.slopeStart, TSeg.length]
  field_simp
  ring

theorem SegChain.le {segs : List (TSeg K)} : ∀ {x e x' e' : K}, SegChain segs x e x' e' → x ≤ x' := by
  induction segs with
  | nil => intro x e x' e' h; exact h.1.le
  | cons s rest ih =>
    intro x e x' e' h
    obtain ⟨h1, _, h2, h3⟩ := h
    have := ih h3
    linarith

theorem SegChain.mem_bounds {segs : List (TSeg K)} : ∀ {x e x' e' : K}, SegChain segs x e x' e' →
    ∀ s ∈ segs, x ≤ s.x1 ∧ s.x1 < s.x2 ∧ s.x2 ≤ x' := by
  induction segs with
  | nil => intro x e x' e' h s hs; simp at hs
  | cons t rest ih =>
    intro x e x' e' h s hs
    obtain ⟨h1, _, h2, h3⟩ := h
    rcases List.mem_cons.mp hs with rfl | hs
    · exact ⟨h1.ge, h2, h3.le⟩
    · obtain ⟨ha, hb, hc⟩ := ih h3 s hs
      exact ⟨by linarith, hb, hc⟩

theorem SegChain.append {s1 s2 : List (TSeg K)} : ∀ {x e x' e' x'' e'' : K},
    SegChain s1 x e x' e' → SegChain s2 x' e' x'' e'' → SegChain (s1 ++ s2) x e x'' e'' := by
  induction s1 with
  | nil => intro x e x' e' x'' e'' h1 h2; obtain ⟨rfl, rfl⟩ := h1; exact h2
  | cons s rest ih =>
    intro x e x' e' x'' e'' h1 h2
    exact ⟨h1.1, h1.2.1, h1.2.2.1, ih h1.2.2.2 h2⟩

/-- A chain is the graph of a function on the interval it covers. -/
theorem SegChain.exists_unique {segs : List (TSeg K)} : ∀ {x0 e0 x1 e1 : K}, segs ≠ [] →
    SegChain segs x0 e0 x1 e1 → ∀ x, x0 ≤ x → x ≤ x1 → ∃! e, OnTendon segs x e := by
  -- uniqueness needs: at the left end of a chain the only value is `e0`
  have hleft : ∀ (segs : List (TSeg K)) (x0 e0 x1 e1 : K), SegChain segs x0 e0 x1 e1 →
      ∀ e, OnTendon segs x0 e → e = e0 := by
    intro segs x0 e0 x1 e1 h e he
    cases segs with
    | nil => obtain ⟨s, hs, _⟩ := he; simp at hs
    | cons t rest =>
      obtain ⟨h1, h2, h3, h4⟩ := h
      obtain ⟨s, hs, ha, hb, hc⟩ := he
      rcases List.mem_cons.mp hs with rfl | hs
      · rw [← hc, ← h1, TSeg.ecc_x1, h2]
      · have := (h4.mem_bounds s hs).1
        linarith
  induction segs with
  | nil => intro x0 e0 x1 e1 hne; exact absurd rfl hne
  | cons t rest ih =>
    intro x0 e0 x1 e1 _ h x hx hx'
    obtain ⟨h1, h2, h3, h4⟩ := h
    have hcover : ∃ e, OnTendon (t :: rest) x e := by
      by_cases hle : x ≤ t.x2
      · exact ⟨t.ecc x, t, List.mem_cons_self, by rw [h1]; exact hx, hle, rfl⟩
      · push Not at hle
        have hr : rest ≠ [] := by
          rintro rfl
          have := h4.1
          linarith
        obtain ⟨e, ⟨s, hs, ha⟩, _⟩ := ih hr h4 x hle.le hx'
        exact ⟨e, s, List.mem_cons_of_mem _ hs, ha⟩
    obtain ⟨e, he⟩ := hcover
    refine ⟨e, he, ?_⟩
    intro e' he'
    have key : ∀ v, OnTendon (t :: rest) x v → (x ≤ t.x2 → v = t.ecc x) ∧
        (t.x2 < x → OnTendon rest x v) := by
      rintro v ⟨s, hs, ha, hb, hc⟩
      rcases List.mem_cons.mp hs with rfl | hs
      · exact ⟨fun _ => hc.symm, fun hlt => absurd hb (by linarith)⟩
      · refine ⟨fun hle => ?_, fun _ => ⟨s, hs, ha, hb, hc⟩⟩
        have hge := (h4.mem_bounds s hs).1
        have hxe : x = t.x2 := by linarith
        rw [hxe, t.ecc_x2 h3]
        exact hleft rest t.x2 t.e2 x1 e1 h4 v ⟨s, hs, by linarith, by linarith, by rw [← hxe]; exact hc⟩
    by_cases hle : x ≤ t.x2
    · rw [(key e he).1 hle, (key e' he').1 hle]
    · push Not at hle
      have hr : rest ≠ [] := by
        rintro rfl
        have := h4.1
        linarith
      exact (ih hr h4 x hle.le hx').unique ((key e' he').2 hle) ((key e he).2 hle)

theorem flatLeft_chain (cl el : K) (h0 : 0 ≤ cl) (ht : NotTiny cl) :
    SegChain (flatLeft cl el) 0 el cl el := by
  unfold flatLeft
  rcases ht with h | h
  · subst h
    rw [if_neg (not_lt.mpr pTol_pos.le)]
    exact ⟨rfl, rfl⟩
  · rw [abs_of_nonneg h0] at h
    rw [if_pos h]
    exact ⟨rfl, rfl, pTol_pos.trans h, rfl, rfl⟩

theorem flatRight_chain (cr er L : K) (h0 : 0 ≤ cr) (ht : NotTiny cr) :
    SegChain (flatRight cr er L) (L - cr) er L er := by
  unfold flatRight
  rcases ht with h | h
  · subst h
    rw [if_neg (not_lt.mpr pTol_pos.le)]
    exact ⟨sub_zero L, rfl⟩
  · rw [abs_of_nonneg h0] at h
    rw [if_pos h]
    exact ⟨rfl, rfl, by linarith [pTol_pos (K := K)], rfl, rfl⟩

/-- The eccentricities of a profile at the two ends of the span. -/
def Profile.endEcc : Profile K → K × K
  | .parabola el _ er _ _ => (el, er)
  | .compound el _ er _ _ _ => (el, er)
  | .harp el _ er _ _ _ => (el, er)
  | .doubleHarp el _ _ er _ _ _ _ => (el, er)

theorem Profile.segments_chain (p : Profile K) (L : K) (hp : p.Ordered L) :
    ∃ segs, p.segments L none = .ok segs ∧ segs ≠ [] ∧
      SegChain segs 0 p.endEcc.1 L p.endEcc.2 ∧ ∀ q ∈ p.controls L, OnTendon segs q.1 q.2 := by
  have hT := pTol_pos (K := K)
  cases p with
  | parabola el em er cl cr =>
    obtain ⟨h1, h2, h3, h4, h5⟩ := hp
    refine ⟨_, by simp only [Profile.segments]; rw [if_neg (not_le.mpr h5)], by simp, ?_, ?_⟩
    · have hmid : SegChain [⟨cl, L - cr, el, er,
          parabolaThrough cl el (L - cr) er (1 / 2 * (cl + (L - cr))) em⟩] cl el (L - cr) er :=
        ⟨rfl, rfl, by simp only; linarith, rfl, rfl⟩
      exact ((flatLeft_chain cl el h1 h3).append hmid).append (flatRight_chain cr er L h2 h4)
    · have hmem : ∀ {s : TSeg K} (_ : s = ⟨cl, L - cr, el, er,
          parabolaThrough cl el (L - cr) er (1 / 2 * (cl + (L - cr))) em⟩),
          s ∈ flatLeft cl el ++ [⟨cl, L - cr, el, er,
            parabolaThrough cl el (L - cr) er (1 / 2 * (cl + (L - cr))) em⟩]
              ++ flatRight cr er L := by
        rintro s rfl; simp
      intro q hq
      simp only [Profile.controls, List.mem_cons, List.not_mem_nil, or_false] at hq
      rcases hq with rfl | rfl | rfl
      · exact ⟨_, hmem rfl, le_refl _, by simp only; linarith, TSeg.ecc_x1 _⟩
      · refine ⟨_, hmem rfl, by simp only; linarith, by simp only; linarith, ?_⟩
        have hd : L - cr - cl ≠ 0 := (hT.trans h5).ne'
        have e1 : 1 / 2 * (cl + (L - cr)) - cl = (L - cr - cl) / 2 := by ring
        have e2 : L - cr - 1 / 2 * (cl + (L - cr)) = (L - cr - cl) / 2 := by ring
        have e3 : (cl + (L - cr)) / 2 - cl = (L - cr - cl) / 2 := by ring
        simp only [TSeg.ecc, TSeg.slopeStart, TSeg.length, parabolaThrough, e1, e2, e3]
        generalize L - cr - cl = ℓ at hd
        field_simp
        ring
      · exact ⟨_, hmem rfl, by simp only; linarith, le_refl _, TSeg.ecc_x2 _ (by simp only; linarith)⟩
  | compound el em er a b c =>
    obtain ⟨h1, h2, h3, h4⟩ := hp
    refine ⟨_, by
      simp only [Profile.segments]
      rw [if_neg (by simp), if_neg (not_not.mpr ⟨h1, h2, h3, by linarith⟩)], by simp [compoundSegs],
      ?_, ?_⟩
    · exact ⟨rfl, rfl, h1, rfl, rfl, h2, rfl, rfl, h3, rfl, rfl, by simp only; linarith, rfl, rfl⟩
    · intro q hq
      simp only [Profile.controls, List.mem_cons, List.not_mem_nil, or_false] at hq
      rcases hq with rfl | rfl | rfl
      · exact ⟨_, List.mem_cons_self, le_refl _, h1.le, TSeg.ecc_x1 _⟩
      · exact ⟨_, List.mem_cons_of_mem _ (List.mem_cons_self), h2.le, le_refl _, TSeg.ecc_x2 _ h2⟩
      · exact ⟨_, List.mem_cons_of_mem _ (List.mem_cons_of_mem _ (List.mem_cons_of_mem _
          List.mem_cons_self)), by simp only; linarith, le_refl _, TSeg.ecc_x2 _ (by simp only; linarith)⟩
  | harp el em er a cl cr =>
    obtain ⟨h1, h2, h3, h4, h5, h6⟩ := hp
    refine ⟨_, by simp only [Profile.segments]; rw [if_neg (not_not.mpr ⟨h5, h6⟩)], by simp, ?_, ?_⟩
    · have hmid : SegChain [⟨cl, a, el, em, 0⟩, ⟨a, L - cr, em, er, 0⟩] cl el (L - cr) er :=
        ⟨rfl, rfl, h5, rfl, rfl, h6, rfl, rfl⟩
      exact ((flatLeft_chain cl el h1 h3).append hmid).append (flatRight_chain cr er L h2 h4)
    · intro q hq
      simp only [Profile.controls, List.mem_cons, List.not_mem_nil, or_false] at hq
      rcases hq with rfl | rfl | rfl
      · exact ⟨⟨cl, a, el, em, 0⟩, by simp, le_refl _, h5.le, TSeg.ecc_x1 _⟩
      · exact ⟨⟨cl, a, el, em, 0⟩, by simp, h5.le, le_refl _, TSeg.ecc_x2 _ h5⟩
      · exact ⟨⟨a, L - cr, em, er, 0⟩, by simp, h6.le, le_refl _, TSeg.ecc_x2 _ h6⟩
  | doubleHarp el e1 e2 er a b cl cr =>
    obtain ⟨h1, h2, h3, h4, h5, h6, h7⟩ := hp
    refine ⟨_, by simp only [Profile.segments]; rw [if_neg (not_not.mpr ⟨h5, h6, h7⟩)],
      by simp, ?_, ?_⟩
    · have hmid : SegChain [⟨cl, a, el, e1, 0⟩, ⟨a, b, e1, e2, 0⟩, ⟨b, L - cr, e2, er, 0⟩]
          cl el (L - cr) er := ⟨rfl, rfl, h5, rfl, rfl, h6, rfl, rfl, h7, rfl, rfl⟩
      exact ((flatLeft_chain cl el h1 h3).append hmid).append (flatRight_chain cr er L h2 h4)
    · intro q hq
      simp only [Profile.controls, List.mem_cons, List.not_mem_nil, or_false] at hq
      rcases hq with rfl | rfl | rfl | rfl
      · exact ⟨⟨cl, a, el, e1, 0⟩, by simp, le_refl _, h5.le, TSeg.ecc_x1 _⟩
      · exact ⟨⟨cl, a, el, e1, 0⟩, by simp, h5.le, le_refl _, TSeg.ecc_x2 _ h5⟩
      · exact ⟨⟨a, b, e1, e2, 0⟩, by simp, h6.le, le_refl _, TSeg.ecc_x2 _ h6⟩
      · exact ⟨⟨b, L - cr, e2, er, 0⟩, by simp, h7.le, le_refl _, TSeg.ecc_x2 _ h7⟩

/-! ## C62 -/

/-- **C62** (a span with supports at both ends): for every ordered set of parameters the
profile is accepted, its pieces are together the graph of one function on the whole span
(so they meet without a jump), and that graph passes through all the stated
eccentricities.

Missing from the full claim, because the code does not have it: matching slopes at the
right contraflexure point of a compound parabola (`C62_contraflexure_violation`); the
stated mid-point on a cantilever (`C62_cantilever_violation`). -/
theorem C62_graph_partial (p : Profile K) (L : K) (hp : p.Ordered L) :
    ∃ segs, p.segments L none = .ok segs ∧
      (∀ x, 0 ≤ x → x ≤ L → ∃! e, OnTendon segs x e) ∧
      (∀ x e, OnTendon segs x e → 0 ≤ x ∧ x ≤ L) ∧
      ∀ q ∈ p.controls L, OnTendon segs q.1 q.2 := by
  obtain ⟨segs, h1, h2, h3, h4⟩ := p.segments_chain L hp
  refine ⟨segs, h1, fun x hx hx' => h3.exists_unique h2 x hx hx', ?_, h4⟩
  rintro x e ⟨s, hs, ha, hb, _⟩
  obtain ⟨hc, _, hd⟩ := h3.mem_bounds s hs
  exact ⟨hc.trans ha, hb.trans hd⟩

/-- Both a parabola with its high points inside the supports and an asymmetric compound
parabola are ordered. -/
example : Profile.Ordered (10 : ℚ) (.parabola 1 5 2 (1 / 2) 0) ∧
    Profile.Ordered (10 : ℚ) (.compound 1 5 2 1 2 4) := by
  refine ⟨⟨by norm_num, by norm_num, Or.inr ?_, Or.inl rfl, ?_⟩, ⟨by norm_num, by norm_num,
    by norm_num, by norm_num⟩⟩
  · rw [abs_of_pos (by norm_num)]; norm_num [pTol]
  · norm_num [pTol]

/-- The eccentricity reported by `_eval_e` is the tendon's, except just to the right of a
joint between two pieces, where within `1e-9` the earlier piece is continued. -/
theorem C62_eval (p : Profile K) (L : K) (hp : p.Ordered L) (segs : List (TSeg K))
    (hs : p.segments L none = .ok segs) (x : K)
    (hclear : ∀ s ∈ segs, ¬ (s.x2 < x ∧ x ≤ s.x2 + pTol))
    (hclear' : ∀ s ∈ segs, ¬ (s.x1 - pTol ≤ x ∧ x < s.x1)) (e : K) (he : OnTendon segs x e) :
    evalE segs x = e := by
  obtain ⟨segs', h1, h2, h3, _⟩ := p.segments_chain L hp
  obtain rfl : segs' = segs := Except.ok.inj (h1.symm.trans hs)
  have hu := h3.exists_unique h2 x
  have hx : 0 ≤ x ∧ x ≤ L := by
    obtain ⟨s, hs, ha, hb, _⟩ := he
    obtain ⟨hc, _, hd⟩ := h3.mem_bounds s hs
    exact ⟨hc.trans ha, hb.trans hd⟩
  have huniq := fun a b => (hu hx.1 hx.2).unique (y₁ := a) (y₂ := b)
  clear hu h1 hs h3 h2
  have gen : ∀ (l : List (TSeg K)), (∀ s ∈ l, s ∈ segs') → OnTendon l x e → evalE l x = e := by
    intro l
    induction l with
    | nil => rintro _ ⟨s, hs, _⟩; simp at hs
    | cons t rest ih =>
      intro hsub hon
      have ht := hsub t List.mem_cons_self
      by_cases hin : t.x1 - pTol ≤ x ∧ x ≤ t.x2 + pTol
      · rw [evalE, if_pos hin]
        have h1 : x ≤ t.x2 := by
          by_contra hc
          exact hclear t ht ⟨not_le.mp hc, hin.2⟩
        have h2 : t.x1 ≤ x := by
          by_contra hc
          exact hclear' t ht ⟨hin.1, not_le.mp hc⟩
        exact huniq _ _ ⟨t, ht, h2, h1, rfl⟩ he
      · rw [evalE, if_neg hin]
        refine ih (fun s hs => hsub s (List.mem_cons_of_mem _ hs)) ?_
        obtain ⟨s, hs, ha, hb, hc⟩ := hon
        rcases List.mem_cons.mp hs with rfl | hs
        · have := pTol_pos (K := K)
          exact absurd ⟨by linarith, by linarith⟩ hin
        · exact ⟨s, hs, ha, hb, hc⟩
  exact gen segs' (fun s hs => hs) he

/-- **C62** on cantilevers: a parabola still passes through its two end eccentricities, its
pieces meet, and its slope at the supported end is zero (the derivative of the piece
leaving the high point vanishes there). -/
theorem C62_cantilever_partial (el em er cl cr L : ℝ) (tip : Tip)
    (hc : 0 ≤ cl ∧ 0 ≤ cr ∧ NotTiny cl ∧ NotTiny cr ∧ cl < L ∧ cr < L) :
    ∃ segs, (Profile.parabola el em er cl cr).segments L (some tip) = .ok segs ∧
      (∀ x, 0 ≤ x → x ≤ L → ∃! e, OnTendon segs x e) ∧
      OnTendon segs 0 el ∧ OnTendon segs L er ∧
      (tip = .right → OnTendon segs cl el ∧ ∃ s ∈ segs, s.x1 = cl ∧ s.x2 = L ∧ deriv s.ecc cl = 0) ∧
      (tip = .left → OnTendon segs (L - cr) er ∧
        ∃ s ∈ segs, s.x1 = 0 ∧ s.x2 = L - cr ∧ deriv s.ecc (L - cr) = 0) := by
  obtain ⟨h1, h2, h3, h4, h5, h6⟩ := hc
  have hder : ∀ (s : TSeg ℝ) (x : ℝ), deriv s.ecc x = s.slopeStart + s.epp * (x - s.x1) := by
    intro s x
    have : HasDerivAt s.ecc (0 + s.slopeStart * (1 - 0)
        + 1 / 2 * s.epp * ((2 : ℕ) * (x - s.x1) ^ (2 - 1) * (1 - 0))) x :=
      (((hasDerivAt_const x s.e1).add (((hasDerivAt_id x).sub (hasDerivAt_const x s.x1)).const_mul
        s.slopeStart)).add ((((hasDerivAt_id x).sub (hasDerivAt_const x s.x1)).pow 2).const_mul
          (1 / 2 * s.epp)))
    rw [this.deriv]
    push_cast
    ring
  have hlast : ∀ (segs : List (TSeg ℝ)) (x0 e0 x1 e1 : ℝ), segs ≠ [] → SegChain segs x0 e0 x1 e1 →
      OnTendon segs x0 e0 ∧ OnTendon segs x1 e1 := by
    intro segs
    induction segs with
    | nil => intro _ _ _ _ h; exact absurd rfl h
    | cons s rest ih =>
      intro x0 e0 x1 e1 _ hch
      obtain ⟨ha, hb, hc, hd⟩ := hch
      refine ⟨⟨s, List.mem_cons_self, ha.le, by linarith, by rw [← ha, s.ecc_x1, hb]⟩, ?_⟩
      by_cases hr : rest = []
      · subst hr
        obtain ⟨he, hf⟩ := hd
        exact ⟨s, List.mem_cons_self, by linarith, he.ge, by rw [← he, s.ecc_x2 hc, hf]⟩
      · obtain ⟨t, ht, hx⟩ := (ih _ _ _ _ hr hd).2
        exact ⟨t, List.mem_cons_of_mem _ ht, hx⟩
  cases tip with
  | right =>
    have hne : L - cl ≠ 0 := (sub_pos.mpr h5).ne'
    set s : TSeg ℝ := ⟨cl, L, el, er, 2 * (er - el) / (L - cl) ^ 2⟩ with hs
    have hch : SegChain (flatLeft cl el ++ [s]) 0 el L er :=
      (flatLeft_chain cl el h1 h3).append (⟨rfl, rfl, h5, rfl, rfl⟩ : SegChain [s] cl el L er)
    have hnil : flatLeft cl el ++ [s] ≠ [] := by simp
    have hsm : s ∈ flatLeft cl el ++ [s] := by simp
    refine ⟨flatLeft cl el ++ [s], by simp only [Profile.segments]; rw [if_neg hne],
      fun x hx hx' => hch.exists_unique hnil x hx hx', (hlast _ _ _ _ _ hnil hch).1,
      (hlast _ _ _ _ _ hnil hch).2, fun _ => ⟨⟨s, hsm, le_refl _, h5.le, s.ecc_x1⟩,
        s, hsm, rfl, rfl, ?_⟩, fun h => by simp at h⟩
    rw [hder]
    simp only [hs, TSeg.slopeStart, TSeg.length]
    field_simp
    ring
  | left =>
    have hne : L - cr ≠ 0 := (sub_pos.mpr h6).ne'
    set s : TSeg ℝ := ⟨0, L - cr, el, er, 2 * (el - er) / (L - cr - 0) ^ 2⟩ with hs
    have hch : SegChain ([s] ++ flatRight cr er L) 0 el L er :=
      SegChain.append (⟨rfl, rfl, by simp only [hs]; linarith, rfl, rfl⟩ :
        SegChain [s] 0 el (L - cr) er) (flatRight_chain cr er L h2 h4)
    have hnil : [s] ++ flatRight cr er L ≠ [] := by simp
    have hsm : s ∈ [s] ++ flatRight cr er L := by simp
    refine ⟨[s] ++ flatRight cr er L, by
        simp only [Profile.segments]; rw [if_neg (by rw [sub_zero]; exact hne)],
      fun x hx hx' => hch.exists_unique hnil x hx hx', (hlast _ _ _ _ _ hnil hch).1,
      (hlast _ _ _ _ _ hnil hch).2, fun h => by simp at h, fun _ => ⟨⟨s, hsm, by
        simp only [hs]; linarith, le_refl _, TSeg.ecc_x2 s (by simp only [hs]; linarith)⟩,
        s, hsm, rfl, rfl, ?_⟩⟩
    rw [hder]
    simp only [hs, TSeg.slopeStart, TSeg.length, sub_zero]
    field_simp
    ring

/-- The hypotheses hold for a cantilever with a straight piece at its support. -/
example : (0 : ℝ) ≤ 1 ∧ (0 : ℝ) ≤ 0 ∧ NotTiny (1 : ℝ) ∧ NotTiny (0 : ℝ) ∧ (1 : ℝ) < 5 ∧
    (0 : ℝ) < 5 := by
  refine ⟨by norm_num, le_refl _, Or.inr ?_, Or.inl rfl, by norm_num, by norm_num⟩
  norm_num [pTol]

/-- On a cantilever the stated mid-point eccentricity has no effect at all, so a parabola
does not pass through it. -/
theorem C62_cantilever_violation :
    (∀ (el em em' er cl cr L : K) (tip : Tip), (Profile.parabola el em er cl cr).segments L (some tip)
      = (Profile.parabola el em' er cl cr).segments L (some tip)) ∧
    ∃ segs, (Profile.parabola (0 : ℚ) 3 4 0 0).segments 10 (some .right) = .ok segs ∧
      OnTendon segs 5 1 ∧ ¬ OnTendon segs 5 3 := by
  constructor
  · intro el em em' er cl cr L tip
    cases tip <;> rfl
  · refine ⟨[⟨0, 10, 0, 4, 2 / 25⟩], by decide +kernel, ⟨_, List.mem_cons_self, by norm_num,
      by norm_num, by decide +kernel⟩, ?_⟩
    rintro ⟨s, hs, _, _, he⟩
    rw [List.mem_singleton] at hs
    subst hs
    exact absurd he (by decide +kernel)

/-- The compound parabola: which slopes match.  `a` and `L - b` are the contraflexure
points and `c` is the low point. -/
theorem C62_compound (el em er a b c L : ℝ) (h : 0 < a ∧ a < c ∧ c < L - b ∧ 0 < b) :
    ∃ s1 s2 s3 s4, (Profile.compound el em er a b c).segments L none = .ok [s1, s2, s3, s4] ∧
      deriv s1.ecc 0 = 0 ∧ deriv s1.ecc a = deriv s2.ecc a ∧
      deriv s2.ecc c = 0 ∧ deriv s3.ecc c = 0 ∧ deriv s4.ecc L = 0 ∧
      (deriv s3.ecc (L - b) = deriv s4.ecc (L - b) ↔ b = c ∨ em = er) := by
  obtain ⟨h1, h2, h3, h4⟩ := h
  have hder : ∀ (s : TSeg ℝ) (x : ℝ), deriv s.ecc x = s.slopeStart + s.epp * (x - s.x1) := by
    intro s x
    have : HasDerivAt s.ecc (0 + s.slopeStart * (1 - 0)
        + 1 / 2 * s.epp * ((2 : ℕ) * (x - s.x1) ^ (2 - 1) * (1 - 0))) x :=
      (((hasDerivAt_const x s.e1).add (((hasDerivAt_id x).sub (hasDerivAt_const x s.x1)).const_mul
        s.slopeStart)).add ((((hasDerivAt_id x).sub (hasDerivAt_const x s.x1)).pow 2).const_mul
          (1 / 2 * s.epp)))
    rw [this.deriv]
    push_cast
    ring
  refine ⟨_, _, _, _, by
      simp only [Profile.segments]
      rw [if_neg (by simp), if_neg (not_not.mpr ⟨h1, h2, h3, by linarith⟩)]
      rfl, ?_, ?_, ?_, ?_, ?_, ?_⟩
  all_goals simp only [hder, TSeg.slopeStart, TSeg.length]
  all_goals
    have ha : a ≠ 0 := h1.ne'
    have hc : c ≠ 0 := (h1.trans h2).ne'
    have hca : c - a ≠ 0 := (sub_pos.mpr h2).ne'
    have hd : L - b ≠ 0 := ((h1.trans h2).trans h3).ne'
    have hdc : L - b - c ≠ 0 := (sub_pos.mpr h3).ne'
    have hb : b ≠ 0 := h4.ne'
    have hLd : L - (L - b) = b := by ring
  · field_simp; ring
  · field_simp; ring
  · field_simp; ring
  · field_simp; ring
  · rw [hLd]; field_simp; ring
  · rw [hLd]
    have e3 : (er + b / (L - b) * (em - er) - em) / (L - b - c)
        - 1 / 2 * (-2 * (em - er - b / (L - b) * (em - er)) / (L - b - c) ^ 2) * (L - b - c)
        + -2 * (em - er - b / (L - b) * (em - er)) / (L - b - c) ^ 2 * (L - b - c)
        = -2 * ((em - er) * (L - b - b) / ((L - b) * (L - b - c))) := by
      field_simp; ring
    have e4 : (er - (er + b / (L - b) * (em - er))) / b
        - 1 / 2 * (2 * (b / (L - b) * (em - er)) / b ^ 2) * b
        + 2 * (b / (L - b) * (em - er)) / b ^ 2 * (L - b - (L - b))
        = -2 * ((em - er) / (L - b)) := by
      field_simp; ring
    rw [e3, e4]
    constructor
    · intro h
      have h5 : (em - er) * (L - b - b) / ((L - b) * (L - b - c)) = (em - er) / (L - b) := by
        linarith
      rw [div_eq_div_iff (mul_ne_zero hd hdc) hd] at h5
      have h6 : (L - b) * ((em - er) * (c - b)) = 0 := by linear_combination h5
      rcases mul_eq_zero.mp h6 with h7 | h7
      · exact absurd h7 hd
      · rcases mul_eq_zero.mp h7 with h8 | h8
        · right; linarith
        · left; linarith
    · rintro (h | h)
      · subst h
        field_simp
      · subst h
        simp

example : (0 : ℝ) < 1 ∧ (1 : ℝ) < 4 ∧ (4 : ℝ) < 10 - 2 ∧ (0 : ℝ) < 2 := by norm_num

/-- The slopes do not match at the right contraflexure point when the low point is not at
the distance `b` from the left support: the documented smooth joint has a kink, and with
it comes a point load in the middle of the tendon. -/
theorem C62_contraflexure_violation :
    ∃ s1 s2 s3 s4, (Profile.compound (0 : ℝ) 1 0 1 2 4).segments 10 none = .ok [s1, s2, s3, s4] ∧
      s3.x2 = 8 ∧ s4.x1 = 8 ∧ deriv s3.ecc 8 ≠ deriv s4.ecc 8 := by
  obtain ⟨s1, s2, s3, s4, h, _, _, _, _, _, hiff⟩ :=
    C62_compound 0 1 0 1 2 4 10 (by norm_num)
  refine ⟨s1, s2, s3, s4, h, ?_, ?_, ?_⟩
  · simp only [Profile.segments] at h
    rw [if_neg (by simp), if_neg (by norm_num)] at h
    have := Except.ok.inj h
    simp only [compoundSegs, List.cons.injEq] at this
    rw [← this.2.2.1]; norm_num
  · simp only [Profile.segments] at h
    rw [if_neg (by simp), if_neg (by norm_num)] at h
    have := Except.ok.inj h
    simp only [compoundSegs, List.cons.injEq] at this
    rw [← this.2.2.2.1]; norm_num
  · intro he
    have := hiff.mp (by norm_num; exact he)
    norm_num at this

/-- The ordering the documentation of `CompoundParabola` asks for, `b < c < L - a`, is not
the one the code checks: one documented set of parameters is rejected, and one accepted
set is not documented. -/
theorem C62_ordering_violation :
    (Profile.compound (0 : ℚ) 1 0 3 1 2).segments 10 none = .error .valueError ∧
      (1 : ℚ) < 2 ∧ (2 : ℚ) < 10 - 3 ∧
    (∃ segs, (Profile.compound (0 : ℚ) 1 0 1 5 2).segments 10 none = .ok segs) ∧ ¬ (5 : ℚ) < 2 := by
  refine ⟨by decide +kernel, by norm_num, by norm_num, ⟨compoundSegs 0 1 0 1 5 2 10, by decide +kernel⟩, by norm_num⟩

end PyCBA
