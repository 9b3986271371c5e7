import Verif.Prestress.Equil

/-!
C86: equivalent loads of a tendon over several spans.
-/

namespace PyCBA

set_option linter.unusedSectionVars false
set_option linter.unusedSimpArgs false

variable {K : Type*} [Field K] [LinearOrder K] [IsStrictOrderedRing K]

/-- A stressed span: its length, force and profile. -/
structure Stressed (K : Type*) where
  L : K
  F : K
  p : Profile K

/-- The span has an ordered profile with pieces `segs`, whose bends are not within `1e-9` of a
support and of which nothing is so small that it is dropped. -/
def Stressed.Regular (s : Stressed K) (segs : List (TSeg K)) : Prop :=
  0 < s.L ∧ s.p.Ordered s.L ∧ s.p.segments s.L none = .ok segs ∧ ClearEnds s.L segs ∧
    NoneTiny none segs ∧ NotTiny s.p.endEcc.1 ∧ NotTiny s.p.endEcc.2

/-- Simply supported moment at `x` of the loads on span `j` of length `L`. -/
def spanMoment (ls : List (SpanLoad K)) (j : ℤ) (L x : K) : K :=
  ((ls.filter fun l => l.iSpan = j).map fun l => l.load.ssM L x).sum

theorem spanMoment_append (l1 l2 : List (SpanLoad K)) (j : ℤ) (L x : K) :
    spanMoment (l1 ++ l2) j L x = spanMoment l1 j L x + spanMoment l2 j L x := by
  simp [spanMoment, List.filter_append, List.map_append, List.sum_append]

theorem spanMoment_of_all (ls : List (SpanLoad K)) (i j : ℤ) (L x : K)
    (h : ∀ l ∈ ls, l.iSpan = i) :
    spanMoment ls j L x = if i = j then (ls.map fun l => l.load.ssM L x).sum else 0 := by
  unfold spanMoment
  by_cases hij : i = j
  · rw [if_pos hij, List.filter_eq_self.mpr]
    intro l hl
    simp [h l hl, hij]
  · rw [if_neg hij, List.filter_eq_nil_iff.mpr]
    · rfl
    · intro l hl
      simp [h l hl, hij]

/-- Moment of the chord part: the tendon measured from the line joining its ends. -/
def Stressed.chordMoment (s : Stressed K) (x e : K) : K :=
  -(s.F * (e - s.p.endEcc.1 * (1 - x / s.L) - s.p.endEcc.2 * (x / s.L)))

theorem segRows_chord (i : ℤ) (s : Stressed K) (t : TSeg K) (rest : List (TSeg K))
    (h : s.Regular (t :: rest)) :
    ∃ ls, parseLM (segRows (i + 1) s.F s.L none (t :: rest)) = .ok ls ∧ (∀ l ∈ ls, l.iSpan = i) ∧
      ∀ x e, OnTendon (t :: rest) x e →
        (ls.map fun l => l.load.ssM s.L x).sum = s.chordMoment x e := by
  obtain ⟨hL, hp, hs, hcl, hnt, _, _⟩ := h
  obtain ⟨segs', h1, h2, h3, _⟩ := s.p.segments_chain s.L hp
  obtain rfl : segs' = t :: rest := Except.ok.inj (h1.symm.trans hs)
  obtain ⟨ls, a1, a2, a3⟩ := segRows_ok i s.F s.L hL t rest _ _ h3 hcl
  refine ⟨ls, a1, a2, ?_⟩
  rintro x e ⟨u, hu, hx1, hx2, hue⟩
  obtain ⟨m1, _, m2⟩ := h3.mem_bounds u hu
  rw [(a3 x (m1.trans hx1) (hx2.trans m2)).2 hnt]
  have hl1 := tendonMac_on s.F (t :: rest) t.slopeStart _ _ _ _ x h3 u hu hx1 hx2
  have hml : (t :: rest).getLast (List.cons_ne_nil _ _) ∈ t :: rest := List.getLast_mem _
  have hlast := h3.getLast_e2 (List.cons_ne_nil _ _)
  have hbl := h3.mem_bounds _ hml
  have hl2 := tendonMac_on s.F (t :: rest) t.slopeStart _ _ _ _ s.L h3 _ hml
    (by rw [← hlast.2]; exact hbl.2.1.le) hlast.2.ge
  have hel := TSeg.ecc_x2 _ hbl.2.1
  rw [hlast.2, hlast.1] at hel
  rw [ssOf, hl1, hl2, hel, hue, Stressed.chordMoment]
  field_simp
  ring

theorem ptLoop_spans (R : ℕ → K) (ss : List (Stressed K)) :
    ∀ (i : ℕ) (st : PtState K), (∀ j, i ≤ j → j < i + ss.length → cantOf R j = none) →
    (∀ s ∈ ss, ∃ segs, s.Regular segs) →
    ∃ st' rows ls, ptLoop R i (ss.map fun s => (s.L, s.F, some s.p)) st = .ok st' ∧
      st'.LM = st.LM ++ rows ∧ parseLM rows = .ok ls ∧
      (∀ s, ss.head? = some s → st.first = none →
        ∃ sl, st'.first = some (s.p.endEcc.1, s.F, sl)) ∧
      (st.first ≠ none → st'.first = st.first) ∧
      (∀ s, ss.getLast? = some s → ∃ sl, st'.last = some (s.p.endEcc.2, s.F, sl)) ∧
      (∀ l ∈ ls, (i : ℤ) ≤ l.iSpan ∧ l.iSpan < i + ss.length) ∧
      ∀ j s segs x e, ss[j]? = some s → s.Regular segs → OnTendon segs x e →
        spanMoment ls (i + j : ℕ) s.L x = s.chordMoment x e := by
  induction ss with
  | nil =>
    intro i st _ _
    exact ⟨st, [], [], rfl, by simp, rfl, by simp, fun _ => rfl, by simp, by simp, by simp⟩
  | cons s rest ih =>
    intro i st hR hreg
    obtain ⟨segs, hseg⟩ := hreg s List.mem_cons_self
    have hseg' := hseg
    obtain ⟨hL, hp, hs, hcl, hnt, _, _⟩ := hseg'
    obtain ⟨segs', h1, h2, h3, _⟩ := s.p.segments_chain s.L hp
    obtain rfl : segs' = segs := Except.ok.inj (h1.symm.trans hs)
    cases segs' with
    | nil => exact absurd rfl h2
    | cons t trest =>
      set stm : PtState K := ⟨st.LM ++ segRows (i + 1) s.F s.L none (t :: trest),
        some (st.first.getD (t.e1, s.F, t.slopeStart)),
        some (((t :: trest).getLast (List.cons_ne_nil _ _)).e2, s.F,
          ((t :: trest).getLast (List.cons_ne_nil _ _)).slopeEnd)⟩ with hstm
      have hstep : ptStep R i s.L s.F (some s.p) st = .ok stm := by
        simp only [ptStep, hR i le_rfl (by simp), hs]
        rfl
      obtain ⟨la, a1, a2, a3⟩ := segRows_chord i s t trest hseg
      obtain ⟨st', rows, ls, b1, b2, b3, b4, b5, b6, b7, b8⟩ := ih (i + 1) stm
        (fun j h1 h2 => hR j (by omega) (by simp only [List.length_cons]; omega))
        (fun u hu => hreg u (List.mem_cons_of_mem _ hu))
      have hfirst : stm.first ≠ none := by simp [hstm]
      refine ⟨st', segRows (i + 1) s.F s.L none (t :: trest) ++ rows, la ++ ls, ?_, ?_, ?_, ?_, ?_,
        ?_, ?_, ?_⟩
      · simp only [List.map_cons, ptLoop, hstep]
        exact b1
      · rw [b2, hstm]
        simp
      · exact parseLM_app a1 b3
      · intro u hu hnone
        simp only [List.head?_cons, Option.some.injEq] at hu
        subst hu
        refine ⟨t.slopeStart, ?_⟩
        rw [b5 hfirst, hstm]
        simp only [hnone, Option.getD_none, h3.2.1]
      · intro hne
        rw [b5 hfirst, hstm]
        cases hf : st.first with
        | none => exact absurd hf hne
        | some v => rfl
      · intro u hu
        cases rest with
        | nil =>
          simp only [List.getLast?_singleton, Option.some.injEq] at hu
          subst hu
          have hst' : st' = stm := (Except.ok.inj b1).symm
          refine ⟨((t :: trest).getLast (List.cons_ne_nil _ _)).slopeEnd, ?_⟩
          rw [hst', hstm]
          simp only [(h3.getLast_e2 (List.cons_ne_nil _ _)).1]
        | cons v vs => exact b6 u (by rwa [List.getLast?_cons_cons] at hu)
      · intro l hl
        rcases List.mem_append.mp hl with hl | hl
        · rw [a2 l hl]
          simp only [List.length_cons]
          push_cast
          omega
        · have := b7 l hl
          simp only [List.length_cons]
          push_cast at this ⊢
          omega
      · intro j u segs x e hj hu hon
        rw [spanMoment_append, spanMoment_of_all la i _ _ _ a2]
        cases j with
        | zero =>
          simp only [List.getElem?_cons_zero, Option.some.injEq] at hj
          subst hj
          obtain rfl : t :: trest = segs := Except.ok.inj (hs.symm.trans hu.2.2.1)
          have hz : spanMoment ls ((i + 0 : ℕ) : ℤ) s.L x = 0 := by
            unfold spanMoment
            rw [List.filter_eq_nil_iff.mpr]
            · rfl
            · intro l hl
              have := b7 l hl
              simp only [decide_eq_true_eq]
              push_cast at this ⊢
              omega
          rw [hz, if_pos (by simp), a3 x e hon, add_zero]
        | succ j =>
          rw [List.getElem?_cons_succ] at hj
          rw [if_neg (by push_cast; omega), zero_add]
          have := b8 j u segs x e hj hu hon
          rw [← this]
          congr 1
          push_cast
          omega

/-- **C86** when the tendon runs through every span of a beam without free ends: the
simply supported moment of the loads on each span is `-F` times the eccentricity measured
from the chord of the tendon in that span, except that at the two ends of the beam, where
the anchorages are, it is measured from the centroid.

Missing from the full claim, because the code does not have it: tendons that do not reach an
end of the beam (`C86_short_tendon_violation`), forces or eccentricities that change at a
support (`C86_force_step_violation`), a beam with a free end and no tendon
(`C86_no_tendon_violation`). -/
theorem C86_spans_partial (ss : List (Stressed K)) (hne : ss ≠ []) (R : ℕ → K)
    (hR : ∀ j, j ≤ ss.length → ¬ (R (2 * j) = 0 ∧ R (2 * j + 1) = 0))
    (hreg : ∀ s ∈ ss, ∃ segs, s.Regular segs) :
    ∃ LM ls, equivalentLoads (ss.map Stressed.L) R (ss.map Stressed.F)
        (ss.map fun s => some s.p) = .ok LM ∧ parseLM LM = .ok ls ∧
      (∀ l ∈ ls, 0 ≤ l.iSpan ∧ l.iSpan < ss.length) ∧
      ∀ (j : ℕ) s segs x e, ss[j]? = some s → s.Regular segs → OnTendon segs x e →
        spanMoment ls j s.L x = -(s.F * (e
          - (if j = 0 then 0 else s.p.endEcc.1 * (1 - x / s.L))
          - (if j + 1 = ss.length then 0 else s.p.endEcc.2 * (x / s.L)))) := by
  obtain ⟨st', rows, ls, b1, b2, b3, b4, _, b6, b7, b8⟩ :=
    ptLoop_spans R ss 0 ⟨[], none, none⟩ (fun j _ hj => by
      simp only [cantOf]
      rw [if_neg (hR j (by omega)), if_neg (hR (j + 1) (by omega))]) hreg
  have hfree := And.intro (hR 0 (by omega)) (hR ss.length le_rfl)
  obtain ⟨s0, hs0⟩ : ∃ s, ss.head? = some s := by
    cases ss with
    | nil => exact absurd rfl hne
    | cons s r => exact ⟨s, rfl⟩
  obtain ⟨sn, hsn⟩ : ∃ s, ss.getLast? = some s := ⟨_, List.getLast?_eq_getLast_of_ne_nil hne⟩
  obtain ⟨sl0, hfst⟩ := b4 s0 hs0 rfl
  obtain ⟨sln, hlst⟩ := b6 sn hsn
  have hzip : (ss.map Stressed.L).zip ((ss.map Stressed.F).zip (ss.map fun s => some s.p))
      = ss.map fun s => (s.L, s.F, some s.p) := by
    clear * -
    induction ss with
    | nil => rfl
    | cons a r ih => simp only [List.map_cons, List.zip_cons_cons, ih]
  have hreg0 := hreg s0 (List.mem_of_mem_head? hs0)
  have hregn := hreg sn (List.mem_of_getLast? hsn)
  obtain ⟨sg0, hg0⟩ := hreg0
  obtain ⟨sgn, hgn⟩ := hregn
  have hLn : (ss.map Stressed.L).getLastD 0 = sn.L := by
    rw [List.getLastD_eq_getLast?, List.getLast?_map, hsn]
    rfl
  obtain ⟨lc, c1, c2, c3⟩ := coupleRow_ok 0 s0.F s0.L hg0.1 s0.p.endEcc.1 false sl0
  obtain ⟨ld, d1, d2, d3⟩ := coupleRow_ok ((ss.length : ℤ) - 1) sn.F sn.L hgn.1 sn.p.endEcc.2 true sln
  have hLM : equivalentLoads (ss.map Stressed.L) R (ss.map Stressed.F)
      (ss.map fun s => some s.p) = .ok (rows ++ coupleRow (0 + 1) 1 0 (some (s0.p.endEcc.1, s0.F, sl0))
        ++ coupleRow ((ss.length : ℤ) - 1 + 1) (-1) sn.L (some (sn.p.endEcc.2, sn.F, sln))) := by
    simp only [equivalentLoads, List.length_map, ne_eq, not_true, if_false, hzip, b1, tipRow, hLn]
    rw [if_neg (by simpa using hfree.1), if_neg (by simpa using hfree.2)]
    simp only [b2, hfst, hlst, List.nil_append, List.append_nil, zero_add, sub_add_cancel]
  have hlen : 0 < ss.length := List.length_pos_of_ne_nil hne
  refine ⟨_, ls ++ lc ++ ld, hLM, parseLM_app (parseLM_app b3 (by simpa using c1)) (by simpa using d1),
    ?_, ?_⟩
  · intro l hl
    rcases List.mem_append.mp hl with hl | hl
    · rcases List.mem_append.mp hl with hl | hl
      · have := b7 l hl
        simpa using this
      · rw [c2 l hl]; omega
    · rw [d2 l hl]; omega
  · intro j s segs x e hj hs hon
    have hjl : j < ss.length := (List.getElem?_eq_some_iff.mp hj).1
    have hx : 0 ≤ x ∧ x ≤ s.L := by
      obtain ⟨hL, hp, hsg, _⟩ := hs
      obtain ⟨segs', h1, h2, h3, _⟩ := s.p.segments_chain s.L hp
      obtain rfl : segs' = segs := Except.ok.inj (h1.symm.trans hsg)
      obtain ⟨u, hu, hx1, hx2, _⟩ := hon
      obtain ⟨m1, _, m2⟩ := h3.mem_bounds u hu
      exact ⟨m1.trans hx1, hx2.trans m2⟩
    have hmain := b8 j s segs x e hj hs hon
    rw [Nat.zero_add] at hmain
    rw [spanMoment_append, spanMoment_append, hmain, spanMoment_of_all lc 0 _ _ _ c2,
      spanMoment_of_all ld _ _ _ _ d2]
    have hc : (if (0 : ℤ) = (j : ℤ) then (lc.map fun l => l.load.ssM s.L x).sum else 0)
        = if j = 0 then -(s.F * s.p.endEcc.1 * (1 - x / s.L)) else 0 := by
      by_cases h0 : j = 0
      · subst h0
        have hss : s0 = s := by
          rw [List.head?_eq_getElem?] at hs0
          exact Option.some.inj (hs0.symm.trans hj)
        subst hss
        rw [if_pos (by simp), if_pos rfl, (c3 x hx.1 hx.2).2 hs.2.2.2.2.2.1]
        simp
      · rw [if_neg (by omega), if_neg h0]
    have hd : (if (ss.length : ℤ) - 1 = (j : ℤ) then (ld.map fun l => l.load.ssM s.L x).sum else 0)
        = if j + 1 = ss.length then -(s.F * s.p.endEcc.2 * (x / s.L)) else 0 := by
      by_cases h0 : j + 1 = ss.length
      · have hss : sn = s := by
          rw [List.getLast?_eq_getElem?, show ss.length - 1 = j by omega] at hsn
          exact Option.some.inj (hsn.symm.trans hj)
        subst hss
        rw [if_pos (by omega), if_pos h0, (d3 x hx.1 hx.2).2 hs.2.2.2.2.2.2]
        simp
      · rw [if_neg (by omega), if_neg h0]
    rw [hc, hd, Stressed.chordMoment]
    split_ifs <;> ring

/-! ## Concrete case and violations -/

/-- Restraints of a beam on three pinned supports. -/
def exPins : ℕ → ℚ := fun j => [(-1 : ℚ), 0, -1, 0, -1, 0].getD j 0

/-- Two spans with a continuous tendon: the loads of both spans, and couples at the two ends of
the beam only. -/
example : equivalentLoads [10, 10] exPins [50, 50]
      [some (.parabola 1 4 (-1) 0 0), some (.harp (-1) 2 1 4 0 0)] =
    .ok [⟨1, 1, [-16]⟩, ⟨2, 2, [-275 / 6 , 4]⟩, ⟨1, 4, [50, 0]⟩, ⟨2, 4, [-50, 10]⟩] := by
  decide +kernel

/-- None of the three nodes is free. -/
example : ∀ j, j ≤ 2 → ¬ (exPins (2 * j) = 0 ∧ exPins (2 * j + 1) = 0) := by
  intro j hj
  interval_cases j <;> decide +kernel

/-- Both spans of that tendon are regular. -/
example : (∃ segs, Stressed.Regular (⟨10, 50, .parabola 1 4 (-1) 0 0⟩ : Stressed ℚ) segs) ∧
    ∃ segs, Stressed.Regular (⟨10, 50, .harp (-1) 2 1 4 0 0⟩ : Stressed ℚ) segs := by
  constructor
  · refine ⟨[⟨0, 10, 1, -1, -8 / 25⟩], by norm_num, ⟨by norm_num, by norm_num, Or.inl rfl, Or.inl rfl,
      by norm_num [pTol]⟩, by decide +kernel, ?_, ⟨Or.inr (by norm_num [pTol, abs_of_neg]), by simp,
        trivial⟩, Or.inr (by norm_num [pTol, Profile.endEcc]),
        Or.inr (by norm_num [pTol, Profile.endEcc])⟩
    intro s hs
    rw [List.mem_singleton] at hs
    subst hs
    exact ⟨Or.inl rfl, Or.inl rfl⟩
  · refine ⟨[⟨0, 4, -1, 2, 0⟩, ⟨4, 10, 2, 1, 0⟩], by norm_num, ⟨by norm_num, by norm_num, Or.inl rfl,
      Or.inl rfl, by norm_num, by norm_num⟩, by decide +kernel, ?_, ⟨Or.inl rfl, by simp,
        Or.inl rfl, ?_, trivial⟩, Or.inr (by norm_num [pTol, Profile.endEcc]),
        Or.inr (by norm_num [pTol, Profile.endEcc])⟩
    · intro s hs
      simp only [List.mem_cons, List.not_mem_nil, or_false] at hs
      rcases hs with rfl | rfl
      · exact ⟨Or.inl rfl, Or.inr (by norm_num [pTol])⟩
      · exact ⟨Or.inr (by norm_num [pTol]), Or.inl rfl⟩
    · intro q hq
      cases hq
      right
      norm_num [pTol, TSeg.slopeStart, TSeg.slopeEnd, TSeg.length, abs_of_neg]

/-- **C86 fails** for a tendon that only runs through the second span: its left anchorage couple
is applied at the left end of the first span, ten metres from the anchorage, where there is
no tendon at all; the second span gets no couple at the anchorage. -/
theorem C86_short_tendon_violation :
    equivalentLoads [10, 10] exPins [50, 50] [none, some (.harp 1 1 1 5 0 0)]
      = .ok [⟨1, 4, [50, 0]⟩, ⟨2, 4, [-50, 10]⟩] := by
  decide +kernel

/-- **C86 fails** when the force changes at the middle support: a straight tendon at constant
eccentricity with forces 50 and 80 is anchored there with the difference 30, but no couple
acts at that support, so the couples applied do not balance. -/
theorem C86_force_step_violation :
    equivalentLoads [10, 10] exPins [50, 80] [some (.harp 1 1 1 5 0 0), some (.harp 1 1 1 5 0 0)]
      = .ok [⟨1, 4, [50, 0]⟩, ⟨2, 4, [-80, 10]⟩] := by
  decide +kernel

/-- **C86 fails** for a cantilever without a tendon: instead of an empty load matrix the call
raises (`last_slope` is unbound), although the same call for a beam without free ends
returns no loads. -/
theorem C86_no_tendon_violation :
    equivalentLoads [10] (fun j => [(-1 : ℚ), -1, 0, 0].getD j 0) [50] [none]
      = .error .unboundLocal ∧
    equivalentLoads [10, 10] exPins [50, 50] [none, none] = .ok [] := by
  constructor <;> decide +kernel

/-- A mismatched number of profiles or forces is rejected. -/
theorem C86_counts (Ls : List K) (R : ℕ → K) (F : List K) (ps : List (Option (Profile K)))
    (h : ps.length ≠ Ls.length ∨ F.length ≠ Ls.length) :
    equivalentLoads Ls R F ps = .error .valueError := by
  simp only [equivalentLoads]
  by_cases h1 : ps.length ≠ Ls.length
  · rw [if_pos h1]
  · rw [if_neg h1, if_pos (h.resolve_left h1)]

end PyCBA
