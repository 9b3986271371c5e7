import Verif.Prestress.Loads
import Verif.Load.Props
import Verif.Results.Props

/-!
C63 continued: the reported moments of a complete analysis, self-equilibrium of the
equivalent loads with the anchorage forces, and where the claim fails.
-/

namespace PyCBA

open Matrix

set_option linter.unusedSectionVars false
set_option linter.unusedSimpArgs false

variable {K : Type*} [Field K] [LinearOrder K] [IsStrictOrderedRing K]

/-! ## Reported moments -/

/-- A simply supported beam: one member, some vertical restraint at both ends, free rotations. -/
structure BeamDef.SimplySupported (b : BeamDef K) (m : Member K) (r0 r1 : K) : Prop where
  members : b.members = [m]
  restraints : b.restraints = [r0, 0, r1, 0]
  left : r0 ≠ 0
  right : r1 ≠ 0
  presc : b.presc[1]? = some none ∧ b.presc[3]? = some none

/-- **C63**, as reported by an analysis: for every simply supported beam carrying the
equivalent loads of a tendon, every completed analysis with a sound solver reports the
moment `-F e(x)` at every station of the span (under the conditions of
`C63_primary_moment_partial` for exactness). -/
theorem C63_reported_partial (b : BeamDef K) (m : Member K) (r0 r1 F : K) (hL : 0 < m.L)
    (hb : b.SimplySupported m r0 r1) (p : Profile K) (hp : p.Ordered m.L) (segs : List (TSeg K))
    (hsg : p.segments m.L none = .ok segs) (hcl : ClearEnds m.L segs)
    (hnt : NoneTiny none segs ∧ NotTiny p.endEcc.1 ∧ NotTiny p.endEcc.2)
    (hLM : equivalentLoads [m.L] (fun j => b.restraints.getD j 0) [F] [some p] = .ok b.LM)
    (stable : System K → Bool) (solve : Solver K) (hs : solve.Sound) (res : Result K)
    (h : b.analyze stable solve = .ok res) (npts : ℕ) (sp : ℕ → List K)
    (rs : List (MRes K)) (hr : b.memberResults res npts sp = .ok rs) (hrs : 0 < rs.length)
    (k : ℕ) (hk : 0 < k) (hk' : k < rs[0].n - 1) (e : K) (he : OnTendon segs (rs[0].x k) e) :
    rs[0].M k = -(F * e) := by
  have hlen : b.members.length = 1 := by rw [hb.members]; rfl
  obtain ⟨ls, kk, t, c, hls, _, _, _, m1, m2, m3, _, m5, _, hc⟩ :=
    BeamDef.results_member hs h hr 0 (by omega) hrs
  have hm : b.members[0]'(by omega) = m := by simp [hb.members]
  rw [hm] at m1
  have hR : cantOf (fun j => b.restraints.getD j 0) 0 = none := by
    simp [cantOf, hb.restraints, hb.left, hb.right]
  obtain ⟨LM, ls', q1, q2, q3, q4⟩ :=
    C63_primary_moment_partial m.L F hL _ hR p hp segs hsg hcl
  rw [hLM] at q1
  cases q1
  obtain rfl : ls = ls' := by
    have hl2 := hls
    simp only [BeamDef.setLoads, q2] at hl2
    split at hl2
    · exact (Except.ok.inj hl2).symm
    · cases hl2
  -- the end moments vanish
  have f1 := C17_free_equilibrium b stable solve hs res h 0 (by omega) 1 0
    (by simp [hb.restraints]) le_rfl hb.presc.1
  have f3 := C17_free_equilibrium b stable solve hs res h 1 (by omega) 1 0
    (by simp [hb.restraints]) le_rfl hb.presc.2
  simp only [hlen, lt_self_iff_false, if_false, zero_lt_one, if_true, zero_mul, add_zero,
    zero_add] at f1 f3
  have f1' : res.fmbr 0 1 = 0 := f1
  have f3' : res.fmbr 0 3 = 0 := f3
  have hx0 : b.nodeX 0 = 0 := by simp [BeamDef.nodeX]
  have hxk : rs[0].x k = c.x k := by rw [hc]; simp [hx0]
  have hMk : rs[0].M k = c.M k := by rw [hc]; rfl
  have hnk : rs[0].n = c.n := by rw [hc]; rfl
  have hnot : ¬ c.IsEnd k := by
    simp only [MCtx.IsEnd, ← hnk]; omega
  rw [hMk, MCtx.M, if_neg hnot, m1, m2, m3, f1', f3']
  have hown : ownLoads 0 ls = ls.map SpanLoad.load := by
    rw [ownLoads, List.filter_eq_self.mpr]
    intro l hl
    simp [q3 l hl]
  rw [hown, List.map_map]
  have := (q4 _ e he).2 hnt.1 hnt.2.1 hnt.2.2
  rw [hxk] at this
  simp only [Function.comp_def, this, mambStn]
  simp

/-! ## Self-equilibrium -/

theorem udl_total (w L : ℝ) (hL : 0 < L) :
    Load.total L (.udl w) = w * L ∧ Load.momentAboutLeft L (.udl w) = w * L ^ 2 / 2 := by
  obtain ⟨c, h1, h2, h3⟩ := C01_fixed_end_equilibrium (.udl w) L hL trivial
  simp only [Load.getCnl, Except.ok.injEq, CnlRet.cnl.injEq] at h1
  subst h1
  rw [← h2, ← h3]
  simp only [udlCnl]
  constructor <;> ring

theorem pl_total (P a L : ℝ) :
    Load.total L (.pl P a) = P ∧ Load.momentAboutLeft L (.pl P a) = P * a := by
  simp [Load.total, Load.momentAboutLeft, Load.intensity, Load.forces, Load.couples]

theorem ml_total (m a L : ℝ) :
    Load.total L (.ml m a) = 0 ∧ Load.momentAboutLeft L (.ml m a) = -m := by
  simp [Load.total, Load.momentAboutLeft, Load.intensity, Load.forces, Load.couples]

theorem pudl_total (w a c L : ℝ) (hL : 0 < L) (ha : 0 ≤ a) (hc : 0 ≤ c) (hac : a + c ≤ L) :
    Load.total L (.pudl w a c) = w * c ∧
      Load.momentAboutLeft L (.pudl w a c) = w * c * (a + c / 2) := by
  obtain ⟨r, h1, h2, h3⟩ := C01_fixed_end_equilibrium (.pudl w a c) L hL
    ⟨ha, by linarith, hc⟩
  simp only [Load.getCnl] at h1
  rw [if_neg (by linarith), if_neg (by linarith)] at h1
  simp only [Except.ok.injEq, CnlRet.cnl.injEq] at h1
  subst h1
  rw [← h2, ← h3]
  simp only [pudlCnl]
  constructor
  · ring
  · field_simp
    ring

/-- Resultant and moment about the left end of parsed loads on a span of length `L`. -/
noncomputable def loadsTotal (L : ℝ) (ls : List (SpanLoad ℝ)) : ℝ :=
  (ls.map fun l => l.load.total L).sum

noncomputable def loadsMoment (L : ℝ) (ls : List (SpanLoad ℝ)) : ℝ :=
  (ls.map fun l => l.load.momentAboutLeft L).sum

theorem loadsTotal_append (L : ℝ) (l1 l2 : List (SpanLoad ℝ)) :
    loadsTotal L (l1 ++ l2) = loadsTotal L l1 + loadsTotal L l2 ∧
      loadsMoment L (l1 ++ l2) = loadsMoment L l1 + loadsMoment L l2 := by
  simp [loadsTotal, loadsMoment]

theorem curvRow_total (i : ℤ) (F L : ℝ) (hL : 0 < L) (s : TSeg ℝ) (h0 : 0 ≤ s.x1)
    (h1 : s.x1 < s.x2) (h2 : s.x2 ≤ L)
    (hc : (s.x1 = 0 ∨ pTol < s.x1 ∧ s.x1 < L - pTol) ∧ (s.x2 = L ∨ s.x2 < L - pTol))
    (hnt : NotTiny s.epp) (ls : List (SpanLoad ℝ))
    (hls : parseLM (curvRow (i + 1) F L s) = .ok ls) :
    loadsTotal L ls = F * s.epp * (s.x2 - s.x1) ∧
      loadsMoment L ls = F * s.epp * (s.x2 ^ 2 - s.x1 ^ 2) / 2 := by
  by_cases hb : pTol < |s.epp|
  · by_cases hf : s.x1 ≤ pTol ∧ L - pTol ≤ s.x2
    · have ha : s.x1 = 0 := hc.1.resolve_right (fun h => absurd h.1 (not_lt.mpr hf.1))
      have hb' : s.x2 = L := hc.2.resolve_right (not_lt.mpr hf.2)
      simp only [curvRow, if_pos hb, if_pos hf] at hls
      have hls' : [(⟨i + 1 - 1, .udl (F * s.epp)⟩ : SpanLoad ℝ)] = ls := Except.ok.inj hls
      subst hls'
      simp only [loadsTotal, loadsMoment, List.map_cons, List.map_nil, List.sum_cons, List.sum_nil,
        udl_total _ L hL, ha, hb']
      constructor <;> ring
    · simp only [curvRow, if_pos hb, if_neg hf] at hls
      have hls' : [(⟨i + 1 - 1, .pudl (F * s.epp) s.x1 s.length⟩ : SpanLoad ℝ)] = ls :=
        Except.ok.inj hls
      subst hls'
      have ht := pudl_total (F * s.epp) s.x1 s.length L hL h0 (by simp only [TSeg.length]; linarith)
        (by simp only [TSeg.length]; linarith)
      simp only [loadsTotal, loadsMoment, List.map_cons, List.map_nil, List.sum_cons, List.sum_nil, ht]
      simp only [TSeg.length]
      constructor <;> ring
  · simp only [curvRow, if_neg hb] at hls
    have hls' : [] = ls := Except.ok.inj hls
    subst hls'
    rw [hnt.resolve_right hb]
    simp [loadsTotal, loadsMoment]

theorem kinkRow_total (i : ℤ) (F L : ℝ) (p : ℝ) (s : TSeg ℝ) (h0 : pTol < s.x1)
    (h1 : s.x1 < L - pTol) (hnt : NotTiny (s.slopeStart - p)) (ls : List (SpanLoad ℝ))
    (hls : parseLM (kinkRow (i + 1) F L (some p) s) = .ok ls) :
    loadsTotal L ls = F * (s.slopeStart - p) ∧
      loadsMoment L ls = F * (s.slopeStart - p) * s.x1 := by
  by_cases hb : pTol < |s.slopeStart - p|
  · simp only [kinkRow, if_pos (⟨hb, h0, h1⟩ : _ ∧ _ ∧ _)] at hls
    have hls' : [(⟨i + 1 - 1, .pl (F * (s.slopeStart - p)) s.x1⟩ : SpanLoad ℝ)] = ls :=
      Except.ok.inj hls
    subst hls'
    simp [loadsTotal, loadsMoment, pl_total]
  · simp only [kinkRow] at hls
    rw [if_neg (fun h => hb h.1)] at hls
    have hls' : [] = ls := Except.ok.inj hls
    subst hls'
    rw [hnt.resolve_right hb]
    simp [loadsTotal, loadsMoment]

theorem parseLM_split {LM1 LM2 : List (Row K)} {l : List (SpanLoad K)}
    (h : parseLM (LM1 ++ LM2) = .ok l) :
    ∃ l1 l2, parseLM LM1 = .ok l1 ∧ parseLM LM2 = .ok l2 ∧ l = l1 ++ l2 := by
  have ha : parseLM (addLM LM1 LM2) = .ok l := h
  rw [parseLM_append LM1 LM2] at ha
  cases h1 : parseLM LM1 with
  | error e => simp [h1] at ha
  | ok l1 =>
    cases h2 : parseLM LM2 with
    | error e => simp [h1, h2] at ha
    | ok l2 =>
      simp only [h1, h2] at ha
      exact ⟨l1, l2, rfl, rfl, (Except.ok.inj ha).symm⟩

theorem segRows_total (i : ℤ) (F L : ℝ) (hL : 0 < L) (segs : List (TSeg ℝ)) :
    ∀ (p x0 e0 e1 : ℝ), 0 < x0 → SegChain segs x0 e0 L e1 → ClearEnds L segs →
    NoneTiny (some p) segs → ∀ ls, parseLM (segRows (i + 1) F L (some p) segs) = .ok ls →
    ∀ pe, pe = (segs.getLast?.map TSeg.slopeEnd).getD p →
      loadsTotal L ls = F * (pe - p) ∧
      loadsMoment L ls = F * ((L * pe - e1) - (x0 * p - e0)) := by
  induction segs with
  | nil =>
    intro p x0 e0 e1 _ h _ _ ls hls pe hpe
    have hls' : [] = ls := Except.ok.inj hls
    subst hls'
    obtain ⟨rfl, rfl⟩ := h
    have hpe' : pe = p := hpe
    subst hpe'
    simp [loadsTotal, loadsMoment]
  | cons s rest ih =>
    intro p x0 e0 e1 hx0 h hcl hnt ls hls pe hpe
    have hbd := h.mem_bounds s List.mem_cons_self
    obtain ⟨h1, h2, h3, h4⟩ := h
    have hc := hcl s List.mem_cons_self
    have hT := pTol_pos (K := ℝ)
    obtain ⟨hx1, hx1'⟩ := hc.1.resolve_left (by rw [h1]; exact hx0.ne')
    obtain ⟨n1, n2, n3⟩ := hnt
    simp only [segRows] at hls
    obtain ⟨lab, lc, hab, hc1, rfl⟩ := parseLM_split hls
    obtain ⟨la, lb, ha, hb, rfl⟩ := parseLM_split hab
    obtain ⟨a1, a2⟩ := curvRow_total i F L hL s (by linarith) h3 hbd.2.2 hc n1 la ha
    obtain ⟨b1, b2⟩ := kinkRow_total i F L p s hx1 hx1' (n2 p rfl) lb hb
    have hpe' : pe = (rest.getLast?.map TSeg.slopeEnd).getD s.slopeEnd := by
      rw [hpe]
      cases rest with
      | nil => rfl
      | cons t rest => rw [List.getLast?_cons_cons]
                       cases hgl : (t :: rest).getLast? with
                       | none => simp at hgl
                       | some v => rfl
    obtain ⟨c1, c2⟩ := ih s.slopeEnd s.x2 s.e2 e1 (by linarith) h4
      (fun t ht => hcl t (List.mem_cons_of_mem _ ht)) n3 lc hc1 pe hpe'
    simp only [loadsTotal_append, a1, a2, b1, b2, c1, c2]
    have he := s.ecc_x2 h3
    rw [TSeg.ecc, h2] at he
    rw [← h1]
    simp only [TSeg.slopeEnd, TSeg.length]
    constructor
    · ring
    · linear_combination (-F) * he

/-- **C63**, self-equilibrium: on a single span with supports at both ends the equivalent
loads, together with the vertical anchorage forces of the tendon (`F e'(0)` at the left end
and `-F e'(L)` at the right end, reacted by the supports), have no resultant and no moment.
The slopes are the derivatives of the first and last piece. -/
theorem C63_self_equilibrating_partial (L F : ℝ) (hL : 0 < L) (R : ℕ → ℝ)
    (hR : cantOf R 0 = none) (p : Profile ℝ) (hp : p.Ordered L) (s : TSeg ℝ) (rest : List (TSeg ℝ))
    (hs : p.segments L none = .ok (s :: rest)) (hcl : ClearEnds L (s :: rest))
    (hnt : NoneTiny none (s :: rest) ∧ NotTiny p.endEcc.1 ∧ NotTiny p.endEcc.2)
    (LM : List (Row ℝ)) (hLM : equivalentLoads [L] R [F] [some p] = .ok LM)
    (ls : List (SpanLoad ℝ)) (hls : parseLM LM = .ok ls) :
    let t := (s :: rest).getLast (List.cons_ne_nil _ _)
    loadsTotal L ls + F * deriv s.ecc 0 + -F * deriv t.ecc L = 0 ∧
      loadsMoment L ls + -F * deriv t.ecc L * L = 0 := by
  have hder : ∀ (s : TSeg ℝ) (x : ℝ), deriv s.ecc x = s.slopeStart + s.epp * (x - s.x1) := by
    intro s x
    have : HasDerivAt s.ecc (0 + s.slopeStart * (1 - 0)
        + 1 / 2 * s.epp * ((2 : ℕ) * (x - s.x1) ^ (2 - 1) * (1 - 0))) x :=
      (((hasDerivAt_const x s.e1).add (((hasDerivAt_id x).sub (hasDerivAt_const x s.x1)).const_mul
        s.slopeStart)).add ((((hasDerivAt_id x).sub (hasDerivAt_const x s.x1)).pow 2).const_mul
          (1 / 2 * s.epp)))
    rw [this.deriv]
    push_cast
    ring
  obtain ⟨segs', h1, _, h3, _⟩ := p.segments_chain L hp
  obtain rfl : segs' = s :: rest := Except.ok.inj (h1.symm.trans hs)
  rw [equivalentLoads_single L F R hR p s rest hs] at hLM
  have hLM' := Except.ok.inj hLM
  subst hLM'
  have hlast := h3.getLast_e2 (List.cons_ne_nil _ _)
  obtain ⟨lab, lc, hab, hc, rfl⟩ := parseLM_split hls
  obtain ⟨la, lb, ha, hb, rfl⟩ := parseLM_split hab
  have hbd := h3.mem_bounds s List.mem_cons_self
  obtain ⟨g1, g2, g3, g4⟩ := h3
  intro t
  have hrows : segRows 1 F L none (s :: rest)
      = curvRow (0 + 1) F L s ++ segRows (0 + 1) F L (some s.slopeEnd) rest := by
    simp [segRows, kinkRow]
  rw [hrows] at ha
  obtain ⟨l1, l2, q1, q2, rfl⟩ := parseLM_split ha
  obtain ⟨n1, _, n3⟩ := hnt.1
  obtain ⟨a1, a2⟩ := curvRow_total 0 F L hL s g1.ge g3 hbd.2.2 (hcl s List.mem_cons_self) n1 l1 q1
  obtain ⟨c1, c2⟩ := segRows_total 0 F L hL rest s.slopeEnd s.x2 s.e2 _ (by linarith) g4
    (fun t ht => hcl t (List.mem_cons_of_mem _ ht)) n3 l2 q2 t.slopeEnd (by
      simp only [t]
      cases rest with
      | nil => rfl
      | cons u rest =>
        rw [List.getLast_cons (List.cons_ne_nil _ _), List.getLast?_eq_getLast_of_ne_nil (List.cons_ne_nil _ _)]
        rfl)
  have hcouple : ∀ (sgn at_ e : ℝ) (sl : ℝ) (l : List (SpanLoad ℝ)), NotTiny e →
      parseLM (coupleRow 1 sgn at_ (some (e, F, sl))) = .ok l →
      loadsTotal L l = 0 ∧ loadsMoment L l = -(sgn * F * e) := by
    intro sgn at_ e sl l hn hl
    by_cases hb : pTol < |e|
    · simp only [coupleRow, if_pos hb] at hl
      have hl' : [(⟨1 - 1, .ml (sgn * F * e) at_⟩ : SpanLoad ℝ)] = l := Except.ok.inj hl
      subst hl'
      simp [loadsTotal, loadsMoment, ml_total]
    · simp only [coupleRow, if_neg hb] at hl
      have hl' : [] = l := Except.ok.inj hl
      subst hl'
      rw [hn.resolve_right hb]
      simp [loadsTotal, loadsMoment]
  obtain ⟨b1, b2⟩ := hcouple 1 0 s.e1 _ lb (by rw [g2]; exact hnt.2.1) hb
  obtain ⟨d1, d2⟩ := hcouple (-1) L _ _ lc (by rw [hlast.1]; exact hnt.2.2) hc
  rw [hlast.1] at d2
  have hs0 : deriv s.ecc 0 = s.slopeStart := by rw [hder, g1]; ring
  have ht0 : deriv t.ecc L = t.slopeEnd := by
    rw [hder, ← hlast.2]; rfl
  have he := s.ecc_x2 g3
  rw [TSeg.ecc, g2, g1] at he
  simp only [loadsTotal_append, a1, a2, b1, b2, c1, c2, d1, d2, hs0, ht0, g1, g2]
  simp only [TSeg.slopeEnd, TSeg.length, g1]
  constructor
  · ring
  · linear_combination (-F) * he

/-! ## A concrete tendon -/

/-- An asymmetric parabola, anchored below the centroid at the left end, meets all the
hypotheses of the C63 theorems, and its equivalent loads are a UDL and two couples. -/
example : ∃ segs, (Profile.parabola (1 : ℚ) 4 2 0 0).segments 10 none = .ok segs ∧
    Profile.Ordered (10 : ℚ) (.parabola 1 4 2 0 0) ∧ ClearEnds 10 segs ∧ NoneTiny none segs ∧
    NotTiny (Profile.parabola (1 : ℚ) 4 2 0 0).endEcc.1 ∧
    NotTiny (Profile.parabola (1 : ℚ) 4 2 0 0).endEcc.2 ∧
    equivalentLoads [10] (fun j => [(-1 : ℚ), 0, -1, 0].getD j 0) [50]
      [some (.parabola 1 4 2 0 0)] = .ok [⟨1, 1, [-10]⟩, ⟨1, 4, [50, 0]⟩, ⟨1, 4, [-100, 10]⟩] := by
  refine ⟨[⟨0, 10, 1, 2, -1 / 5⟩], by decide +kernel, ⟨by norm_num, by norm_num, Or.inl rfl,
    Or.inl rfl, by norm_num [pTol]⟩, ?_, ⟨Or.inr (by norm_num [pTol, abs_of_neg]), by simp, trivial⟩,
    Or.inr (by norm_num [pTol, Profile.endEcc]), Or.inr (by norm_num [pTol, Profile.endEcc]),
    by decide +kernel⟩
  intro s hs
  rw [List.mem_singleton] at hs
  subst hs
  exact ⟨Or.inl rfl, Or.inl rfl⟩

/-! ## Violations -/

/-- The claim fails without the conditions on small quantities: a sag of 1 mm over a span of
100 m balances a UDL when lengths are given in metres, but gives no load at all when they are
given in millimetres (the curvature is then below `1e-9`), so the moment at midspan is 0
instead of `-F e`. -/
theorem C63_small_curvature_violation :
    equivalentLoads [100] (fun j => [(-1 : ℚ), 0, -1, 0].getD j 0) [1000]
      [some (.parabola 0 (1 / 1000) 0 0 0)] = .ok [⟨1, 1, [-1 / 1250]⟩] ∧
    equivalentLoads [100000] (fun j => [(-1 : ℚ), 0, -1, 0].getD j 0) [1000]
      [some (.parabola 0 1 0 0 0)] = .ok [] := by
  constructor <;> decide +kernel

end PyCBA
