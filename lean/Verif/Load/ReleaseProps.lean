import Verif.Load.DiagramProps

set_option linter.unusedSectionVars false
set_option linter.unusedSimpArgs false

/-!
Properties of released fixed-end forces, scaling, coincidence of load types,
mirror symmetry and overhang: C03, C05-C08.
-/

namespace PyCBA

section field

variable {K : Type*} [Field K] [LinearOrder K] [IsStrictOrderedRing K]

/-- The left end of the member is moment released. -/
def EType.leftPinned : EType → Bool
  | .PF | .PP => true
  | _ => false

/-- The right end of the member is moment released. -/
def EType.rightPinned : EType → Bool
  | .FP | .PP => true
  | _ => false

/-- Two end-force sets are statically equivalent: same vertical resultant and
same moment about the left end. -/
def StaticallyEquivalent (L : K) (c c' : CNL K) : Prop :=
  c'.Va + c'.Vb = c.Va + c.Vb ∧ c'.Ma + c'.Mb + c'.Vb * L = c.Ma + c.Mb + c.Vb * L

/-! ## C03 -/

/-- **C03** (every member type): the moment at a released end is zero. -/
theorem C03_released_moment_zero (ld : Load K) (L : K) (et : EType) (c : CNL K)
    (h : ld.getRef L et = .ok c) :
    (et.leftPinned → c.Ma = 0) ∧ (et.rightPinned → c.Mb = 0) := by
  unfold Load.getRef at h
  split at h
  · cases h
  · cases h
  · cases h
    cases et <;> simp [releaseCnl, EType.leftPinned, EType.rightPinned]

/-- **C03** for fixed-fixed, fixed-pinned and pinned-fixed members.  The full
claim also covers pinned-pinned members; there it is false, see
`C03_pinned_pinned_violation`. -/
theorem C03_release_equilibrium_partial (ld : Load K) (L : K) (hL : 0 < L) (et : EType)
    (het : et ≠ .PP) (c : CNL K) (h : ld.getCnl L = .ok (.cnl c)) :
    ∃ c', ld.getRef L et = .ok c' ∧ StaticallyEquivalent L c c' := by
  refine ⟨releaseCnl c L et, by simp [Load.getRef, h], ?_⟩
  have : L ≠ 0 := hL.ne'
  cases et with
  | PP => exact absurd rfl het
  | FF => simp [releaseCnl, StaticallyEquivalent]
  | FP =>
    simp only [releaseCnl, StaticallyEquivalent]
    constructor
    · ring
    · field_simp
      ring
  | PF =>
    simp only [releaseCnl, StaticallyEquivalent]
    constructor
    · ring
    · field_simp
      ring

/-- For a pinned-pinned member the released forces are statically equivalent to
the load exactly when the fixed-end moments are opposite. -/
theorem C03_pinned_pinned_iff (ld : Load K) (L : K) (hL : 0 < L)
    (c : CNL K) (h : ld.getCnl L = .ok (.cnl c)) :
    ∃ c', ld.getRef L .PP = .ok c' ∧ (StaticallyEquivalent L c c' ↔ c.Ma + c.Mb = 0) := by
  refine ⟨releaseCnl c L .PP, by simp [Load.getRef, h], ?_⟩
  have hL0 : L ≠ 0 := hL.ne'
  simp only [releaseCnl, StaticallyEquivalent]
  constructor
  · rintro ⟨_, h2⟩
    have h3 : (c.Vb - (c.Ma + c.Mb) / L) * L = c.Vb * L - (c.Ma + c.Mb) := by
      field_simp
    have h4 : 2 * (c.Ma + c.Mb) = 0 := by
      rw [h3] at h2
      linear_combination -h2
    simpa using h4
  · intro h2
    rw [h2]
    constructor
    · simp
    · ring

/-- **C03 fails** for pinned-pinned members: a point load of 10 at a quarter of
a span of 4 gets end forces 75/8 and 5/8, while a pinned-pinned span needs 15/2
and 5/2. -/
theorem C03_pinned_pinned_violation :
    ∃ (ld : Load ℚ) (L : ℚ) (c c' : CNL ℚ), 0 < L ∧ ld.OnSpan L ∧
      ld.getCnl L = .ok (.cnl c) ∧ ld.getRef L .PP = .ok c' ∧
      ¬ StaticallyEquivalent L c c' ∧
      c' = ⟨75 / 8, 0, 5 / 8, 0⟩ ∧ StaticallyEquivalent L c ⟨15 / 2, 0, 5 / 2, 0⟩ := by
  refine ⟨.pl 10 1, 4, _, _, by norm_num, by norm_num [Load.OnSpan], rfl, rfl, ?_, ?_, ?_⟩
  · norm_num [StaticallyEquivalent, releaseCnl, plCnl]
  · norm_num [releaseCnl, plCnl]
  · norm_num [StaticallyEquivalent, plCnl]

/-- The partial theorem applies to that same asymmetric load. -/
example : ∃ c', (Load.pl (10 : ℚ) 1).getRef 4 .FP = .ok c' ∧
    StaticallyEquivalent 4 (plCnl 10 1 4) c' :=
  C03_release_equilibrium_partial _ 4 (by norm_num) .FP (by decide) _ rfl

/-! ## C05 -/

instance : Add (CNL K) := ⟨fun a b => ⟨a.Va + b.Va, a.Ma + b.Ma, a.Vb + b.Vb, a.Mb + b.Mb⟩⟩
instance : SMul K (CNL K) := ⟨fun g a => ⟨g * a.Va, g * a.Ma, g * a.Vb, g * a.Mb⟩⟩
instance : SMul K (Stn K) := ⟨fun g a => ⟨g * a.V, g * a.M, g * a.R, g * a.D⟩⟩

theorem CNL.smul_def (g : K) (a : CNL K) :
    g • a = ⟨g * a.Va, g * a.Ma, g * a.Vb, g * a.Mb⟩ := rfl
theorem CNL.add_def (a b : CNL K) :
    a + b = ⟨a.Va + b.Va, a.Ma + b.Ma, a.Vb + b.Vb, a.Mb + b.Mb⟩ := rfl
theorem Stn.smul_def (g : K) (a : Stn K) :
    g • a = ⟨g * a.V, g * a.M, g * a.R, g * a.D⟩ := rfl

/-- `Beam._set_loads`, `beam.py` 342-344: imposed-curvature loads receive the
rigidity of their span. -/
def Load.setEI (EI : K) : Load K → Load K
  | .ic kappa _ => .ic kappa (some EI)
  | ld => ld

/-- Magnitudes multiplied by `g`; positions unchanged (helper for C05). -/
def Load.scale (g : K) : Load K → Load K
  | .udl w => .udl (g * w)
  | .pl P a => .pl (g * P) a
  | .pudl w a c => .pudl (g * w) a c
  | .trapez w1 w2 a c => .trapez (g * w1) (g * w2) a c
  | .mamb Ma Mb => .mamb (g * Ma) (g * Mb)
  | .ml m a => .ml (g * m) a
  | .ic k EI => .ic (k.map (g * ·)) EI

theorem polyInc_scale (g : K) (k : List K) (x : K) :
    polyInc (k.map (g * ·)) x = g * polyInc k x := by
  induction k with
  | nil => simp [polyInc]
  | cons a l ih =>
    simp only [List.map_cons, polyInc, ih]
    ring

theorem simpson_scale (m : ℕ) (g : K) (f f' : K → K) (h : ∀ x, f' x = g * f x) (a b : K) :
    simpson m f' a b = g * simpson m f a b := by
  simp only [simpson]
  rw [← List.sum_map_mul_left]
  congr 1
  apply List.map_congr_left
  intro i _
  simp only [h]
  ring

theorem icCnl_scale (g : K) (k : List K) (EI L : K) :
    icCnl (k.map (g * ·)) EI L = g • icCnl k EI L := by
  have e1 := simpson_scale 1000 g (fun x => (1 - x / L) * polyInc k x)
    (fun x => (1 - x / L) * polyInc (k.map (g * ·)) x)
    (fun x => by simp only [polyInc_scale]; ring) 0 L
  have e2 := simpson_scale 1000 g (fun x => -x / L * polyInc k x)
    (fun x => -x / L * polyInc (k.map (g * ·)) x)
    (fun x => by simp only [polyInc_scale]; ring) 0 L
  ext <;> simp only [icCnl, icEndMoments, CNL.smul_def, e1, e2] <;> ring

theorem resolveTrapez_scale (g w1 w2 a : K) (c : Option K) (L : K) :
    resolveTrapez (g * w1) (g * w2) a c L =
      (g * (resolveTrapez w1 w2 a c L).1, g * (resolveTrapez w1 w2 a c L).2.1,
        g * (resolveTrapez w1 w2 a c L).2.2.1, (resolveTrapez w1 w2 a c L).2.2.2.1,
        (resolveTrapez w1 w2 a c L).2.2.2.2) := by
  have key : ∀ c0 : K, g * w1 + (g * w2 - g * w1) * (L - a) / c0
      = g * (w1 + (w2 - w1) * (L - a) / c0) := fun c0 => by ring
  cases c <;> simp only [resolveTrapez] <;> split_ifs <;>
    first
    | simp only [key, mul_sub g, mul_zero]
    | simp

theorem getCnl_scale (g : K) (ld : Load K) (L : K) :
    (ld.scale g).getCnl L = (ld.getCnl L).map fun
      | .cnl c => .cnl (g • c)
      | .plainList l => .plainList (l.map (g * ·)) := by
  cases ld with
  | udl w =>
    simp only [Load.scale, Load.getCnl, Except.map]
    congr 2
    ext <;> simp only [udlCnl, CNL.smul_def] <;> ring
  | pl P a =>
    simp only [Load.scale, Load.getCnl, Except.map]
    congr 2
    ext <;> simp only [plCnl, CNL.smul_def] <;> ring
  | pudl w a c =>
    simp only [Load.scale, Load.getCnl]
    split_ifs
    · simp [Except.map]
    all_goals
      simp only [Except.map]
      congr 2
      ext <;> simp only [pudlCnl, CNL.smul_def] <;> ring
  | trapez w1 w2 a c =>
    simp only [Load.scale, Load.getCnl, resolveTrapez_scale]
    split_ifs
    · simp [Except.map, CNL.smul_def]
    · simp only [Except.map]
      congr 2
      ext <;> simp only [trapezCnl, CNL.smul_def] <;> ring
  | mamb Ma Mb =>
    simp only [Load.scale, Load.getCnl, Except.map]
    congr 2
    ext <;> simp only [mambCnl, CNL.smul_def] <;> ring
  | ml m a =>
    simp only [Load.scale, Load.getCnl, Except.map]
    congr 2
    ext <;> simp only [mlCnl, CNL.smul_def] <;> ring
  | ic k EI =>
    cases EI with
    | none => simp [Load.scale, Load.getCnl, Except.map]
    | some EI =>
      simp only [Load.scale, Load.getCnl, Except.map, icCnl_scale]

theorem releaseCnl_smul (g : K) (c : CNL K) (L : K) (et : EType) :
    releaseCnl (g • c) L et = g • releaseCnl c L et := by
  cases et <;> ext <;> simp only [releaseCnl, CNL.smul_def] <;> ring

theorem releaseCnl_add (c c' : CNL K) (L : K) (et : EType) :
    releaseCnl (c + c') L et = releaseCnl c L et + releaseCnl c' L et := by
  cases et <;> ext <;> simp only [releaseCnl, CNL.add_def] <;> ring

theorem getRef_scale (g : K) (ld : Load K) (L : K) (et : EType) :
    (ld.scale g).getRef L et = (ld.getRef L et).map (g • ·) := by
  simp only [Load.getRef, getCnl_scale]
  cases h : ld.getCnl L with
  | error e => simp [Except.map]
  | ok r =>
    cases r with
    | cnl c => simp [Except.map, releaseCnl_smul]
    | plainList l => simp [Except.map]

theorem stn_scale (g : K) (ld : Load K) (L x : K) :
    (ld.scale g).stn L x = (ld.stn L x).map (g • ·) := by
  cases ld with
  | udl w =>
    simp only [Load.scale, Load.stn, Option.map_some, Option.some.injEq]
    ext <;> simp only [udlStn, Stn.smul_def] <;> ring
  | pl P a =>
    simp only [Load.scale, Load.stn, Option.map_some, Option.some.injEq]
    ext <;> simp only [plStn, Stn.smul_def] <;> ring
  | pudl w a c =>
    simp only [Load.scale, Load.stn, Option.map_some, Option.some.injEq]
    ext <;> simp only [pudlStn, Stn.smul_def] <;> ring
  | trapez w1 w2 a c =>
    simp only [Load.scale, Load.stn, resolveTrapez_scale]
    split_ifs
    · simp [Stn.smul_def]
    · simp only [Option.map_some, Option.some.injEq]
      ext <;> simp only [trapezStn, Stn.smul_def] <;> ring
  | mamb Ma Mb =>
    simp only [Load.scale, Load.stn, Option.map_some, Option.some.injEq]
    ext <;> simp only [mambStn, Stn.smul_def] <;> ring
  | ml m a =>
    simp only [Load.scale, Load.stn, Option.map_some, Option.some.injEq]
    ext <;> simp only [mlStn, Stn.smul_def]
    · ring
    · split_ifs <;> ring
    · ring
    · ring
  | ic k EI => rfl

theorem setEI_scale (g E : K) (ld : Load K) : (ld.scale g).setEI E = (ld.setEI E).scale g := by
  cases ld <;> rfl

/-- Parsing a factored row gives the scaled load. -/
theorem parseRow_factor (g : K) (r r' : Row K) (h : factorRow g r = .ok r')
    (o : Option (SpanLoad K)) (ho : parseRow r = .ok o) :
    parseRow r' = .ok (o.map fun l => ⟨l.iSpan, l.load.scale g⟩) := by
  obtain ⟨sp, lt, args⟩ := r
  rcases args with _ | ⟨x, rest⟩
  · simp [factorRow] at h
  simp only [factorRow] at h
  simp only [parseRow] at ho
  by_cases h1 : lt = 1
  · subst h1
    simp at h ho
    subst h
    subst ho
    simp [parseRow, Load.scale]
  by_cases h2 : lt = 2
  · subst h2
    rcases rest with _ | ⟨a, tl⟩
    · simp at h
    simp at h ho
    subst h
    subst ho
    simp [parseRow, Load.scale]
  by_cases h3 : lt = 3
  · subst h3
    rcases rest with _ | ⟨a, _ | ⟨c, tl⟩⟩
    · simp at h
    · simp at h
    simp at h ho
    subst h
    subst ho
    simp [parseRow, Load.scale]
  by_cases h4 : lt = 4
  · subst h4
    rcases rest with _ | ⟨a, tl⟩
    · simp at h
    simp at h ho
    subst h
    subst ho
    simp [parseRow, Load.scale]
  by_cases h5 : lt = 5
  · subst h5
    rcases rest with _ | ⟨w2, _ | ⟨a, _ | ⟨c, tl⟩⟩⟩
    · simp at h
    all_goals
      simp at h ho
      subst h
      subst ho
      simp [parseRow, Load.scale]
  by_cases h6 : lt = 6
  · subst h6
    simp at h ho
    subst h
    subst ho
    simp [parseRow, Load.scale]
  · simp [h1, h2, h3, h4, h5, h6] at h ho
    rcases rest with _ | ⟨a, _ | ⟨c, tl⟩⟩
    · simp at h
    · simp at h
    simp at h
    subst h
    subst ho
    simp [parseRow, h1, h2, h3, h4, h5, h6]

/-- **C05.** Factoring a load matrix by `g` (any sign) multiplies the end forces
(for every member type) and the span diagrams of each of its loads by `g`, and
changes nothing else. -/
theorem C05_factoring_scales (g : K) (LM LM' : List (Row K)) (ls : List (SpanLoad K))
    (hf : factorLM g LM = .ok LM') (hp : parseLM LM = .ok ls) :
    ∃ ls', parseLM LM' = .ok ls' ∧
      List.Forall₂ (fun l l' => l'.iSpan = l.iSpan ∧
        ∀ EI L : K,
          (∀ et, (l'.load.setEI EI).getRef L et
            = ((l.load.setEI EI).getRef L et).map (g • ·)) ∧
          ∀ x, l'.load.stn L x = (l.load.stn L x).map (g • ·)) ls ls' := by
  induction LM generalizing LM' ls with
  | nil =>
    simp only [factorLM, Except.ok.injEq] at hf
    simp only [parseLM, Except.ok.injEq] at hp
    subst hf
    subst hp
    exact ⟨[], rfl, .nil⟩
  | cons r rs ih =>
    simp only [factorLM] at hf
    simp only [parseLM] at hp
    cases hr : factorRow g r with
    | error e => simp [hr] at hf
    | ok r' =>
      cases hrs : factorLM g rs with
      | error e => simp [hr, hrs] at hf
      | ok rs' =>
        cases ho : parseRow r with
        | error e => simp [ho] at hp
        | ok o =>
          cases hos : parseLM rs with
          | error e => simp [ho, hos] at hp
          | ok os =>
            simp only [hr, hrs, Except.ok.injEq] at hf
            simp only [ho, hos, Except.ok.injEq] at hp
            subst hf
            obtain ⟨os', h1, h2⟩ := ih _ _ hrs hos
            have h3 := parseRow_factor g r r' hr o ho
            cases o with
            | none =>
              refine ⟨os', ?_, ?_⟩
              · simp [parseLM, h3, h1]
              · subst hp
                exact h2
            | some l =>
              refine ⟨⟨l.iSpan, l.load.scale g⟩ :: os', ?_, ?_⟩
              · simp [parseLM, h3, h1]
              · subst hp
                refine .cons ⟨rfl, fun EI L => ⟨fun et => ?_, fun x => ?_⟩⟩ h2
                · rw [setEI_scale, getRef_scale]
                · exact stn_scale g l.load L x

/-- A mixed load matrix (with a negative factor) meets the hypotheses. -/
example : ∃ LM' ls, factorLM (-2 : ℚ) [⟨1, 1, [5]⟩, ⟨2, 5, [1, 2, 3]⟩, ⟨1, 6, [1, 2]⟩] = .ok LM' ∧
    parseLM [⟨1, 1, [5]⟩, ⟨2, 5, [1, 2, 3]⟩, ⟨1, 6, [(1 : ℚ), 2]⟩] = .ok ls ∧ ls.length = 3 :=
  ⟨_, _, rfl, rfl, rfl⟩

/-- Concatenating load matrices concatenates the parsed loads (errors in either
matrix are kept, the first one first). -/
theorem parseLM_append (LM1 LM2 : List (Row K)) :
    parseLM (addLM LM1 LM2) =
      match parseLM LM1 with
      | .error e => .error e
      | .ok l1 => match parseLM LM2 with
        | .error e => .error e
        | .ok l2 => .ok (l1 ++ l2) := by
  induction LM1 with
  | nil =>
    simp only [addLM, List.nil_append, parseLM]
    cases parseLM LM2 <;> rfl
  | cons r rs ih =>
    simp only [addLM, List.cons_append, parseLM] at ih ⊢
    rw [ih]
    cases parseRow r with
    | error e => rfl
    | ok o =>
      cases h1 : parseLM rs with
      | error e => rfl
      | ok l1 =>
        cases h2 : parseLM LM2 with
        | error e => rfl
        | ok l2 => cases o <;> rfl

/-! ## C06 -/

/-- **C06.** Load types agree where they overlap. -/
theorem C06_trapez_eq_pudl (w a c L : K) (hL : 0 < L) (hc : 0 < c)
    (hb : a + c ≤ L) :
    (∀ et, (Load.trapez w w a (some c)).getRef L et = (Load.pudl w a c).getRef L et) ∧
    (∀ x, (Load.trapez w w a (some c)).stn L x = (Load.pudl w a c).stn L x) := by
  have haL : a < L := by linarith
  have hr : resolveTrapez w w a (some c) L = (w, w, w - w, a, c) :=
    resolve_fit haL (by simpa using hc) (by simpa using hb)
  constructor
  · intro et
    have h1 : (Load.trapez w w a (some c)).getCnl L = (Load.pudl w a c).getCnl L := by
      simp only [Load.getCnl, hr, not_le.mpr hc, if_false]
      rw [if_neg (by linarith), if_neg (by linarith), pudlCnl_eq w a c L hL]
    simp only [Load.getRef, h1]
  · intro x
    simp only [Load.stn, hr, not_le.mpr hc, if_false, pudlStn_eq w a c L x hL]

theorem C06_pudl_full_eq_udl (w L : K) (hL : 0 < L) :
    (∀ et, (Load.pudl w 0 L).getRef L et = (Load.udl w).getRef L et) ∧
    (∀ x, 0 ≤ x → x ≤ L → (Load.pudl w 0 L).stn L x = (Load.udl w).stn L x) := by
  have hL0 : L ≠ 0 := hL.ne'
  constructor
  · intro et
    have h1 : (Load.pudl w 0 L).getCnl L = (Load.udl w).getCnl L := by
      simp only [Load.getCnl]
      rw [if_neg (not_lt.mpr hL.le), if_neg (by simp)]
      congr 2
      ext <;> simp only [pudlCnl, udlCnl] <;> field_simp <;> ring
    simp only [Load.getRef, h1]
  · intro x h0 h1
    have e1 : mb (x - 0) = x := by rw [sub_zero]; exact mb_of_nonneg h0
    have e2 : mb (x - (L + 0)) = 0 := mb_of_nonpos (by linarith)
    simp only [Load.stn, Option.some.injEq]
    ext <;> simp only [pudlStn, udlStn, e1, e2] <;> field_simp <;> ring

/-- Splitting a trapezoidal patch (in particular a partial UDL) into two abutting
pieces that follow the same intensity line leaves the total end forces unchanged. -/
theorem C06_split_trapez (w1 wm w2 a c1 c2 L : K) (hL : 0 < L) (h1 : 0 < c1)
    (h2 : 0 < c2) (hb : a + c1 + c2 ≤ L) (hw : (wm - w1) * (c1 + c2) = (w2 - w1) * c1)
    (et : EType) :
    ∃ f f1 f2, (Load.trapez w1 w2 a (some (c1 + c2))).getRef L et = .ok f ∧
      (Load.trapez w1 wm a (some c1)).getRef L et = .ok f1 ∧
      (Load.trapez wm w2 (a + c1) (some c2)).getRef L et = .ok f2 ∧ f = f1 + f2 := by
  have hr : resolveTrapez w1 w2 a (some (c1 + c2)) L = (w1, w2, w2 - w1, a, c1 + c2) :=
    resolve_fit (by linarith) (by simp; linarith) (by simp; linarith)
  have hr1 : resolveTrapez w1 wm a (some c1) L = (w1, wm, wm - w1, a, c1) :=
    resolve_fit (by linarith) (by simpa using h1) (by simp; linarith)
  have hr2 : resolveTrapez wm w2 (a + c1) (some c2) L = (wm, w2, w2 - wm, a + c1, c2) :=
    resolve_fit (by linarith) (by simpa using h2) (by simp; linarith)
  have h12 : 0 < c1 + c2 := by linarith
  refine ⟨_, _, _, by simp only [Load.getRef, Load.getCnl, hr, not_le.mpr h12, if_false]; rfl,
    by simp only [Load.getRef, Load.getCnl, hr1, not_le.mpr h1, if_false]; rfl,
    by simp only [Load.getRef, Load.getCnl, hr2, not_le.mpr h2, if_false]; rfl, ?_⟩
  rw [← releaseCnl_add]
  congr 1
  have hL0 : L ≠ 0 := hL.ne'
  have hc1 : c1 ≠ 0 := h1.ne'
  have hc2 : c2 ≠ 0 := h2.ne'
  have hc12 : c1 + c2 ≠ 0 := h12.ne'
  -- both slopes are multiples of one slope `s`
  obtain ⟨s, hs⟩ : ∃ s, s = (w2 - w1) / (c1 + c2) := ⟨_, rfl⟩
  have e2 : w2 = w1 + s * (c1 + c2) := by rw [hs]; field_simp; ring
  have em : wm = w1 + s * c1 := by
    have : (wm - w1) * (c1 + c2) = s * c1 * (c1 + c2) := by rw [hw, e2]; ring
    have := mul_right_cancel₀ hc12 this
    linear_combination this
  subst e2
  subst em
  ext <;> simp only [trapezCnl, CNL.add_def] <;> field_simp <;> ring

theorem C06_split_pudl (w a c1 c2 L : K) (hL : 0 < L) (h1 : 0 < c1)
    (h2 : 0 < c2) (hb : a + c1 + c2 ≤ L) (et : EType) :
    ∃ f f1 f2, (Load.pudl w a (c1 + c2)).getRef L et = .ok f ∧
      (Load.pudl w a c1).getRef L et = .ok f1 ∧
      (Load.pudl w (a + c1) c2).getRef L et = .ok f2 ∧ f = f1 + f2 := by
  have h := C06_split_trapez w w w a c1 c2 L hL h1 h2 hb (by ring) et
  rw [(C06_trapez_eq_pudl w a (c1 + c2) L hL (by linarith) (by linarith)).1,
    (C06_trapez_eq_pudl w a c1 L hL h1 (by linarith)).1,
    (C06_trapez_eq_pudl w (a + c1) c2 L hL h2 hb).1] at h
  exact h

example : ∃ f f1 f2, (Load.pudl (3 : ℚ) 1 5).getRef 10 .PF = .ok f ∧
    (Load.pudl (3 : ℚ) 1 2).getRef 10 .PF = .ok f1 ∧
    (Load.pudl (3 : ℚ) 3 3).getRef 10 .PF = .ok f2 ∧ f = f1 + f2 := by
  have := C06_split_pudl (3 : ℚ) 1 2 3 10 (by norm_num) (by norm_num) (by norm_num)
    (by norm_num) .PF
  norm_num at this ⊢
  exact this

/-! ## C07 -/

/-- The load seen from the other end of the span. -/
def Load.mirror (L : K) : Load K → Load K
  | .udl w => .udl w
  | .pl P a => .pl P (L - a)
  | .pudl w a c => .pudl w (L - a - c) c
  | .trapez w1 w2 a c => .trapez w2 w1 (L - a - c.getD (L - a)) (some (c.getD (L - a)))
  | .mamb Ma Mb => .mamb (-Mb) (-Ma)
  | .ml m a => .ml (-m) (L - a)
  | .ic k EI => .ic k EI

/-- End forces seen from the other end of the span. -/
def CNL.mirror (c : CNL K) : CNL K := ⟨c.Vb, -c.Mb, c.Va, -c.Ma⟩

/-- **C07.** Mirroring a load end-for-end exchanges the end shears and exchanges
the end moments with a change of sign. -/
theorem C07_mirror (ld : Load K) (L : K) (hL : 0 < L) (h : ld.OnSpan L)
    (hic : ∀ k EI, ld ≠ .ic k EI) :
    ∃ c, ld.getCnl L = .ok (.cnl c) ∧ (ld.mirror L).getCnl L = .ok (.cnl c.mirror) := by
  have hL0 : L ≠ 0 := hL.ne'
  cases ld with
  | udl w =>
    refine ⟨_, rfl, ?_⟩
    simp only [Load.mirror, Load.getCnl]
    congr 2
    ext <;> simp only [udlCnl, CNL.mirror] <;> ring
  | pl P a =>
    obtain ⟨h0, h1⟩ := h
    refine ⟨_, rfl, ?_⟩
    simp only [Load.mirror, Load.getCnl]
    congr 2
    ext <;> simp only [plCnl, CNL.mirror, max_eq_left (sub_nonneg.mpr h1), sub_sub_cancel,
      max_eq_left h0] <;> ring
  | pudl w a c =>
    obtain ⟨h0, h1, h2⟩ := h
    refine ⟨pudlCnl w a c L, ?_, ?_⟩
    · simp only [Load.getCnl]
      rw [if_neg (by linarith), if_neg (by linarith)]
    · simp only [Load.mirror, Load.getCnl]
      rw [if_neg (by linarith), if_neg (by linarith)]
      congr 2
      ext <;> simp only [pudlCnl, CNL.mirror] <;> field_simp <;> ring
  | trapez w1 w2 a c =>
    obtain ⟨h0, h2⟩ := h
    by_cases hv : L ≤ a ∨ c.getD (L - a) ≤ 0
    · refine ⟨⟨0, 0, 0, 0⟩, ?_, ?_⟩
      · simp [Load.getCnl, resolve_zero hv]
      · simp only [Load.mirror, Load.getCnl]
        have hv' : L ≤ L - a - c.getD (L - a) ∨ (some (c.getD (L - a))).getD
            (L - (L - a - c.getD (L - a))) ≤ 0 := by
          simp only [Option.getD_some]
          rcases hv with hv | hv
          · right
            cases c with
            | none => simpa using hv
            | some c' =>
              have := h2 c' rfl
              simp only [Option.getD_some]
              linarith
          · exact Or.inr hv
        rw [resolve_zero hv']
        simp [CNL.mirror]
    · push Not at hv
      obtain ⟨h1, h3⟩ := hv
      have hb : a + c.getD (L - a) ≤ L := by
        cases c with
        | none => simp
        | some c' => simpa using h2 c' rfl
      set c0 := c.getD (L - a) with hc0
      have hr : resolveTrapez w1 w2 a c L = (w1, w2, w2 - w1, a, c0) := resolve_fit h1 h3 hb
      have hr' : resolveTrapez w2 w1 (L - a - c0) (some c0) L
          = (w2, w1, w1 - w2, L - a - c0, c0) :=
        resolve_fit (by linarith) (by simpa using h3) (by simp; linarith)
      refine ⟨trapezCnl w1 w2 (w2 - w1) a c0 L, ?_, ?_⟩
      · simp only [Load.getCnl, hr, not_le.mpr h3, if_false]
      · simp only [Load.mirror, ← hc0, Load.getCnl, hr', not_le.mpr h3, if_false]
        have hc00 : c0 ≠ 0 := h3.ne'
        congr 2
        ext <;> simp only [trapezCnl, CNL.mirror] <;> field_simp <;> ring
  | mamb Ma Mb =>
    refine ⟨_, rfl, ?_⟩
    simp only [Load.mirror, Load.getCnl]
    congr 2
    ext <;> simp only [mambCnl, CNL.mirror] <;> ring
  | ml m a =>
    refine ⟨_, rfl, ?_⟩
    simp only [Load.mirror, Load.getCnl]
    congr 2
    ext <;> simp only [mlCnl, CNL.mirror, sub_sub_cancel] <;> ring
  | ic k EI => exact absurd rfl (hic k EI)

example : (Load.trapez (3 : ℚ) 7 4 (some 5)).OnSpan 10 := by norm_num [Load.OnSpan]

/-! ## C08 -/

/-- **C08** for trapezoidal loads: the part past the right end has no effect on
end forces or diagrams, and a load past the end has none at all. -/
theorem C08_trapez_overhang (w1 w2 a c L : K) (hc : 0 < c) :
    (a < L → L < a + c → ∀ w', w' = w1 + (w2 - w1) * ((L - a) / c) →
      (∀ et, (Load.trapez w1 w2 a (some c)).getRef L et
        = (Load.trapez w1 w' a (some (L - a))).getRef L et) ∧
      ∀ x, (Load.trapez w1 w2 a (some c)).stn L x
        = (Load.trapez w1 w' a (some (L - a))).stn L x) ∧
    (L ≤ a → (∀ et, (Load.trapez w1 w2 a (some c)).getRef L et = .ok ⟨0, 0, 0, 0⟩) ∧
      ∀ x, (Load.trapez w1 w2 a (some c)).stn L x = some ⟨0, 0, 0, 0⟩) := by
  constructor
  · intro haL hb w' hw'
    have hLa : 0 < L - a := by linarith
    have hr := resolve_clip (w1 := w1) (w2 := w2) (c := some c) haL (by simpa using hc)
      (by simpa using hb)
    have hr' : resolveTrapez w1 w' a (some (L - a)) L = (w1, w', w' - w1, a, L - a) :=
      resolve_fit haL (by simpa using hLa) (by simp)
    have hww : w1 + (w2 - w1) * (L - a) / (some c).getD (L - a) = w' := by
      rw [hw', Option.getD_some]
      ring
    rw [hww] at hr
    constructor
    · intro et
      simp only [Load.getRef, Load.getCnl, hr, hr']
    · intro x
      simp only [Load.stn, hr, hr']
  · intro hLa
    have hr := resolve_zero (w1 := w1) (w2 := w2) (a := a) (L := L) (c := some c) (Or.inl hLa)
    constructor
    · intro et
      simp only [Load.getRef, Load.getCnl, hr, le_refl, if_true]
      cases et <;> simp [releaseCnl]
    · intro x
      simp only [Load.stn, hr, le_refl, if_true]

/-- **C08** for partial UDLs, end forces of a load starting on the span.  Missing
from the full claim: the span diagrams (`C08_pudl_diagram_violation`) and loads
starting past the end (`C08_pudl_offspan_raises`). -/
theorem C08_pudl_overhang_forces_partial (w a c L : K) (haL : a ≤ L)
    (hb : L < a + c) (et : EType) :
    (Load.pudl w a c).getRef L et = (Load.pudl w a (L - a)).getRef L et := by
  have h1 : (Load.pudl w a c).getCnl L = (Load.pudl w a (L - a)).getCnl L := by
    simp only [Load.getCnl]
    rw [if_neg (not_lt.mpr haL), if_neg (not_lt.mpr haL), if_pos (by linarith),
      if_neg (by simp)]
    have : c + (L - (a + c)) = L - a := by ring
    rw [this]
  simp only [Load.getRef, h1]

/-- **C08 fails**: a partial UDL starting past the end of its span does not have
"no effect": asking for its end forces raises `AttributeError`. -/
theorem C08_pudl_offspan_raises (w a c L : K) (h : L < a) (et : EType) :
    (Load.pudl w a c).getRef L et = .error .attributeError := by
  simp [Load.getRef, Load.getCnl, h]

/-- **C08 fails** for the span diagrams of an overhanging partial UDL: a UDL of 12
from 5 to 15 on a span of 10 acts, by its end forces, like the patch 5 to 10, but
its simply supported diagram is that of another load: the moment at the right
support is not zero, and differs from the on-span part's everywhere inside. -/
theorem C08_pudl_diagram_violation :
    (Load.pudl (12 : ℚ) 5 10).getRef 10 .FF = (Load.pudl 12 5 5).getRef 10 .FF ∧
    ((Load.pudl (12 : ℚ) 5 10).ss 10 10).M = -150 ∧
    ((Load.pudl (12 : ℚ) 5 5).ss 10 10).M = 0 ∧
    ∀ x : ℚ, 0 < x → x < 10 →
      ((Load.pudl (12 : ℚ) 5 10).ss 10 x).M ≠ ((Load.pudl (12 : ℚ) 5 5).ss 10 x).M := by
  refine ⟨?_, ?_, ?_, ?_⟩
  · have := C08_pudl_overhang_forces_partial (12 : ℚ) 5 10 10 (by norm_num) (by norm_num) .FF
    norm_num at this
    exact this
  · norm_num [Load.ss, Load.stn, pudlStn, mb]
  · norm_num [Load.ss, Load.stn, pudlStn, mb]
  · intro x h0 h1 h
    simp only [Load.ss, Load.stn, pudlStn] at h
    rw [mb_of_nonpos (by linarith : x - (10 + 5) ≤ 0),
      mb_of_nonpos (by linarith : x - (5 + 5) ≤ 0)] at h
    linarith

end field

end PyCBA
