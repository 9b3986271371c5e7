import Verif.Results.Linear

/-!
C47 and C48: the order of the rows of a load matrix, where each row acts, and rows that have
no effect.
-/

set_option linter.unusedSectionVars false
set_option linter.unusedSimpArgs false

namespace PyCBA

open Matrix

variable {K : Type*} [Field K] [LinearOrder K] [IsStrictOrderedRing K]

/-! ## Order -/

theorem parseLM_perm {LM LM' : List (Row K)} (hp : LM.Perm LM') (ls : List (SpanLoad K))
    (h : parseLM LM = .ok ls) : ∃ ls', parseLM LM' = .ok ls' ∧ ls.Perm ls' := by
  induction hp generalizing ls with
  | nil => cases h; exact ⟨[], rfl, List.Perm.refl _⟩
  | cons r hp ih =>
    simp only [parseLM] at h ⊢
    cases hr : parseRow r with
    | error e => rw [hr] at h; cases h
    | ok o =>
      rw [hr] at h
      simp only at h ⊢
      split at h
      · cases h
      · rename_i rest hrest
        obtain ⟨ls', h1, h2⟩ := ih _ hrest
        rw [h1]
        cases o with
        | none => cases h; exact ⟨ls', rfl, h2⟩
        | some l => cases h; exact ⟨l :: ls', rfl, h2.cons l⟩
  | swap r r' l =>
    simp only [parseLM] at h ⊢
    cases hr : parseRow r with
    | error e =>
      rw [hr] at h
      cases hr' : parseRow r' with
      | error e' => rw [hr'] at h; cases h
      | ok o' => rw [hr'] at h; cases h
    | ok o =>
      cases hr' : parseRow r' with
      | error e' => rw [hr'] at h; cases h
      | ok o' =>
        rw [hr, hr'] at h
        cases hl : parseLM l with
        | error e => rw [hl] at h; cases o <;> cases o' <;> cases h
        | ok rest =>
          rw [hl] at h
          cases o <;> cases o' <;> cases h <;>
            first
            | exact ⟨_, rfl, List.Perm.refl _⟩
            | exact ⟨_, rfl, List.Perm.swap _ _ _⟩
  | trans _ _ ih1 ih2 =>
    obtain ⟨l1, h1, p1⟩ := ih1 _ h
    obtain ⟨l2, h2, p2⟩ := ih2 _ h1
    exact ⟨l2, h2, p1.trans p2⟩

theorem BeamDef.setLoads_perm (b : BeamDef K) {LM' : List (Row K)} (hp : b.LM.Perm LM')
    (ls : List (SpanLoad K)) (h : b.setLoads = .ok ls) :
    ∃ ls', ({ b with LM := LM' } : BeamDef K).setLoads = .ok ls' ∧ ls.Perm ls' := by
  unfold BeamDef.setLoads at h ⊢
  cases e : parseLM b.LM with
  | error e' => rw [e] at h; cases h
  | ok x =>
    rw [e] at h
    obtain ⟨ls', h1, h2⟩ := parseLM_perm hp x e
    simp only [h1] at h ⊢
    split at h
    · rename_i hall
      cases h
      rw [← h2.all_eq, if_pos hall]
      exact ⟨ls', rfl, h2⟩
    · cases h

theorem Member.refSum_perm (m : Member K) (i : ℕ) {ls ls' : List (SpanLoad K)} (hp : ls.Perm ls')
    (c : CNL K) (h : m.refSum i ls = .ok c) : m.refSum i ls' = .ok c := by
  induction hp generalizing c with
  | nil => exact h
  | cons l hp ih =>
    simp only [Member.refSum] at h ⊢
    split_ifs at h ⊢ with hl
    · cases hr : m.ref l.load with
      | error e => rw [hr] at h; cases h
      | ok r =>
        rw [hr] at h
        simp only at h ⊢
        split at h
        · cases h
        · rename_i t ht
          rw [ih t ht]
          exact h
    · exact ih c h
  | swap l l' ls =>
    simp only [Member.refSum] at h ⊢
    split_ifs at h ⊢ with h1 h2 h2
    · cases hr' : m.ref l'.load with
      | error e => rw [hr'] at h; cases h
      | ok r' =>
        cases hr : m.ref l.load with
        | error e => rw [hr', hr] at h; cases h
        | ok r =>
          cases ht : m.refSum i ls with
          | error e => rw [hr', hr, ht] at h; cases h
          | ok t =>
            rw [hr', hr, ht] at h
            simp only [Except.ok.injEq] at h ⊢
            rw [← h]
            simp only [CNL.mk.injEq]
            refine ⟨?_, ?_, ?_, ?_⟩ <;> ring
    · exact h
    · exact h
    · exact h
  | trans _ _ ih1 ih2 => exact ih2 c (ih1 c h)

theorem mapE_mono {α β : Type*} {f g : α → Except PyErr β} {l : List α} {r : List β}
    (h : mapE f l = .ok r) (hfg : ∀ a ∈ l, ∀ b, f a = .ok b → g a = .ok b) :
    mapE g l = .ok r := by
  induction l generalizing r with
  | nil => exact h
  | cons a l ih =>
    simp only [mapE] at h ⊢
    cases hf : f a with
    | error e => rw [hf] at h; cases h
    | ok b =>
      rw [hf] at h
      rw [hfg a List.mem_cons_self b hf]
      simp only at h ⊢
      cases hm : mapE f l with
      | error e => rw [hm] at h; cases h
      | ok bs =>
        rw [hm] at h
        rw [ih hm fun x hx => hfg x (List.mem_cons_of_mem _ hx)]
        exact h

theorem BeamDef.system_perm (b : BeamDef K) {LM' : List (Row K)} (hp : b.LM.Perm LM')
    (s : System K) (h : b.system = .ok s) :
    ({ b with LM := LM' } : BeamDef K).system = .ok s := by
  unfold BeamDef.system at h ⊢
  cases hls : b.setLoads with
  | error e => rw [hls] at h; cases h
  | ok ls =>
    obtain ⟨ls', h1, h2⟩ := b.setLoads_perm hp ls hls
    rw [hls] at h
    rw [h1]
    simp only at h ⊢
    cases hm : mapE (fun mi : Member K × ℕ => mi.1.refSum mi.2 ls) b.members.zipIdx with
    | error e => rw [hm] at h; cases h
    | ok refs =>
      rw [hm] at h
      rw [mapE_mono hm fun mi _ c hc => mi.1.refSum_perm mi.2 h2 c hc]
      exact h

theorem mapE_perm {α β : Type*} {f : α → Except PyErr β} {l l' : List α} (hp : l.Perm l')
    (r : List β) (h : mapE f l = .ok r) : ∃ r', mapE f l' = .ok r' ∧ r.Perm r' := by
  induction hp generalizing r with
  | nil => cases h; exact ⟨[], rfl, List.Perm.refl _⟩
  | cons a hp ih =>
    simp only [mapE] at h ⊢
    cases hf : f a with
    | error e => rw [hf] at h; cases h
    | ok b =>
      rw [hf] at h
      simp only at h ⊢
      split at h
      · cases h
      · rename_i bs hbs
        cases h
        obtain ⟨r', h1, h2⟩ := ih bs hbs
        rw [h1]
        exact ⟨_, rfl, h2.cons b⟩
  | swap a a' l =>
    simp only [mapE] at h ⊢
    cases hf' : f a' with
    | error e => rw [hf'] at h; cases h
    | ok b' =>
      cases hf : f a with
      | error e => rw [hf', hf] at h; cases h
      | ok b =>
        cases hl : mapE f l with
        | error e => rw [hf', hf, hl] at h; cases h
        | ok bs =>
          rw [hf', hf, hl] at h
          cases h
          exact ⟨_, rfl, List.Perm.swap _ _ _⟩
  | trans _ _ ih1 ih2 =>
    obtain ⟨l1, h1, p1⟩ := ih1 _ h
    obtain ⟨l2, h2, p2⟩ := ih2 _ h1
    exact ⟨l2, h2, p1.trans p2⟩

/-- Reordering a member's own loads changes none of its results. -/
theorem MCtx.result_perm (c : MCtx K) {own' : List (Load K)} (hp : c.own.Perm own') :
    ({ c with own := own' } : MCtx K).result = c.result := by
  set c' : MCtx K := { c with own := own' } with hc'
  have hM : c'.M = c.M := by
    funext k
    unfold MCtx.M
    have := ((hp.map fun l => l.ssM c.m.L (c.x k)).sum_eq).symm
    show (if c.IsEnd k then 0
      else (mambStn (c.f 1) (c.f 3) c.m.L (c.x k)).M + (own'.map fun l => l.ssM c.m.L (c.x k)).sum) = _
    rw [this]
  have hV : c'.V = c.V := by
    funext k
    unfold MCtx.V
    have := ((hp.map fun l => l.ssV c.m.L (c.x k)).sum_eq).symm
    show (if c.IsEnd k then 0
      else (mambStn (c.f 1) (c.f 3) c.m.L (c.x k)).V + (own'.map fun l => l.ssV c.m.L (c.x k)).sum) = _
    rw [this]
  have hk : c'.kappa = c.kappa := by
    funext k
    unfold MCtx.kappa
    exact ((hp.map fun l => l.kappaImp (c.x k)).sum_eq).symm
  have hcurv : c'.curv = c.curv := by
    funext k
    unfold MCtx.curv
    rw [hM, hk]
    rfl
  have hg : c'.gamma = c.gamma := by
    funext k
    unfold MCtx.gamma
    rw [hV]
    rfl
  have hu : c'.useBc = c.useBc := by
    unfold MCtx.useBc
    rw [hk]
    rfl
  have h1 : c'.psiProv = c.psiProv := by
    unfold MCtx.psiProv
    rw [hcurv]
    rfl
  have h2 : c'.Dprov = c.Dprov := by
    unfold MCtx.Dprov
    rw [h1, hg]
    rfl
  have h3 : c'.psiBc = c.psiBc := by
    unfold MCtx.psiBc
    rw [h2]
    rfl
  have h4 : c'.psi0 = c.psi0 := by
    unfold MCtx.psi0
    rw [hu, h3]
    rfl
  have h5 : c'.psi = c.psi := by
    funext k
    unfold MCtx.psi
    rw [h1, h4]
  have h6 : c'.defl = c.defl := by
    funext k
    unfold MCtx.defl
    rw [h5, hg]
    rfl
  have hR : c'.R = c.R := by
    funext k
    unfold MCtx.R
    rw [h5]
    have := ((hp.map fun l => (l.ssRD c.m.L c.n c.x k).1).sum_eq).symm
    show (if c.IsEnd k then (mambStn (c.f 1) (c.f 3) c.m.L (c.x k)).R +
        (own'.map fun l => (l.ssRD c.m.L c.n c.x k).1).sum
      else c.psi (k - 1)) = _
    rw [this]
  have hD : c'.D = c.D := by
    funext k
    unfold MCtx.D
    rw [h6]
    have := ((hp.map fun l => (l.ssRD c.m.L c.n c.x k).2).sum_eq).symm
    show (if c.IsEnd k then (mambStn (c.f 1) (c.f 3) c.m.L (c.x k)).D +
        (own'.map fun l => (l.ssRD c.m.L c.n c.x k).2).sum
      else c.defl (k - 1)) = _
    rw [this]
  unfold MCtx.result
  rw [hM, hV, hR, hD]
  rfl

theorem Member.values_perm (m : Member K) (i : ℕ) {ls ls' : List (SpanLoad K)} (hp : ls.Perm ls')
    (f d : Vec4 K) (npts : ℕ) (sp : List K) (r : MRes K)
    (h : m.values i ls f d npts sp = .ok r) : m.values i ls' f d npts sp = .ok r := by
  have hown : (ownLoads i ls).Perm (ownLoads i ls') := (hp.filter _).map _
  unfold Member.values Member.ctx at h ⊢
  cases hc : mapE m.cnl (ownLoads i ls) with
  | error e => rw [hc] at h; cases h
  | ok cs =>
    rw [hc] at h
    obtain ⟨cs', h1, h2⟩ := mapE_perm hown cs hc
    rw [h1]
    simp only [Except.ok.injEq] at h ⊢
    rw [← h, ← (h2.map CNL.Ma).sum_eq, ← (h2.map CNL.Mb).sum_eq]
    exact MCtx.result_perm ⟨m, ownLoads i ls, f, d, npts, sp, _, _⟩ hown

/-- **C47**, order — reordering the rows of a load matrix changes nothing: the analysis gives
the same displacements, reactions, spring forces and end forces, and the members the same
arrays. -/
theorem C47_order (b : BeamDef K) (LM' : List (Row K)) (hp : b.LM.Perm LM')
    (stable : System K → Bool) (solve : Solver K) (res : Result K) (npts : ℕ) (sp : ℕ → List K)
    (rs : List (MRes K)) (h : b.analyze stable solve = .ok res)
    (hr : b.memberResults res npts sp = .ok rs) :
    ({ b with LM := LM' } : BeamDef K).analyze stable solve = .ok res ∧
      ({ b with LM := LM' } : BeamDef K).memberResults res npts sp = .ok rs := by
  constructor
  · unfold BeamDef.analyze at h ⊢
    cases hs : b.system with
    | error e => rw [hs] at h; cases h
    | ok s =>
      rw [hs] at h
      rw [b.system_perm hp s hs]
      exact h
  · unfold BeamDef.memberResults at hr ⊢
    cases hls : b.setLoads with
    | error e => rw [hls] at hr; cases hr
    | ok ls =>
      obtain ⟨ls', h1, h2⟩ := b.setLoads_perm hp ls hls
      rw [hls] at hr
      rw [h1]
      refine mapE_mono hr fun mi _ r hmi => ?_
      cases hv : mi.1.values mi.2 ls (res.fmbr mi.2) (elemVec res.d mi.2) npts (sp mi.2) with
      | error e => rw [hv] at hmi; cases hmi
      | ok v =>
        rw [hv] at hmi
        rw [mi.1.values_perm mi.2 h2 _ _ _ _ v hv]
        exact hmi

/-! ## Where a row acts -/

theorem Member.refSum_other (m : Member K) (i : ℕ) (ls : List (SpanLoad K)) (l : SpanLoad K)
    (hl : l.iSpan ≠ (i : ℤ)) : m.refSum i (ls ++ [l]) = m.refSum i ls := by
  induction ls with
  | nil => simp [Member.refSum, hl]
  | cons a ls ih => simp only [List.cons_append, Member.refSum, ih]

theorem parseRow_span {r : Row K} {l : SpanLoad K} (h : parseRow r = .ok (some l)) :
    l.iSpan = r.span - 1 := by
  unfold parseRow at h
  simp only at h
  repeat' split at h
  all_goals (cases h <;> rfl)

/-- The fixed-end forces with one more row: other spans keep theirs, the row's own span gets
those of its load added. -/
theorem BeamDef.system_snoc (b : BeamDef K) (r : Row K) (s s' : System K) (h : b.system = .ok s)
    (h' : ({ b with LM := b.LM ++ [r] } : BeamDef K).system = .ok s') :
    s'.n = s.n ∧ (∃ o, parseRow r = .ok o ∧
      (∀ i < s.n, ((i : ℤ) + 1 ≠ r.span ∨ o = none) → s'.ref i = s.ref i) ∧
      ∀ l, o = some l → ∀ i (hi : i < b.members.length), (i : ℤ) + 1 = r.span →
        ∃ c, b.members[i].ref l.load = .ok c ∧ s'.ref i = s.ref i + c.vec) := by
  obtain ⟨n1, -, ⟨ls, hls, hr⟩, -⟩ := b.system_ok h
  obtain ⟨n2, -, ⟨ls', hls', hr'⟩, -⟩ := BeamDef.system_ok h'
  simp only at n2 hr'
  refine ⟨by rw [n1, n2], ?_⟩
  have hp : parseLM b.LM = .ok ls := by
    unfold BeamDef.setLoads at hls
    split at hls
    · cases hls
    · split at hls
      · cases hls; assumption
      · cases hls
  have hp' : parseLM (b.LM ++ [r]) = .ok ls' := by
    unfold BeamDef.setLoads at hls'
    split at hls'
    · cases hls'
    · split at hls'
      · cases hls'; assumption
      · cases hls'
  have happ := parseLM_append b.LM [r]
  rw [show addLM b.LM [r] = b.LM ++ [r] from rfl, hp', hp] at happ
  simp only [parseLM] at happ
  cases ho : parseRow r with
  | error e => rw [ho] at happ; cases happ
  | ok o =>
    rw [ho] at happ
    refine ⟨o, rfl, ?_, ?_⟩
    · intro i hi hio
      obtain ⟨c, hc, e⟩ := hr i (by omega)
      obtain ⟨c', hc', e'⟩ := hr' i (by omega)
      rw [e, e']
      congr 1
      cases o with
      | none =>
        simp only [List.append_nil, Except.ok.injEq] at happ
        rw [happ, hc] at hc'
        cases hc'
        rfl
      | some l =>
        simp only [Except.ok.injEq] at happ
        rw [happ, Member.refSum_other _ _ _ _ (by
          have := parseRow_span ho
          rcases hio with h | h
          · omega
          · cases h), hc] at hc'
        cases hc'
        rfl
    · rintro l rfl i hi hspan
      simp only [Except.ok.injEq] at happ
      obtain ⟨c, hc, e⟩ := hr i hi
      obtain ⟨c', hc', e'⟩ := hr' i hi
      have hl : l.iSpan = (i : ℤ) := by
        have := parseRow_span ho
        omega
      rw [happ] at hc'
      cases hlr : b.members[i].ref l.load with
      | error er =>
        exfalso
        have : ∀ ls : List (SpanLoad K), ∀ c, b.members[i].refSum i (ls ++ [l]) ≠ .ok c := by
          intro ls
          induction ls with
          | nil => intro c; simp [Member.refSum, hl, hlr]
          | cons a ls ih =>
            intro c hcc
            simp only [List.cons_append, Member.refSum] at hcc
            split_ifs at hcc
            · split at hcc
              · cases hcc
              · split at hcc
                · cases hcc
                · rename_i t ht
                  exact ih t ht
            · exact ih c hcc
        exact this _ _ hc'
      | ok x =>
        refine ⟨x, rfl, ?_⟩
        have h1 : b.members[i].refSum i [l] = .ok x := by
          simp [Member.refSum, hl, hlr]
        have := b.members[i].refSum_append i ls [l] c x hc h1
        rw [this] at hc'
        cases hc'
        rw [e, e']
        funext p
        fin_cases p <;> rfl

/-- **C47**, place — a row changes the nodal loads only at the four degrees of freedom of the
ends of its own span. -/
theorem C47_place (b : BeamDef K) (r : Row K) (s s' : System K) (h : b.system = .ok s)
    (h' : ({ b with LM := b.LM ++ [r] } : BeamDef K).system = .ok s') (p : ℕ)
    (hp : ∀ i : ℕ, (i : ℤ) + 1 = r.span → ¬ (2 * i ≤ p ∧ p < 2 * i + 4)) :
    s'.forces p = s.forces p := by
  obtain ⟨hn, o, ho, h1, -⟩ := b.system_snoc r s s' h h'
  rw [System.forces_eq, System.forces_eq, hn]
  congr 1
  apply Finset.sum_congr rfl
  intro i hi
  by_cases hs : (i : ℤ) + 1 = r.span
  · unfold blockVec
    rw [dif_neg (hp i hs), dif_neg (hp i hs)]
  · rw [h1 i (Finset.mem_range.1 hi) (Or.inl hs)]

/-! ## C48 -/

/-- **C48**, partial — a row of a known type (1 to 6) on a span of the beam adds the fixed-end
forces of its load, or the analysis raises.  Missing: unknown types and spans outside the
beam, which are ignored without an error (the two violations below). -/
theorem C48_row_counts_partial (b : BeamDef K) (r : Row K) (s : System K) (h : b.system = .ok s)
    (i : ℕ) (hi : i < b.members.length) (hspan : (i : ℤ) + 1 = r.span)
    (ht : 1 ≤ r.ltype ∧ r.ltype ≤ 6) :
    (∃ e, ({ b with LM := b.LM ++ [r] } : BeamDef K).system = .error e) ∨
    ∃ s' l c, ({ b with LM := b.LM ++ [r] } : BeamDef K).system = .ok s' ∧
      parseRow r = .ok (some l) ∧ b.members[i].ref l.load = .ok c ∧
      s'.ref i = s.ref i + c.vec := by
  cases hs : ({ b with LM := b.LM ++ [r] } : BeamDef K).system with
  | error e => exact Or.inl ⟨e, rfl⟩
  | ok s' =>
    right
    obtain ⟨hn, o, ho, -, h2⟩ := b.system_snoc r s s' h hs
    cases o with
    | none =>
      exfalso
      unfold parseRow at ho
      simp only at ho
      split_ifs at ho
      · split at ho <;> cases ho
      · split at ho <;> cases ho
      · split at ho <;> cases ho
      · split at ho <;> cases ho
      · split at ho <;> cases ho
      · cases ho
      · omega
    | some l =>
      obtain ⟨c, hc, e⟩ := h2 l rfl i hi hspan
      exact ⟨s', l, c, rfl, ho, hc, e⟩

/-- **C48 fails** for a load type that does not exist: a row of type 7 is analysed without an
error, and the equations are those of the unloaded beam. -/
theorem C48_unknown_type_violation :
    ∃ (b : BeamDef ℚ) (r : Row ℚ) (s : System ℚ), r.span = 1 ∧ b.members.length = 1 ∧
      b.system = .ok s ∧ ({ b with LM := b.LM ++ [r] } : BeamDef ℚ).system = .ok s :=
  ⟨exSimple none none [], ⟨1, 7, [12]⟩, _, rfl, rfl, rfl, rfl⟩

/-- **C48 fails** for a span outside the beam: a load on span 2 of a single-span beam is
analysed without an error, and the equations are those of the unloaded beam. -/
theorem C48_span_violation :
    ∃ (b : BeamDef ℚ) (r : Row ℚ) (l : SpanLoad ℚ) (s : System ℚ), r.span = 2 ∧
      b.members.length = 1 ∧ parseRow r = .ok (some l) ∧
      b.system = .ok s ∧ ({ b with LM := b.LM ++ [r] } : BeamDef ℚ).system = .ok s :=
  ⟨exSimple none none [], ⟨2, 1, [12]⟩, ⟨1, .udl 12⟩, _, rfl, rfl, rfl, rfl, rfl⟩

/-- The hypotheses of `C47_order` are met by a propped cantilever with two rows. -/
example : ∃ res rs, let b := exBeam (-1) none [⟨1, 1, [12]⟩, ⟨1, 4, [0, 1]⟩]
    b.analyze (fun _ => true) (trySolver fun p => [0, 0, 0, 1 / 3].getD p 0) = .ok res ∧
      b.memberResults res 4 (fun _ => []) = .ok rs := by
  obtain ⟨r, h1, -⟩ := ok_of_map
    (x := exResults (exBeam (-1) none [⟨1, 1, [12]⟩, ⟨1, 4, [0, 1]⟩]) [0, 0, 0, 1 / 3] 4)
    (f := fun r => r.2.length) (y := 1) (by decide +kernel)
  obtain ⟨h3, h4⟩ := exResults_ok h1
  exact ⟨r.1, r.2, h3, h4⟩

/-- C47 and C48 at work: two loads on a simple span, in either order, and the row's effect. -/
example : ∃ s, (exSimple none none [⟨1, 1, [12]⟩, ⟨1, 2, [5, 1]⟩]).system = .ok s ∧
    (exSimple none none [⟨1, 2, [5, 1]⟩, ⟨1, 1, [12]⟩]).system = .ok s :=
  have ⟨s, hs⟩ : ∃ s, (exSimple none none [⟨1, 1, [12]⟩, ⟨1, 2, [5, 1]⟩]).system = .ok s :=
    ⟨_, rfl⟩
  ⟨s, hs, BeamDef.system_perm (exSimple none none [⟨1, 1, [12]⟩, ⟨1, 2, [5, 1]⟩])
    (List.Perm.swap _ _ _) s hs⟩

end PyCBA
