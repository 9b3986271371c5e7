import Verif.Analysis.Stability

set_option linter.unusedSectionVars false
set_option linter.unusedSimpArgs false

/-!
`BeamAnalysis` as an object with state (`analysis.py` 174-206, 408-466, 563-586)
together with the mutable parts of `Beam` (`beam.py` 192-243, 277-323, 346-421):
stored results (C25) and the cached stability verdict (C26).
-/

namespace PyCBA

open Matrix Finset

variable {K : Type*} [Field K] [LinearOrder K] [IsStrictOrderedRing K]

/-! ### Model -/

/-- The state of a `BeamAnalysis` object and its beam.  `n0` is the number of
members at construction (`analysis.py` 201; it is not updated), `version` is
`Beam._structure_version`, `checked` is `_checked_version`, `results` is
`_beam_results`. -/
structure AState (K R : Type*) where
  n0 : ℕ
  beam : BeamDef K
  version : ℕ
  npts : ℕ
  checked : Option ℕ
  results : Option R

/-- What the caller of a `BeamAnalysis` can do.  `setR`, `setD`, `setLoads`,
`addLoad` and `addSpan` are the setters and methods of `Beam`; `valid` is the
outcome of `validate_length` for a non-prismatic section.  `writeR i v` is the
assignment `ba.beam.restraints[i] = v`, which changes the list in place. -/
inductive AOp (K : Type*) where
  | setLoads (LM : List (Row K))
  | addLoad (row : Row K)
  | setR (r : List K)
  | setD (d : List (Option K))
  | addSpan (m : Member K) (valid : Bool)
  | writeR (i : ℕ) (v : K)
  | analyze (npts : Option ℕ) (check : Bool)
  | isStable

variable {R : Type*}

/-- The beam an analysis works on: the members known at construction. -/
def AState.current (st : AState K R) : BeamDef K :=
  { st.beam with members := st.beam.members.take st.n0 }

/-- The same without loads, as used by `is_stable` and `_assemble`. -/
def AState.structure (st : AState K R) : BeamDef K := { st.current with LM := [] }

/-- The outside world: `np.linalg.solve`, `np.linalg.eigvalsh` and the
construction of `BeamResults` (which may raise). -/
structure Env (K R : Type*) where
  solve : Solver K
  eigs : Eigvalsh K
  results : BeamDef K → Result K → ℕ → Except PyErr R

/-- `if npts and npts > 3: self.npts = npts`, `analysis.py` 444-445. -/
def effNpts (old : ℕ) : Option ℕ → ℕ
  | some p => if 3 < p then p else old
  | none => old

/-- `BeamAnalysis.analyze`, `analysis.py` 444-467.  If members were added to the
beam after construction, `BeamResults` raises (a member without displacements,
`results.py` 135-141). -/
def AState.analyze (st : AState K R) (env : Env K R) (npts : Option ℕ) (check : Bool) :
    AState K R × Except PyErr Unit :=
  let st := { st with npts := effNpts st.npts npts }
  match st.current.system with
  | .error e => (st, .error e)
  | .ok s =>
    if s.validate s.forces then
      if check ∧ st.checked ≠ some st.version ∧ ¬ s.checkStability env.eigs then
        (st, .error .valueError)
      else
        let st := if check then { st with checked := some st.version } else st
        match s.analyze env.solve with
        | .error e => (st, .error e)
        | .ok res =>
          if st.beam.members.length ≠ st.n0 then (st, .error .valueError)
          else match env.results st.current res st.npts with
            | .error e => (st, .error e)
            | .ok r => ({ st with results := some r }, .ok ())
    else (st, .error .valueError)

/-- `BeamAnalysis.is_stable`, `analysis.py` 579-586 (a `ValueError` of the check is
turned into `False`; other errors of `_assemble` propagate). -/
def AState.isStable (st : AState K R) (env : Env K R) : AState K R × Except PyErr Unit :=
  match st.structure.system with
  | .error e => (st, .error e)
  | .ok s =>
    if s.checkStability env.eigs then ({ st with checked := some st.version }, .ok ())
    else (st, .ok ())

/-- One call. -/
def AState.step (env : Env K R) (st : AState K R) : AOp K → AState K R × Except PyErr Unit
  | .setLoads LM => ({ st with beam := { st.beam with LM := LM } }, .ok ())
  | .addLoad row => ({ st with beam := { st.beam with LM := st.beam.LM ++ [row] } }, .ok ())
  | .setR r => ({ st with beam := { st.beam with restraints := r }, version := st.version + 1 },
      .ok ())
  | .setD d =>
    if d.length ≠ st.beam.restraints.length then (st, .error .valueError)
    else ({ st with beam := { st.beam with presc := d }, version := st.version + 1 }, .ok ())
  | .addSpan m valid =>
    if valid then
      ({ st with beam := { st.beam with members := st.beam.members ++ [m] },
                 version := st.version + 1 }, .ok ())
    else (st, .error .valueError)
  | .writeR i v =>
    if i < st.beam.restraints.length then
      ({ st with beam := { st.beam with restraints := st.beam.restraints.set i v } }, .ok ())
    else (st, .error .indexError)
  | .analyze npts check => st.analyze env npts check
  | .isStable => st.isStable env

/-- A history of calls; exceptions are caught by the caller, who goes on. -/
def AState.run (env : Env K R) (st : AState K R) (ops : List (AOp K)) : AState K R :=
  ops.foldl (fun st op => (st.step env op).1) st

/-- A new `BeamAnalysis` (`analysis.py` 174-206): `add_span` was called once per
member, restraints and displacements are stored directly. -/
def AState.new (b : BeamDef K) : AState K R :=
  ⟨b.members.length, b, b.members.length, 100, none, none⟩

/-! ## C25 -/

/-- What a completed call of `analyze` in state `st` must have stored: the results
object made from the analysis of the current beam. -/
def AState.Completes (st : AState K R) (env : Env K R) (npts : Option ℕ) (r : R) : Prop :=
  ∃ res, st.beam.analyze (fun _ => true) env.solve = .ok res ∧
    env.results st.beam res (effNpts st.npts npts) = .ok r

theorem AState.analyze_results (st : AState K R) (env : Env K R) (npts : Option ℕ) (check : Bool) :
    ((st.analyze env npts check).2 = .ok () ∧
      ∃ r, (st.analyze env npts check).1.results = some r ∧ st.Completes env npts r) ∨
    ((∃ e, (st.analyze env npts check).2 = .error e) ∧
      (st.analyze env npts check).1.results = st.results) := by
  unfold AState.analyze
  set st1 : AState K R := { st with npts := effNpts st.npts npts } with hst1
  have hb : st1.beam = st.beam ∧ st1.n0 = st.n0 ∧ st1.results = st.results ∧
      st1.npts = effNpts st.npts npts := ⟨rfl, rfl, rfl, rfl⟩
  obtain ⟨b1, b2, b3, b4⟩ := hb
  simp only
  cases hs : st1.current.system with
  | error e => exact Or.inr ⟨⟨e, rfl⟩, b3⟩
  | ok s =>
    simp only
    split
    · rename_i hv
      split
      · exact Or.inr ⟨⟨_, rfl⟩, b3⟩
      · set st2 : AState K R := if check then { st1 with checked := some st1.version } else st1
          with hst2
        have c : st2.beam = st1.beam ∧ st2.n0 = st1.n0 ∧ st2.results = st1.results ∧
            st2.npts = st1.npts ∧ st2.current = st1.current := by
          cases check <;> simp [hst2, AState.current]
        obtain ⟨c1, c2, c3, c4, c5⟩ := c
        cases ha : s.analyze env.solve with
        | error e => exact Or.inr ⟨⟨e, rfl⟩, by rw [c3, b3]⟩
        | ok res =>
          simp only
          split
          · exact Or.inr ⟨⟨_, rfl⟩, by rw [c3, b3]⟩
          · rename_i hlen
            have hcur : st1.current = st.beam := by
              have : st.beam.members.length = st.n0 := by
                rw [c1, c2, b1, b2] at hlen
                exact not_not.1 hlen
              simp only [AState.current, b1, b2, ← this, List.take_length]
            cases hr : env.results st2.current res st2.npts with
            | error e => exact Or.inr ⟨⟨e, rfl⟩, by rw [c3, b3]⟩
            | ok r =>
              refine Or.inl ⟨rfl, r, rfl, res, ?_, ?_⟩
              · rw [hcur] at hs
                simp [BeamDef.analyze, hs, ha]
              · rw [c5, hcur, c4, b4] at hr
                exact hr
    · exact Or.inr ⟨⟨_, rfl⟩, b3⟩

/-- **C25**, one call: only a completed `analyze` replaces the stored results, and
it stores those of the beam as it then is; every other call, and every call that
raises, leaves them alone. -/
theorem C25_only_completed_analysis_stores (st : AState K R) (env : Env K R) (op : AOp K) :
    (∃ npts check r, op = .analyze npts check ∧ (st.step env op).2 = .ok () ∧
      st.Completes env npts r ∧ (st.step env op).1.results = some r) ∨
    (st.step env op).1.results = st.results := by
  cases op with
  | analyze npts check =>
    rcases st.analyze_results env npts check with ⟨h1, r, h2, h3⟩ | ⟨_, h2⟩
    · exact Or.inl ⟨npts, check, r, rfl, h1, h3, h2⟩
    · exact Or.inr h2
  | setLoads LM => exact Or.inr rfl
  | addLoad row => exact Or.inr rfl
  | setR r => exact Or.inr rfl
  | setD d =>
    right
    simp only [AState.step]
    split <;> rfl
  | addSpan m valid =>
    right
    simp only [AState.step]
    split <;> rfl
  | writeR i v =>
    right
    simp only [AState.step]
    split <;> rfl
  | isStable =>
    right
    simp only [AState.step, AState.isStable]
    split
    · rfl
    · split <;> rfl

/-- **C25**, a call that raises. -/
theorem C25_failure_keeps_results (st : AState K R) (env : Env K R) (op : AOp K) (e : PyErr)
    (h : (st.step env op).2 = .error e) : (st.step env op).1.results = st.results := by
  rcases C25_only_completed_analysis_stores st env op with ⟨_, _, _, _, h1, _⟩ | h1
  · rw [h] at h1; cases h1
  · exact h1

/-- **C25**, histories: after any sequence of calls the stored results are those of
the last analysis that completed (none if there was none). -/
theorem C25_history (st0 : AState K R) (env : Env K R) (ops : List (AOp K)) :
    (st0.run env ops).results = st0.results ∨
    ∃ (before after : List (AOp K)) (npts : Option ℕ) (check : Bool) (r : R),
      ops = before ++ .analyze npts check :: after ∧
      ((st0.run env before).step env (.analyze npts check)).2 = .ok () ∧
      (st0.run env before).Completes env npts r ∧
      (st0.run env ops).results = some r := by
  induction ops using List.reverseRecOn with
  | nil => exact Or.inl rfl
  | append_singleton ops op ih =>
    have hrun : st0.run env (ops ++ [op]) = ((st0.run env ops).step env op).1 := by
      simp [AState.run, List.foldl_append]
    rw [hrun]
    rcases C25_only_completed_analysis_stores (st0.run env ops) env op with
      ⟨npts, check, r, h1, h2, h3, h4⟩ | h
    · right
      refine ⟨ops, [], npts, check, r, by rw [h1], ?_, h3, h4⟩
      rw [← h1]
      exact h2
    · rw [h]
      rcases ih with ih | ⟨be, af, npts, check, r, h1, h2, h3, h4⟩
      · exact Or.inl ih
      · right
        exact ⟨be, af ++ [op], npts, check, r, by rw [h1]; simp, h2, h3, h4⟩

/-! ## C26 -/

/-- An edit through the setters and methods of `Beam`, as opposed to a write into
its lists. -/
def AOp.BySetter : AOp K → Prop
  | .writeR _ _ => False
  | _ => True

/-- The stability verdict on a beam (loads do not enter). -/
def BeamDef.Stable (b : BeamDef K) (eigs : Eigvalsh K) : Prop :=
  ∃ s, ({ b with LM := [] } : BeamDef K).system = .ok s ∧ s.checkStability eigs = true

theorem System.checkStability_congr {s s' : System K} (eigs : Eigvalsh K) (hn : s.n = s'.n)
    (hk : ∀ i < s.n, s.kb i = s'.kb i) (hr : s.r = s'.r) (hp : s.presc = s'.presc) :
    s.checkStability eigs = s'.checkStability eigs := by
  have hA : s.assemble = s'.assemble := System.assemble_congr hn (fun i hi => hk i (by omega)) fun p => by rw [hr]
  have hf : s.freeDofs = s'.freeDofs := by
    simp only [System.freeDofs, System.N, hn, hr, hp]
  have : ∀ (l l' : List ℕ) (A A' : ℕ → ℕ → K), l = l' → A = A' →
      eigs l.length (Matrix.of fun a c => A l[a] l[c])
        = eigs l'.length (Matrix.of fun a c => A' l'[a] l'[c]) := by
    rintro l _ A _ rfl rfl
    rfl
  have he : eigs _ s.kff = eigs _ s'.kff := this _ _ _ _ hf hA
  simp only [System.checkStability, he, hf]

theorem refSum_nil (m : Member K) (i : ℕ) : m.refSum i [] = .ok ⟨0, 0, 0, 0⟩ := rfl

theorem mapE_of_ok {α β : Type*} {f : α → Except PyErr β} (l : List α)
    (h : ∀ a ∈ l, ∃ b, f a = .ok b) : ∃ r, mapE f l = .ok r := by
  induction l with
  | nil => exact ⟨[], rfl⟩
  | cons a l ih =>
    obtain ⟨b, hb⟩ := h a (by simp)
    obtain ⟨r, hr⟩ := ih fun x hx => h x (by simp [hx])
    exact ⟨b :: r, by simp [mapE, hb, hr]⟩

/-- The verdict of the check on a loaded beam is that on the beam without loads. -/
theorem BeamDef.stable_iff {b : BeamDef K} {s : System K} (hs : b.system = .ok s)
    (eigs : Eigvalsh K) : b.Stable eigs ↔ s.checkStability eigs = true := by
  have hex : ∃ s0, ({ b with LM := [] } : BeamDef K).system = .ok s0 := by
    obtain ⟨r, hr⟩ := mapE_of_ok (f := fun mi : Member K × ℕ => mi.1.refSum mi.2 []) b.members.zipIdx
      (fun a _ => ⟨_, refSum_nil _ _⟩)
    unfold BeamDef.system at hs ⊢
    have : ({ b with LM := [] } : BeamDef K).setLoads = .ok [] := rfl
    rw [this]
    simp only [hr]
    split at hs
    · cases hs
    · split at hs
      · cases hs
      · split at hs
        · cases hs
        · rename_i ks hks
          split at hs
          · cases hs
          · rename_i hlen
            rw [if_neg hlen]
            exact ⟨_, rfl⟩
  obtain ⟨s0, h0⟩ := hex
  obtain ⟨n0, k0, _, r0, q0, _⟩ := BeamDef.system_ok h0
  obtain ⟨n1, k1, _, r1, q1, _⟩ := BeamDef.system_ok hs
  have hc : s0.checkStability eigs = s.checkStability eigs := by
    refine System.checkStability_congr eigs ?_ ?_ ?_ ?_
    · rw [n0, n1]
    · intro i hi
      rw [n0] at hi
      exact Except.ok.inj ((k0 i hi).symm.trans (k1 i hi))
    · funext i; rw [r0, r1]
    · funext i; rw [q0, q1]
  constructor
  · rintro ⟨s', h1, h2⟩
    rw [h0] at h1
    cases h1
    rw [← hc]
    exact h2
  · intro h
    exact ⟨s0, h0, by rw [hc]; exact h⟩

/-- If the cached verdict is still valid, it is the verdict on the current
structure; a cached version is never ahead of the beam's. -/
def AState.CacheOK (env : Env K R) (st : AState K R) : Prop :=
  (st.checked = some st.version → st.current.Stable env.eigs) ∧
  (∀ v, st.checked = some v → v ≤ st.version) ∧ st.n0 ≤ st.beam.members.length

theorem AState.stable_loads (st : AState K R) (b' : BeamDef K) (eigs : Eigvalsh K)
    (h1 : b'.members = st.beam.members) (h2 : b'.restraints = st.beam.restraints)
    (h3 : b'.presc = st.beam.presc) :
    ({ st with beam := b' } : AState K R).current.Stable eigs ↔ st.current.Stable eigs := by
  simp only [AState.current, BeamDef.Stable, h1, h2, h3]

theorem AState.step_cacheOK (env : Env K R) (st : AState K R) (op : AOp K) (hop : op.BySetter)
    (h : st.CacheOK env) : (st.step env op).1.CacheOK env := by
  obtain ⟨h1, h2, h3⟩ := h
  cases op with
  | setLoads LM =>
    exact ⟨fun hc => (st.stable_loads _ _ rfl rfl rfl).2 (h1 hc), h2, h3⟩
  | addLoad row =>
    exact ⟨fun hc => (st.stable_loads _ _ rfl rfl rfl).2 (h1 hc), h2, h3⟩
  | setR r =>
    refine ⟨fun hc => ?_, fun v hv => ?_, h3⟩
    · simp only [AState.step] at hc
      have := h2 _ hc
      omega
    · simp only [AState.step] at hv ⊢
      have := h2 v hv
      omega
  | setD d =>
    simp only [AState.step]
    split
    · exact ⟨h1, h2, h3⟩
    · refine ⟨fun hc => ?_, fun v hv => ?_, h3⟩
      · simp only at hc
        have := h2 _ hc
        omega
      · simp only at hv ⊢
        have := h2 v hv
        omega
  | addSpan m valid =>
    simp only [AState.step]
    split
    · refine ⟨fun hc => ?_, fun v hv => ?_, ?_⟩
      · simp only at hc
        have := h2 _ hc
        omega
      · simp only at hv ⊢
        have := h2 v hv
        omega
      · simp only [List.length_append]
        omega
    · exact ⟨h1, h2, h3⟩
  | writeR i v => exact absurd hop (by simp [AOp.BySetter])
  | isStable =>
    simp only [AState.step, AState.isStable]
    split
    · exact ⟨h1, h2, h3⟩
    · rename_i s hs
      split
      · rename_i hc
        exact ⟨fun _ => ⟨s, hs, hc⟩, fun v hv => by cases hv; exact le_rfl, h3⟩
      · exact ⟨h1, h2, h3⟩
  | analyze npts check =>
    simp only [AState.step]
    unfold AState.analyze
    set st1 : AState K R := { st with npts := effNpts st.npts npts } with hst1
    have hb : st1.beam = st.beam ∧ st1.n0 = st.n0 ∧ st1.checked = st.checked ∧
        st1.version = st.version ∧ st1.current = st.current := ⟨rfl, rfl, rfl, rfl, rfl⟩
    obtain ⟨b1, b2, b3, b4, b5⟩ := hb
    have hok1 : st1.CacheOK env := by
      refine ⟨?_, ?_, ?_⟩
      · rw [b3, b4, b5]; exact h1
      · rw [b3, b4]; exact h2
      · rw [b1, b2]; exact h3
    simp only
    cases hs : st1.current.system with
    | error e => exact hok1
    | ok s =>
      simp only
      split
      · split
        · exact hok1
        · rename_i hv hskip
          set st2 : AState K R := if check then { st1 with checked := some st1.version } else st1
            with hst2
          have hok2 : st2.CacheOK env := by
            cases check with
            | false => simpa [hst2] using hok1
            | true =>
              simp only [hst2, if_true]
              refine ⟨fun _ => ?_, fun v hv => by cases hv; exact le_rfl, hok1.2.2⟩
              have hcur : ({ st1 with checked := some st1.version } : AState K R).current
                  = st1.current := rfl
              rw [hcur, BeamDef.stable_iff hs]
              by_cases hck : st1.checked = some st1.version
              · exact (BeamDef.stable_iff hs env.eigs).1 (hok1.1 hck)
              · simp only [true_and, not_and, not_not] at hskip
                exact hskip hck
          cases ha : s.analyze env.solve with
          | error e => exact hok2
          | ok res =>
            simp only
            split
            · exact hok2
            · cases hr : env.results st2.current res st2.npts with
              | error e => exact hok2
              | ok r => exact hok2
      · exact hok1

theorem AState.run_cacheOK (env : Env K R) (st : AState K R) (ops : List (AOp K))
    (hops : ∀ op ∈ ops, op.BySetter) (h : st.CacheOK env) : (st.run env ops).CacheOK env := by
  induction ops generalizing st with
  | nil => exact h
  | cons op ops ih =>
    exact ih _ (fun o ho => hops o (by simp [ho]))
      (st.step_cacheOK env op (hops op (by simp)) h)

/-- **C26**: after any history of calls that edits the beam through its setters and
methods, with failed analyses anywhere, an analysis that completes with the check
enabled (whether or not it repeats the check) has been made on a structure that
passes the stability check as it now is. -/
theorem C26_checked_analysis_is_stable_partial (b : BeamDef K) (env : Env K R) (ops : List (AOp K))
    (hops : ∀ op ∈ ops, op.BySetter) (npts : Option ℕ)
    (hok : (((AState.new b).run env ops).step env (.analyze npts true)).2 = .ok ()) :
    ((AState.new b).run env ops).beam.Stable env.eigs := by
  set st := (AState.new b : AState K R).run env ops with hst
  have h0 : (AState.new b : AState K R).CacheOK env :=
    ⟨fun h => by simp [AState.new] at h, fun v h => by simp [AState.new] at h, le_rfl⟩
  obtain ⟨h1, _, _⟩ := AState.run_cacheOK env _ ops hops h0
  rw [← hst] at h1
  simp only [AState.step] at hok
  unfold AState.analyze at hok
  set st1 : AState K R := { st with npts := effNpts st.npts npts } with hst1
  have hb : st1.beam = st.beam ∧ st1.n0 = st.n0 ∧ st1.checked = st.checked ∧
      st1.version = st.version ∧ st1.current = st.current := ⟨rfl, rfl, rfl, rfl, rfl⟩
  obtain ⟨b1, b2, b3, b4, b5⟩ := hb
  simp only at hok
  split at hok
  · cases hok
  · rename_i s hs
    split at hok
    · split at hok
      · cases hok
      · rename_i hskip
        simp only [if_true] at hok
        split at hok
        · cases hok
        · split at hok
          · cases hok
          · rename_i hlen
            rw [not_not] at hlen
            have hcur : st.current = st.beam := by
              rw [b1, b2] at hlen
              simp only [AState.current, ← hlen, List.take_length]
            rw [b5, hcur] at hs
            rw [BeamDef.stable_iff hs]
            by_cases hck : st.checked = some st.version
            · have := h1 hck
              rw [hcur, BeamDef.stable_iff hs] at this
              exact this
            · simp only [true_and, not_and, not_not, b3, b4] at hskip
              exact hskip hck
    · cases hok

/-- **C26**, invalidation: after a structural edit through a setter or method, the
cached verdict never applies, so the next checked analysis runs the check. -/
theorem C26_edit_forces_check (b : BeamDef K) (env : Env K R) (ops : List (AOp K))
    (hops : ∀ op ∈ ops, op.BySetter) (op : AOp K)
    (hedit : (∃ r, op = .setR r) ∨ (∃ d, op = .setD d) ∨ ∃ m v, op = .addSpan m v)
    (hok : (((AState.new b).run env ops).step env op).2 = .ok ()) :
    let st := (((AState.new b : AState K R).run env ops).step env op).1
    st.checked ≠ some st.version := by
  have h0 : (AState.new b : AState K R).CacheOK env :=
    ⟨fun h => by simp [AState.new] at h, fun v h => by simp [AState.new] at h, le_rfl⟩
  obtain ⟨_, h2, _⟩ := AState.run_cacheOK env _ ops hops h0
  set st := (AState.new b : AState K R).run env ops with hst
  intro st' hc
  rcases hedit with ⟨r, rfl⟩ | ⟨d, rfl⟩ | ⟨m, v, rfl⟩
  · have := h2 _ hc
    simp only [st', AState.step] at this
    omega
  · by_cases hl : d.length ≠ st.beam.restraints.length
    · simp only [AState.step] at hok
      rw [if_pos hl] at hok
      cases hok
    · simp only [st', AState.step, if_neg hl] at hc
      have := h2 _ hc
      omega
  · cases v with
    | false => simp [AState.step] at hok
    | true =>
      simp only [st', AState.step, if_true] at hc
      have := h2 _ hc
      omega

theorem AState.analyze_done (st : AState K R) (env : Env K R) (npts : Option ℕ) (s : System K)
    (hs : st.current.system = .ok s) (hv : s.validate s.forces = true)
    (hc : st.checked = some st.version ∨ s.checkStability env.eigs = true) (res : Result K)
    (ha : s.analyze env.solve = .ok res) (hlen : st.beam.members.length = st.n0) (r : R)
    (hr : env.results st.current res (effNpts st.npts npts) = .ok r) :
    st.analyze env npts true
      = (⟨st.n0, st.beam, st.version, effNpts st.npts npts, some st.version, some r⟩, .ok ()) := by
  have hcur : ∀ p c, ({ st with npts := p, checked := c } : AState K R).current = st.current :=
    fun _ _ => rfl
  have hcur' : ∀ p, ({ st with npts := p } : AState K R).current = st.current := fun _ => rfl
  unfold AState.analyze
  simp only [hcur', hs, hv, if_true]
  rw [if_neg]
  · simp only [ha, hlen, ne_eq, not_true_eq_false, if_false, hcur, hr]
  · rcases hc with h | h <;> simp [h]

/-- An environment over ℝ whose solver proposes the zero vector and whose results
object is the raw result. -/
noncomputable def exEnv : Env ℝ (Result ℝ) :=
  ⟨trySolver fun _ => 0, realEigs, fun _ res _ => .ok res⟩

/-- Analysis of an unloaded beam without prescribed displacements. -/
theorem unloaded_ok (b : BeamDef ℝ) (s : System ℝ) (hs : b.system = .ok s) (hLM : b.LM = [])
    (hp : ∀ i : ℕ, b.presc.getD i none = none) :
    s.validate s.forces = true ∧ ∃ res, s.analyze (trySolver fun _ => 0) = .ok res := by
  obtain ⟨hn, _, ⟨ls, hl, hc⟩, hr, hq, _⟩ := BeamDef.system_ok hs
  have hls : ls = [] := by
    simp only [BeamDef.setLoads, hLM, parseLM, List.all_nil, if_true] at hl
    cases hl; rfl
  have hv : s.validate s.forces = true := by
    simp only [System.validate, hq, hp]
    simp
  have hf0 : ∀ p, s.forces p = 0 := by
    intro p
    rw [s.forces_eq, Finset.sum_eq_zero, neg_zero]
    intro i hi
    have hi' : i < b.members.length := by rw [← hn]; exact Finset.mem_range.1 hi
    obtain ⟨c, h1, h2⟩ := hc i hi'
    subst hls
    cases h1
    rw [h2]
    simp only [blockVec, CNL.vec]
    split
    · rename_i h
      have : ∀ q : Fin 4, (![0, 0, 0, 0] : Fin 4 → ℝ) q = 0 := by
        intro q; fin_cases q <;> rfl
      exact this _
    · rfl
  refine ⟨hv, _, s.analyze_try _ hv ?_ ?_⟩
  · intro p _ v hc
    simp only [System.constr, hq, hp] at hc
    split at hc
    · cases hc; rfl
    · cases hc
  · intro p _ _
    simp [System.residual, mulN, hf0]

/-- The simple span passes the check and is analysed (C25 and C26 are not empty). -/
theorem exSimpleReal_completes : ((AState.new exSimpleReal).step exEnv (.analyze none true)).2 = .ok ()
    := by
  obtain ⟨s, hs, hc, _⟩ := exSimpleReal_stable
  obtain ⟨hv, res, hres⟩ := unloaded_ok exSimpleReal s hs rfl (by
    intro i; rcases i with _ | _ | _ | _ | i <;> simp [exSimpleReal])
  have hcur : (AState.new exSimpleReal : AState ℝ (Result ℝ)).current = exSimpleReal := by
    simp [AState.current, AState.new]
  rw [AState.step, AState.analyze_done _ exEnv none s (by rw [hcur]; exact hs) hv (Or.inr hc) res
    hres rfl res rfl]

/-- C26 at the simple span. -/
example : (((AState.new exSimpleReal : AState ℝ (Result ℝ)).run exEnv []).beam).Stable realEigs :=
  C26_checked_analysis_is_stable_partial exSimpleReal exEnv [] (by simp) none exSimpleReal_completes

/-- **C26 fails** for an edit in place: after an analysis of the simple span the
caller writes 0 into `beam.restraints[2]`.  The right support is gone and the beam is
a mechanism, but the next analysis with the check enabled completes. -/
theorem C26_in_place_edit_violation :
    ∃ (b : BeamDef ℝ) (env : Env ℝ (Result ℝ)), env.eigs.Sound ∧ env.solve.Sound ∧
      let st := (AState.new b).run env [.analyze none true, .writeR 2 0]
      (st.step env (.analyze none true)).2 = .ok () ∧ ¬ st.beam.Stable env.eigs := by
  refine ⟨exSimpleReal, exEnv, realEigs_sound, trySolver_sound _, ?_⟩
  obtain ⟨s, hs, hc, _⟩ := exSimpleReal_stable
  obtain ⟨hv, res, hres⟩ := unloaded_ok exSimpleReal s hs rfl (by
    intro i; rcases i with _ | _ | _ | _ | i <;> simp [exSimpleReal])
  obtain ⟨s', hs', hc'⟩ := exPinOnly_unstable
  obtain ⟨hv', res', hres'⟩ := unloaded_ok exPinOnly s' hs' rfl (by
    intro i; rcases i with _ | _ | _ | _ | i <;> simp [exPinOnly])
  have hcur : (AState.new exSimpleReal : AState ℝ (Result ℝ)).current = exSimpleReal := by
    simp [AState.current, AState.new]
  have e1 : exEnv.eigs = realEigs := rfl
  have e2 : exEnv.solve = trySolver fun _ => 0 := rfl
  have e3 : exEnv.results = fun _ res _ => .ok res := rfl
  have hst : (AState.new exSimpleReal : AState ℝ (Result ℝ)).run exEnv
      [.analyze none true, .writeR 2 0] = ⟨1, exPinOnly, 1, 100, some 1, some res⟩ := by
    have h1 : ((AState.new exSimpleReal : AState ℝ (Result ℝ)).step exEnv (.analyze none true)).1
        = ⟨1, exSimpleReal, 1, 100, some 1, some res⟩ := by
      rw [AState.step, AState.analyze_done _ exEnv none s (by rw [hcur]; exact hs) hv (Or.inr hc)
        res hres rfl res rfl]
      rfl
    simp only [AState.run, List.foldl_cons, List.foldl_nil, h1]
    simp [AState.step, exSimpleReal, exPinOnly]
  intro st
  rw [show st = ⟨1, exPinOnly, 1, 100, some 1, some res⟩ from hst]
  have hcur' : (⟨1, exPinOnly, 1, 100, some 1, some res⟩ : AState ℝ (Result ℝ)).current
      = exPinOnly := by
    simp [AState.current, exPinOnly]
  constructor
  · rw [AState.step, AState.analyze_done _ exEnv none s' (by rw [hcur']; exact hs') hv' (Or.inl rfl)
      res' hres' rfl res' rfl]
  · simp only [e1]
    rw [BeamDef.stable_iff hs', hc']
    simp

/-- C25 at a history: the simple span is analysed, its right support is removed with
the setter, and the next analysis raises; the first results are still there. -/
example : ∃ r, ((AState.new exSimpleReal).run exEnv
      [.analyze none true, .setR [-1, 0, 0, 0]]).results = some r ∧
    (((AState.new exSimpleReal).run exEnv [.analyze none true, .setR [-1, 0, 0, 0]]).step exEnv
      (.analyze none true)).2 = .error .valueError ∧
    ((AState.new exSimpleReal).run exEnv
      [.analyze none true, .setR [-1, 0, 0, 0], .analyze none true]).results = some r := by
  obtain ⟨s, hs, hc, _⟩ := exSimpleReal_stable
  obtain ⟨hv, res, hres⟩ := unloaded_ok exSimpleReal s hs rfl (by
    intro i; rcases i with _ | _ | _ | _ | i <;> simp [exSimpleReal])
  obtain ⟨s', hs', hc'⟩ := exPinOnly_unstable
  obtain ⟨hv', -⟩ := unloaded_ok exPinOnly s' hs' rfl (by
    intro i; rcases i with _ | _ | _ | _ | i <;> simp [exPinOnly])
  have hcur : (AState.new exSimpleReal : AState ℝ (Result ℝ)).current = exSimpleReal := by
    simp [AState.current, AState.new]
  have hst : (AState.new exSimpleReal : AState ℝ (Result ℝ)).run exEnv
      [.analyze none true, .setR [-1, 0, 0, 0]] = ⟨1, exPinOnly, 2, 100, some 1, some res⟩ := by
    have h1 : ((AState.new exSimpleReal : AState ℝ (Result ℝ)).step exEnv (.analyze none true)).1
        = ⟨1, exSimpleReal, 1, 100, some 1, some res⟩ := by
      rw [AState.step, AState.analyze_done _ exEnv none s (by rw [hcur]; exact hs) hv (Or.inr hc)
        res hres rfl res rfl]
      rfl
    simp only [AState.run, List.foldl_cons, List.foldl_nil, h1]
    simp [AState.step, exSimpleReal, exPinOnly]
  have hfail : (((AState.new exSimpleReal).run exEnv [.analyze none true, .setR [-1, 0, 0, 0]]).step
      exEnv (.analyze none true)).2 = .error .valueError := by
    rw [hst]
    have hcur' : ∀ p, (⟨1, exPinOnly, 2, p, some 1, some res⟩ : AState ℝ (Result ℝ)).current
        = exPinOnly := by
      intro p
      simp [AState.current, exPinOnly]
    have e1 : exEnv.eigs = realEigs := rfl
    simp only [AState.step, AState.analyze, hcur', hs', hv', if_true, e1, hc']
    simp
  refine ⟨res, by rw [hst], hfail, ?_⟩
  have := C25_failure_keeps_results _ exEnv _ _ hfail
  rw [hst] at this
  rw [← hst] at this
  exact this.trans (by rw [hst])

end PyCBA
