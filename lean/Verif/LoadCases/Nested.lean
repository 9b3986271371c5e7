import Verif.LoadCases.Props
import Verif.Bridge.Run

set_option linter.unusedSectionVars false
set_option linter.unusedSimpArgs false

/-!
C121: combinations of combinations; C122: combinations of a collection that changes; C123: the
envelope of a collection beside the other envelopes.
-/

namespace PyCBA

variable {K : Type*} [Field K] [LinearOrder K] [IsStrictOrderedRing K]

/-! ### The model -/

/-- `LoadCombination`, `load_cases.py` 146-157, without its metadata. -/
structure LComb (K : Type*) where
  name : String
  spec : FSpec K

/-- `_resolve_load_cases`, `load_cases.py` 159-175: the collection given, else the one bound
(as it is now), else an error. -/
def lcResolve (arg bound : Option (List (LCase K))) : Except PyErr (List (LCase K)) :=
  match arg with
  | some cs => .ok cs
  | none => match bound with
    | some cs => .ok cs
    | none => .error .valueError

/-- `LoadCombination.factor_vector`, `load_cases.py` 177-188. -/
def LComb.factorVector (c : LComb K) (arg bound : Option (List (LCase K))) : Except PyErr (List K) :=
  match lcResolve arg bound with
  | .error e => .error e
  | .ok cs => lcFactors cs c.spec

/-- `LoadCombination.to_LM`, `load_cases.py` 190-201, with `combined_loads`, 674-697. -/
def LComb.toLM (c : LComb K) (arg bound : Option (List (LCase K))) : Except PyErr (List (Row K)) :=
  match lcResolve arg bound with
  | .error e => .error e
  | .ok cs => match lcFactors cs c.spec with
    | .error e => .error e
    | .ok f => combinedLoads f cs

/-- `LoadCombination.to_load_case`, `load_cases.py` 203-220. -/
def LComb.toLoadCase (c : LComb K) (arg bound : Option (List (LCase K))) : Except PyErr (LCase K) :=
  match c.toLM arg bound with
  | .error e => .error e
  | .ok l => .ok ⟨c.name, l, (LCSource.matrix l).loadedSpans, none⟩

/-- `LoadCombination.response`, `load_cases.py` 222-237. -/
def LComb.response (A : Analyser K) (b : BeamDef K) (c : LComb K)
    (arg bound : Option (List (LCase K))) (rp : Resp) : Except PyErr (List K × List K) :=
  match lcResolve arg bound with
  | .error e => .error e
  | .ok cs => lcCombine b A.stable A.solve A.npts cs c.spec rp

/-- `LoadCombination.analyze`, `load_cases.py` 239-254. -/
def LComb.analyze (A : Analyser K) (b : BeamDef K) (c : LComb K)
    (arg bound : Option (List (LCase K))) : Except PyErr (Result K × List (MRes K)) :=
  match lcResolve arg bound with
  | .error e => .error e
  | .ok cs => analyzeCombination b A.stable A.solve A.npts cs c.spec

/-- `LoadCombination.envelope`, `load_cases.py` 258-283. -/
def LComb.envelope (A : Analyser K) (b : BeamDef K) (c : LComb K)
    (arg bound : Option (List (LCase K))) : Except PyErr (Envelope K) :=
  match c.analyze A b arg bound with
  | .error e => .error e
  | .ok r => Envelope.new [envOf r]

/-- `LoadCases.envelope`, `load_cases.py` 580-585. -/
def lcEnvelope (A : Analyser K) (b : BeamDef K) (cs : List (LCase K)) : Except PyErr (Envelope K) :=
  match mapE (fun c : LCase K => runCase b A.stable A.solve A.npts c.loads) cs with
  | .error e => .error e
  | .ok rs => Envelope.new (rs.map envOf)

/-! ### Sums -/

theorem vecMat_get (m : ℕ) (f : List K) (B : List (List K)) (h : f.length = B.length) (k : ℕ)
    (hk : k < m) : (vecMat m f B).getD k 0
      = ∑ i ∈ Finset.range f.length, f.getD i 0 * (B.getD i []).getD k 0 := by
  rw [vecMat, getD_map_range _ _ _ _ hk]
  clear hk
  induction f generalizing B with
  | nil => simp
  | cons a f ih =>
    cases B with
    | nil => simp at h
    | cons row B =>
      rw [List.zipWith_cons_cons, List.sum_cons, ih B (by simpa using h), List.length_cons,
        Finset.sum_range_succ']
      simp [add_comm]

theorem vecMat_length (m : ℕ) (f : List K) (B : List (List K)) : (vecMat m f B).length = m := by
  simp [vecMat]

theorem list_ext_getD {l l' : List K} (h : l.length = l'.length)
    (h' : ∀ k < l.length, l.getD k 0 = l'.getD k 0) : l = l' := by
  apply List.ext_getElem h
  intro i h1 h2
  have := h' i h1
  simpa [List.getD_eq_getElem?_getD, List.getElem?_eq_getElem h1, List.getElem?_eq_getElem h2] using this

/-! ### Combinations of combinations -/

theorem factorLM_ltype {g : K} {LM LM' : List (Row K)} (h : factorLM g LM = .ok LM') :
    ∀ r' ∈ LM', ∃ r ∈ LM, r'.ltype = r.ltype := by
  induction LM generalizing LM' with
  | nil => cases h; simp
  | cons r LM ih =>
    simp only [factorLM] at h
    split at h
    · cases h
    · rename_i r1 hr1
      split at h
      · cases h
      · rename_i t ht
        cases h
        intro r' hr'
        rcases List.mem_cons.1 hr' with rfl | hr'
        · refine ⟨r, by simp, ?_⟩
          unfold factorRow at hr1
          repeat' split at hr1
          all_goals first | (cases hr1; rfl) | cases hr1
        · obtain ⟨r0, h1, h2⟩ := ih ht r' hr'
          exact ⟨r0, List.mem_cons_of_mem _ h1, h2⟩

theorem combinedLoads_ltype : ∀ (f : List K) (cs : List (LCase K)) (LM : List (Row K)),
    combinedLoads f cs = .ok LM → ∀ r' ∈ LM, ∃ c ∈ cs, ∃ r ∈ c.loads, r'.ltype = r.ltype := by
  intro f
  induction f with
  | nil => intro cs LM h; cases cs <;> cases h <;> simp
  | cons a f ih =>
    intro cs LM h
    cases cs with
    | nil => cases h; simp
    | cons c cs =>
      simp only [combinedLoads] at h
      split at h
      · intro r' hr'
        obtain ⟨c0, h1, h2⟩ := ih cs LM h r' hr'
        exact ⟨c0, List.mem_cons_of_mem _ h1, h2⟩
      · split at h
        · cases h
        · rename_i l hl
          split at h
          · cases h
          · rename_i t ht
            cases h
            intro r' hr'
            rcases List.mem_append.1 hr' with hr' | hr'
            · obtain ⟨r, h1, h2⟩ := factorLM_ltype hl r' hr'
              exact ⟨c, by simp, r, h1, h2⟩
            · obtain ⟨c0, h1, h2⟩ := ih cs t ht r' hr'
              exact ⟨c0, List.mem_cons_of_mem _ h1, h2⟩

theorem LComb.toLoadCase_ok {c : LComb K} {cs : List (LCase K)} {bd : Option (List (LCase K))}
    {d : LCase K} (h : c.toLoadCase (some cs) bd = .ok d) :
    ∃ f, lcFactors cs c.spec = .ok f ∧ combinedLoads f cs = .ok d.loads := by
  simp only [LComb.toLoadCase, LComb.toLM, lcResolve] at h
  split at h
  · cases h
  · rename_i l hl
    cases h
    split at hl
    · cases hl
    · rename_i f hf
      exact ⟨f, hf, hl⟩

/-- The factors of the cases when combinations with factors `F i` are combined with factors `g`. -/
def ProductFactors (n : ℕ) (g : List K) (F : List (List K)) (h : List K) : Prop :=
  h.length = n ∧ ∀ j < n, h.getD j 0 = ∑ i ∈ Finset.range g.length, g.getD i 0 * (F.getD i []).getD j 0

/-- **C121**, responses: let `ds` be load cases made from combinations of the cases `cs`.
Combining the `ds` with factors `g` gives the stations and values that combining the `cs` with the
product factors gives (under the conditions of C36, which the combinations themselves need). -/
theorem C121_nested_partial (A : Analyser K) (hsol : A.solve.Sound) (b : BeamDef K)
    (cs ds : List (LCase K)) (combs : List (LComb K)) (bd : Option (List (LCase K)))
    (hds : List.Forall₂ (fun c d => LComb.toLoadCase c (some cs) bd = .ok d) combs ds)
    (F : List (List K)) (hF : List.Forall₂ (fun c f => lcFactors cs c.spec = .ok f) combs F)
    (g h : List K) (hgh : ProductFactors cs.length g F h) (rp : Resp) (x y x' y' : List K)
    (hc : lcCombine b A.stable A.solve A.npts cs (.vec h) rp = .ok (x, y))
    (hd : lcCombine b A.stable A.solve A.npts ds (.vec g) rp = .ok (x', y'))
    (hns : ∀ LM s, ({ b with LM := LM } : BeamDef K).system = .ok s → s.Nonsingular)
    (hpr : ∀ v, some v ∈ b.presc → v = 0 ∨ ∀ f ∈ F, f.sum = 1)
    (hrp : rp = .M ∨ rp = .V ∨ SameBc b cs) : x' = x ∧ y' = y := by
  unfold lcCombine at hc hd
  split at hc
  · cases hc
  rename_i x0 B hB
  split at hc
  · cases hc
  rename_i h0 hh0
  split at hd
  · cases hd
  rename_i x0' B' hB'
  split at hd
  · cases hd
  rename_i g0 hg0
  have eh : h0 = h := by
    simp only [lcFactors] at hh0
    split at hh0
    · cases hh0
    · exact (Except.ok.inj hh0).symm
  have eg : g0 = g := by
    simp only [lcFactors] at hg0
    split at hg0
    · cases hg0
    · exact (Except.ok.inj hg0).symm
  subst eh eg
  cases hc
  cases hd
  have lg : g0.length = ds.length := lcFactors_length hg0
  have lF : F.length = ds.length := by rw [← hF.length_eq, hds.length_eq]
  obtain ⟨lB, hrow⟩ := responseMatrix_rows hB
  -- the rows of the second matrix are combinations of the first
  obtain ⟨runs, hlen, hruns, eB', r0, hr0, ex0⟩ := responseMatrix_ok hB'
  have key : ∀ i (hi : i < ds.length) (hi' : i < runs.length),
      concatResults runs[i].2 MRes.x = x ∧
      concatResults runs[i].2 rp.get = vecMat x.length (F.getD i []) B := by
    intro i hi hi'
    have hiF : i < F.length := by omega
    have hic : i < combs.length := by rw [hds.length_eq]; exact hi
    have h1 := (List.forall₂_iff_get.1 hds).2 i hic hi
    have h2 := (List.forall₂_iff_get.1 hF).2 i hic hiF
    simp only [List.get_eq_getElem] at h1 h2
    obtain ⟨f, hf, hl⟩ := LComb.toLoadCase_ok h1
    rw [h2] at hf
    cases hf
    have hcomb : lcCombine b A.stable A.solve A.npts cs combs[i].spec rp
        = .ok (x, vecMat x.length F[i] B) := by
      simp only [lcCombine, hB, h2]
    have hana : analyzeCombination b A.stable A.solve A.npts cs combs[i].spec = .ok runs[i] := by
      simp only [analyzeCombination, h2, hl]
      exact hruns i hi hi'
    have := C36_combination_partial b A.stable A.solve hsol A.npts cs combs[i].spec rp _ _ runs[i]
      hcomb hana hns (fun f hf v hv => by
        rw [h2] at hf
        cases hf
        rcases hpr v hv with h | h
        · exact .inl h
        · exact .inr (h _ (List.getElem_mem _))) hrp
    rw [List.getD_eq_getElem?_getD, List.getElem?_eq_getElem hiF]
    exact this
  have ex : x' = x := by
    obtain ⟨i, hi, rfl⟩ := List.getElem_of_mem hr0
    rw [ex0]
    exact (key i (by omega) hi).1
  refine ⟨ex, ?_⟩
  rw [ex]
  apply list_ext_getD (by simp [vecMat_length])
  intro k hk
  rw [vecMat_length] at hk
  have lB' : B'.length = ds.length := by rw [eB', List.length_map, hlen]
  rw [vecMat_get _ _ _ (by omega) k hk, vecMat_get _ _ _ (by rw [hgh.1, lB]) k hk]
  have e1 : ∀ i ∈ Finset.range g0.length, g0.getD i 0 * (B'.getD i []).getD k 0
      = ∑ j ∈ Finset.range cs.length, g0.getD i 0 * ((F.getD i []).getD j 0 * (B.getD j []).getD k 0) := by
    intro i hi
    rw [Finset.mem_range] at hi
    have hi' : i < runs.length := by omega
    have lFi : (F.getD i []).length = cs.length := by
      have hiF : i < F.length := by omega
      have hic : i < combs.length := by rw [hds.length_eq]; omega
      have h2 := (List.forall₂_iff_get.1 hF).2 i hic hiF
      rw [List.getD_eq_getElem?_getD, List.getElem?_eq_getElem hiF]
      exact lcFactors_length h2
    have e2 : B'.getD i [] = concatResults runs[i].2 rp.get := by
      rw [eB', List.getD_eq_getElem?_getD, List.getElem?_map, List.getElem?_eq_getElem hi']
      rfl
    rw [← Finset.mul_sum, e2, (key i (by omega) hi').2, vecMat_get _ _ _ (by rw [lFi, lB]) k hk, lFi]
  rw [Finset.sum_congr rfl e1, Finset.sum_comm, hgh.1]
  refine Finset.sum_congr rfl fun j hj => ?_
  rw [hgh.2 j (Finset.mem_range.1 hj), Finset.sum_mul]
  exact Finset.sum_congr rfl fun i _ => by ring

theorem SameBc.nested {b : BeamDef K} {cs ds : List (LCase K)} (h : SameBc b cs)
    (hds : ∀ d ∈ ds, ∃ f, combinedLoads f cs = .ok d.loads) : SameBc b ds := by
  rcases h with h | h
  · exact .inl h
  · refine .inr fun d hd r' hr' => ?_
    obtain ⟨f, hf⟩ := hds d hd
    obtain ⟨c, hc, r, hr, e⟩ := combinedLoads_ltype f cs _ hf r' hr'
    rw [e]
    exact h c hc r hr

/-- **C121**, analyses: the analysis of the combination of the `ds` has at every station the
responses of the analysis of the combination of the `cs` with the product factors. -/
theorem C121_nested_analysis_partial (A : Analyser K) (hsol : A.solve.Sound) (b : BeamDef K)
    (cs ds : List (LCase K)) (combs : List (LComb K)) (bd : Option (List (LCase K)))
    (hds : List.Forall₂ (fun c d => LComb.toLoadCase c (some cs) bd = .ok d) combs ds)
    (F : List (List K)) (hF : List.Forall₂ (fun c f => lcFactors cs c.spec = .ok f) combs F)
    (g h : List K) (hgh : ProductFactors cs.length g F h) (rp : Resp) (p p' : List K × List K)
    (r r' : Result K × List (MRes K))
    (hc : lcCombine b A.stable A.solve A.npts cs (.vec h) rp = .ok p)
    (hd : lcCombine b A.stable A.solve A.npts ds (.vec g) rp = .ok p')
    (hac : analyzeCombination b A.stable A.solve A.npts cs (.vec h) = .ok r)
    (had : analyzeCombination b A.stable A.solve A.npts ds (.vec g) = .ok r')
    (hns : ∀ LM s, ({ b with LM := LM } : BeamDef K).system = .ok s → s.Nonsingular)
    (hpr : ∀ v, some v ∈ b.presc → v = 0 ∨ (∀ f ∈ F, f.sum = 1) ∧ g.sum = 1 ∧ h.sum = 1)
    (hrp : rp = .M ∨ rp = .V ∨ SameBc b cs) :
    concatResults r'.2 MRes.x = concatResults r.2 MRes.x ∧
      concatResults r'.2 rp.get = concatResults r.2 rp.get := by
  obtain ⟨x, y⟩ := p
  obtain ⟨x', y'⟩ := p'
  obtain ⟨e1, e2⟩ := C121_nested_partial A hsol b cs ds combs bd hds F hF g h hgh rp x y x' y' hc hd
    hns (fun v hv => (hpr v hv).imp id And.left) hrp
  have hv : ∀ (cs : List (LCase K)) (v f : List K), lcFactors cs (.vec v) = .ok f → f = v := by
    intro cs v f hf
    simp only [lcFactors] at hf
    split at hf
    · cases hf
    · exact (Except.ok.inj hf).symm
  have a1 := C36_combination_partial b A.stable A.solve hsol A.npts cs _ rp x y r hc hac hns
    (fun f hf v hv' => by rw [hv _ _ _ hf]; exact (hpr v hv').imp id fun h => h.2.2) hrp
  have a2 := C36_combination_partial b A.stable A.solve hsol A.npts ds _ rp x' y' r' hd had hns
    (fun f hf v hv' => by rw [hv _ _ _ hf]; exact (hpr v hv').imp id fun h => h.2.1)
    (hrp.imp id (Or.imp id fun hb => hb.nested fun d hd => by
      obtain ⟨i, hi, rfl⟩ := List.getElem_of_mem hd
      have hi' : i < combs.length := by rw [hds.length_eq]; exact hi
      have h1 := (List.forall₂_iff_get.1 hds).2 i hi' hi
      obtain ⟨f, _, hl⟩ := LComb.toLoadCase_ok h1
      exact ⟨f, hl⟩))
  rw [a1.1, a1.2, a2.1, a2.2, e1, e2]
  exact ⟨rfl, rfl⟩

/-! ### Combinations of a collection that changes -/

theorem lcStep_names (cs : List (LCase K)) (op : LCOp K) :
    lcNames cs <+: lcNames (lcStep cs op).1 := by
  have hadd : ∀ c : LCase K, lcNames cs <+: lcNames (lcAdd cs c).1 := by
    intro c
    unfold lcAdd
    split
    · exact List.prefix_rfl
    · simp [lcNames]
  cases op with
  | add c => exact hadd c
  | set c =>
    simp only [lcStep]
    split
    · rw [lcReplace_names]
    · exact hadd c
  | append s => cases s <;> exact hadd _
  | addLoad n r =>
    simp only [lcStep]
    split
    · rw [lcAddLoad_names]
    · rw [lcAddLoad_names]
      exact hadd _

theorem lcRun_names (cs : List (LCase K)) (ops : List (LCOp K)) :
    lcNames cs <+: lcNames (lcRun cs ops) := by
  unfold lcRun
  induction ops generalizing cs with
  | nil => exact List.prefix_rfl
  | cons op ops ih => exact (lcStep_names cs op).trans (ih _)

/-- The keys that keep their meaning when cases are added: names and positions from the start. -/
def FKey.Stable : FKey → Prop
  | .name _ => True
  | .index z => 0 ≤ z

theorem Denotes.prefix {cs cs' : List (LCase K)} (h : lcNames cs <+: lcNames cs') {k : FKey}
    (hk : k.Stable) {i : ℕ} (hi : Denotes cs k i) : Denotes cs' k i := by
  have hl : cs.length ≤ cs'.length := by simpa [lcNames] using h.length_le
  cases k with
  | name s =>
    obtain ⟨h1, h2⟩ := hi
    refine ⟨by omega, ?_⟩
    have := h.getElem (i := i) (by simpa [lcNames] using h1)
    simp only [lcNames, List.getElem_map] at this
    rw [← this, h2]
  | index z =>
    obtain ⟨h1, h2⟩ := hi
    have : 0 ≤ z := hk
    exact ⟨by omega, .inl (by omega)⟩

theorem factorLoop_prefix {cs cs' : List (LCase K)} (h : lcNames cs <+: lcNames cs')
    (hn' : (lcNames cs').Nodup) (items : List (FKey × K)) (hk : ∀ kv ∈ items, kv.1.Stable)
    (z : List K) : ∀ out f : List K, out.length = cs.length → factorLoop cs out items = .ok f →
      factorLoop cs' (out ++ z) items = .ok (f ++ z) := by
  have hn : (lcNames cs).Nodup := hn'.sublist h.sublist
  induction items with
  | nil => intro out f _ hf; cases hf; rfl
  | cons kv items ih =>
    intro out f hl hf
    by_cases he : ∃ i, Denotes cs kv.1 i
    · obtain ⟨i, hi⟩ := he
      have hil : i < cs.length := by
        cases hkv : kv.1 with
        | name s => rw [hkv] at hi; exact hi.1
        | index z => rw [hkv] at hi; exact hi.1
      simp only [factorLoop, (factorStep_spec hn out kv).1 i hi] at hf
      simp only [factorLoop, (factorStep_spec hn' (out ++ z) kv).1 i
        (hi.prefix h (hk kv List.mem_cons_self))]
      rw [List.set_append_left _ _ (by omega)]
      exact ih (fun kv hkv => hk kv (List.mem_cons_of_mem _ hkv)) _ f (by simpa using hl) hf
    · simp only [factorLoop, (factorStep_spec hn out kv).2 (not_exists.1 he)] at hf
      cases hf

/-- **C122**, mappings: through any history of operations on the collection (including rejected
ones) a combination given by names or positions from the start keeps the factors of all cases it
had, and every case added since has factor 0. -/
theorem C122_mapping (cs : List (LCase K)) (hn : (lcNames cs).Nodup) (ops : List (LCOp K))
    (items : List (FKey × K)) (hk : ∀ kv ∈ items, kv.1.Stable) (f : List K)
    (hf : lcFactors cs (.mapping items) = .ok f) :
    cs.length ≤ (lcRun cs ops).length ∧
    lcFactors (lcRun cs ops) (.mapping items)
      = .ok (f ++ List.replicate ((lcRun cs ops).length - cs.length) 0) := by
  have hp := lcRun_names cs ops
  have hl : cs.length ≤ (lcRun cs ops).length := by simpa [lcNames] using hp.length_le
  refine ⟨hl, ?_⟩
  simp only [lcFactors] at hf ⊢
  have := factorLoop_prefix hp (C34_unique_names cs hn ops) items hk
    (List.replicate ((lcRun cs ops).length - cs.length) 0) _ f (by simp) hf
  rwa [List.replicate_append_replicate, Nat.add_sub_cancel' hl] at this

/-- **C122**, sequences: a combination given as a sequence is usable after a history exactly when
the number of cases is what it was; otherwise it is refused, never misread. -/
theorem C122_sequence (cs : List (LCase K)) (ops : List (LCOp K)) (v : List K)
    (hv : v.length = cs.length) :
    ((lcRun cs ops).length = cs.length → lcFactors (lcRun cs ops) (.vec v) = .ok v) ∧
    (cs.length < (lcRun cs ops).length → lcFactors (lcRun cs ops) (.vec v) = .error .valueError) ∧
    cs.length ≤ (lcRun cs ops).length := by
  refine ⟨fun h => (C35_vector _ v).1 (by omega), fun h => (C35_vector _ v).2 (by omega), ?_⟩
  simpa [lcNames] using (lcRun_names cs ops).length_le

/-- An operation that never touches the cases already there. -/
def LCOp.Adds : LCOp K → Prop
  | .add _ => True
  | .append _ => True
  | _ => False

theorem lcRun_adds (cs : List (LCase K)) (ops : List (LCOp K)) (h : ∀ op ∈ ops, op.Adds) :
    ∃ t, lcRun cs ops = cs ++ t := by
  have hadd : ∀ (cs : List (LCase K)) (c : LCase K), ∃ t, (lcAdd cs c).1 = cs ++ t := by
    intro cs c
    unfold lcAdd
    split
    · exact ⟨[], by simp⟩
    · exact ⟨[c], rfl⟩
  unfold lcRun
  induction ops generalizing cs with
  | nil => exact ⟨[], by simp⟩
  | cons op ops ih =>
    have : ∃ t, (lcStep cs op).1 = cs ++ t := by
      have ho := h op List.mem_cons_self
      cases op with
      | add c => exact hadd cs c
      | append s => cases s <;> exact hadd cs _
      | set c => exact ho.elim
      | addLoad n r => exact ho.elim
    obtain ⟨t, ht⟩ := this
    obtain ⟨t', ht'⟩ := ih (lcStep cs op).1 fun op ho => h op (List.mem_cons_of_mem _ ho)
    exact ⟨t ++ t', by rw [List.foldl_cons, ht', ht, List.append_assoc]⟩

theorem combinedLoads_zeros : ∀ (n : ℕ) (cs : List (LCase K)),
    combinedLoads (List.replicate n 0) cs = .ok [] := by
  intro n
  induction n with
  | zero => intro cs; cases cs <;> rfl
  | succ n ih =>
    intro cs
    cases cs with
    | nil => rfl
    | cons c cs => simp [List.replicate_succ, combinedLoads, ih]

theorem combinedLoads_append_zeros : ∀ (f : List K) (cs t : List (LCase K)) (n : ℕ),
    f.length = cs.length →
    combinedLoads (f ++ List.replicate n 0) (cs ++ t) = combinedLoads f cs := by
  intro f
  induction f with
  | nil =>
    intro cs t n h
    cases cs with
    | nil => simp only [List.nil_append, combinedLoads_zeros, combinedLoads]
    | cons c cs => simp at h
  | cons a f ih =>
    intro cs t n h
    cases cs with
    | nil => simp at h
    | cons c cs =>
      simp only [List.cons_append, combinedLoads, ih cs t n (by simpa using h)]

/-- **C122**, loads: cases added later leave the combined loads of a combination by names or
positions from the start, and so its analysis, as they were. -/
theorem C122_loads (A : Analyser K) (b : BeamDef K) (cs : List (LCase K)) (hn : (lcNames cs).Nodup)
    (ops : List (LCOp K)) (ho : ∀ op ∈ ops, op.Adds) (c : LComb K) (items : List (FKey × K))
    (hc : c.spec = .mapping items) (hk : ∀ kv ∈ items, kv.1.Stable)
    (arg : Option (List (LCase K))) (f : List K) (hf : c.factorVector (some cs) arg = .ok f) :
    c.toLM none (some (lcRun cs ops)) = c.toLM none (some cs) ∧
    c.analyze A b none (some (lcRun cs ops)) = c.analyze A b none (some cs) := by
  simp only [LComb.factorVector, lcResolve, hc] at hf
  obtain ⟨t, ht⟩ := lcRun_adds cs ops ho
  have h2 := (C122_mapping cs hn ops items hk f hf).2
  rw [ht] at h2
  have h3 := combinedLoads_append_zeros f cs t ((cs ++ t).length - cs.length) (lcFactors_length hf)
  constructor
  · simp only [LComb.toLM, lcResolve, hc, hf, ht, h2, h3]
  · simp only [LComb.analyze, analyzeCombination, lcResolve, hc, hf, ht, h2, h3]

/-! ### Envelopes -/

theorem getD_map_concat (runs : List (Result K × List (MRes K))) (rp : Resp) (k j : ℕ)
    (hj : j < runs.length) :
    (column (runs.map fun r => concatResults r.2 rp.get) k).getD j 0
      = (concatResults runs[j].2 rp.get).getD k 0 := by
  simp [column, List.getElem?_eq_getElem hj]

/-- **C123**: the moment and shear envelopes of a collection are at every station the extremes, with
zero, of the rows of its response matrix there. -/
theorem C123_envelope (A : Analyser K) (b : BeamDef K) (cs : List (LCase K)) (e : Envelope K)
    (he : lcEnvelope A b cs = .ok e) (x : List K) (B B' : List (List K))
    (hB : responseMatrix b A.stable A.solve A.npts cs .M = .ok (x, B))
    (hB' : responseMatrix b A.stable A.solve A.npts cs .V = .ok (x, B')) (k : ℕ) :
    IsGreatest ({0} ∪ {y | ∃ row ∈ B, row.getD k 0 = y}) (e.Mmax k) ∧
    IsLeast ({0} ∪ {y | ∃ row ∈ B, row.getD k 0 = y}) (e.Mmin k) ∧
    IsGreatest ({0} ∪ {y | ∃ row ∈ B', row.getD k 0 = y}) (e.Vmax k) ∧
    IsLeast ({0} ∪ {y | ∃ row ∈ B', row.getD k 0 = y}) (e.Vmin k) := by
  unfold lcEnvelope at he
  split at he
  · cases he
  rename_i rs hrs
  have h1 := (C28_envelope_attained _ e he).1 k
  have eB : ∀ (rp : Resp) (x : List K) (B : List (List K)),
      responseMatrix b A.stable A.solve A.npts cs rp = .ok (x, B) →
      B = rs.map fun r => concatResults r.2 rp.get := by
    intro rp x B h
    unfold responseMatrix at h
    rw [hrs] at h
    simp only at h
    obtain ⟨runs, hl, hr, e, -⟩ := responseMatrix_ok (b := b) (stable := A.stable) (solve := A.solve)
      (npts := A.npts) (cs := cs) (rp := rp) (x := x) (B := B) (by unfold responseMatrix; rw [hrs]; exact h)
    have : runs = rs := by
      obtain ⟨l1, l2⟩ := mapE_ok hrs
      apply List.ext_getElem (by omega)
      intro i h1 h2
      have a := hr i (by omega) h1
      have b := l2 i (by omega) h2
      rw [a] at b
      exact Except.ok.inj b
    rw [e, this]
  have hM : {y | ∃ r ∈ rs.map envOf, r.M k = y} = {y | ∃ row ∈ B, row.getD k 0 = y} := by
    ext y
    rw [eB _ _ _ hB]
    simp [envOf, EnvRes.ofResults, Resp.get]
  have hV : {y | ∃ r ∈ rs.map envOf, r.V k = y} = {y | ∃ row ∈ B', row.getD k 0 = y} := by
    ext y
    rw [eB _ _ _ hB']
    simp [envOf, EnvRes.ofResults, Resp.get]
  rw [hM, hV] at h1
  exact h1

theorem subsetSum_singleton (B : List (List K)) (k j : ℕ) (hj : j < B.length) :
    subsetSum B k {j} = B[j].getD k 0 := by
  simp [subsetSum, column, List.getElem?_eq_getElem hj]

/-- **C123**, the three kinds of envelope: at every station the additive envelope with one case at a
time is the envelope of the collection once zero is included, and the sign-selective envelope
is never inside the envelope of the collection. -/
theorem C123_three_envelopes (A : Analyser K) (b : BeamDef K) (cs : List (LCase K)) (e : Envelope K)
    (he : lcEnvelope A b cs = .ok e) (x : List K) (B B' : List (List K))
    (hB : responseMatrix b A.stable A.solve A.npts cs .M = .ok (x, B))
    (hB' : responseMatrix b A.stable A.solve A.npts cs .V = .ok (x, B'))
    (as : Argsort K) (neg pos : List K) (ni pi : List (List ℕ))
    (ha : additiveEnvelope as B x.length 1 = .ok (neg, pos, ni, pi))
    (sp : Option (List ℕ)) (mn mx : List K) (nm pm : List ℕ)
    (hs : signSelective B x.length sp = .ok (mn, mx, nm, pm)) (k : ℕ) (hk : k < x.length) :
    e.Mmax k = max 0 (pos.getD k 0) ∧ e.Mmin k = min 0 (neg.getD k 0) ∧
    e.Mmax k ≤ mx.getD k 0 ∧ mn.getD k 0 ≤ e.Mmin k := by
  obtain ⟨hM, hm, -, -⟩ := C123_envelope A b cs e he x B B' hB hB' k
  obtain ⟨a1, a2⟩ := C38_extreme_over_sized_subsets as B x.length 1 neg pos ni pi ha k hk
  obtain ⟨s1, -, -⟩ := C37_extreme_over_subsets B x.length sp mn mx nm pm hs k hk
  have one : ∀ j (hj : j < B.length), neg.getD k 0 ≤ B[j].getD k 0 ∧ B[j].getD k 0 ≤ pos.getD k 0 ∧
      mn.getD k 0 ≤ B[j].getD k 0 ∧ B[j].getD k 0 ≤ mx.getD k 0 := by
    intro j hj
    have sub : ({j} : Finset ℕ) ⊆ Finset.range B.length := by simpa using hj
    have h1 := a1 {j} sub (by simp)
    have h2 := s1 {j} sub
    rw [subsetSum_singleton B k j hj] at h1 h2
    exact ⟨h1.1, h1.2, h2.1, h2.2⟩
  have zero := s1 ∅ (by simp)
  simp only [subsetSum, Finset.sum_empty] at zero
  have att : ∀ (l : List ℕ) (v : K), (l = ni.getD k [] ∧ v = neg.getD k 0) ∨
      (l = pi.getD k [] ∧ v = pos.getD k 0) → ∃ row ∈ B, row.getD k 0 = v := by
    intro l v h
    obtain ⟨_, l1, l2, l3⟩ := a2 l v h
    obtain ⟨j, rfl⟩ : ∃ j, l = [j] := List.length_eq_one_iff.1 (by exact_mod_cast l1)
    have hj := l2 j (by simp)
    refine ⟨B[j], List.getElem_mem _, ?_⟩
    rw [l3]
    simpa using (subsetSum_singleton B k j hj).symm
  obtain ⟨rn, hrn, en⟩ := att _ _ (.inl ⟨rfl, rfl⟩)
  obtain ⟨rp, hrp, ep⟩ := att _ _ (.inr ⟨rfl, rfl⟩)
  have ub : ∀ y ∈ ({0} ∪ {y | ∃ row ∈ B, row.getD k 0 = y} : Set K),
      y ≤ max 0 (pos.getD k 0) ∧ min 0 (neg.getD k 0) ≤ y ∧ y ≤ mx.getD k 0 ∧ mn.getD k 0 ≤ y := by
    rintro y (rfl | ⟨row, hrow, rfl⟩)
    · exact ⟨le_max_left _ _, min_le_left _ _, zero.2, zero.1⟩
    · obtain ⟨j, hj, rfl⟩ := List.getElem_of_mem hrow
      obtain ⟨o1, o2, o3, o4⟩ := one j hj
      exact ⟨o2.trans (le_max_right _ _), (min_le_right _ _).trans o1, o4, o3⟩
  refine ⟨le_antisymm (ub _ hM.1).1 (max_le (hM.2 (.inl rfl)) (hM.2 (.inr ⟨rp, hrp, ep⟩))),
    le_antisymm (le_min (hm.2 (.inl rfl)) (hm.2 (.inr ⟨rn, hrn, en⟩))) (ub _ hm.1).2.1,
    (ub _ hM.1).2.2.1, (ub _ hm.1).2.2.2⟩

/-! ### Examples -/

/-- Solves `exCases`, two combinations of them and a combination of these. -/
def exNestSolver : Solver ℚ := listSolver
  [fun p => [0, -2 / 3, 0, 2 / 3].getD p 0, fun p => [0, -1 / 2, 0, 1 / 2].getD p 0,
    fun p => [0, -1 / 3, 0, 1 / 3].getD p 0, fun p => [0, -5 / 6, 0, 5 / 6].getD p 0,
    fun p => [0, -1, 0, 1].getD p 0, fun p => [0, -17 / 6, 0, 17 / 6].getD p 0,
    fun p => [0, 1, 0, -1].getD p 0]

def exNestA : Analyser ℚ := ⟨fun _ => true, exNestSolver, 4⟩

deriving instance DecidableEq for Row, LCase

/-- Two combinations of `exCases`. -/
def exCombs : List (LComb ℚ) :=
  [⟨"ULS", .mapping [(.name "Q", -1), (.name "G", 2)]⟩, ⟨"SLS", .vec [1, 0, 1]⟩]

/-- The same as load cases. -/
def exNested : List (LCase ℚ) :=
  [⟨"ULS", [⟨1, 1, [24]⟩, ⟨1, 2, [-12, 1]⟩], [0], none⟩,
    ⟨"SLS", [⟨1, 1, [12]⟩, ⟨1, 1, [6]⟩], [0], none⟩]

/-- C121 at the simple span: `ULS + 2 SLS` is `4 G - Q + 2 W`, in the combined deflections and in
the analysis of the combined loads. -/
example : ∃ p p' r r',
    lcCombine (exSimple none none []) exNestA.stable exNestA.solve exNestA.npts exCases
      (.vec [4, -1, 2]) .D = .ok p ∧
    lcCombine (exSimple none none []) exNestA.stable exNestA.solve exNestA.npts exNested
      (.vec [1, 2]) .D = .ok p' ∧
    analyzeCombination (exSimple none none []) exNestA.stable exNestA.solve exNestA.npts exCases
      (.vec [4, -1, 2]) = .ok r ∧
    analyzeCombination (exSimple none none []) exNestA.stable exNestA.solve exNestA.npts exNested
      (.vec [1, 2]) = .ok r' ∧
    p' = p ∧ p.2.getD 3 0 ≠ 0 ∧ concatResults r'.2 MRes.D = concatResults r.2 MRes.D := by
  obtain ⟨p, h1, h1'⟩ := ok_of_map (x := lcCombine (exSimple none none []) exNestA.stable
    exNestA.solve exNestA.npts exCases (.vec [4, -1, 2]) .D)
    (f := fun p => decide (p.2.getD 3 0 ≠ 0)) (y := true) (by decide +kernel)
  obtain ⟨p', h2, -⟩ := ok_of_map (x := lcCombine (exSimple none none []) exNestA.stable
    exNestA.solve exNestA.npts exNested (.vec [1, 2]) .D) (f := fun _ => ()) (y := ())
    (by decide +kernel)
  obtain ⟨r, h3, -⟩ := ok_of_map (x := analyzeCombination (exSimple none none []) exNestA.stable
    exNestA.solve exNestA.npts exCases (.vec [4, -1, 2])) (f := fun _ => ()) (y := ())
    (by decide +kernel)
  obtain ⟨r', h4, -⟩ := ok_of_map (x := analyzeCombination (exSimple none none []) exNestA.stable
    exNestA.solve exNestA.npts exNested (.vec [1, 2])) (f := fun _ => ()) (y := ())
    (by decide +kernel)
  have hds : List.Forall₂ (fun c d => LComb.toLoadCase c (some exCases) none = .ok d) exCombs
      exNested := by
    refine .cons ?_ (.cons ?_ .nil) <;> decide +kernel
  have hF : List.Forall₂ (fun c f => lcFactors exCases (LComb.spec c) = .ok f) exCombs
      [[2, -1, 0], [1, 0, 1]] := by
    refine .cons ?_ (.cons ?_ .nil) <;> rfl
  have hgh : ProductFactors exCases.length ([1, 2] : List ℚ) [[2, -1, 0], [1, 0, 1]] [4, -1, 2] := by
    refine ⟨rfl, fun j hj => ?_⟩
    have hj : j < 3 := hj
    interval_cases j <;> norm_num [Finset.sum_range_succ]
  have hb : SameBc (exSimple none none []) exCases := .inl (by simp [exSimple, exPrismatic])
  have e1 := C121_nested_partial exNestA (listSolver_sound _) (exSimple none none []) exCases exNested
    exCombs none hds _ hF _ _ hgh .D p.1 p.2 p'.1 p'.2 h1 h2
    (fun LM s h => exSimple_nonsingular none none LM s h) (fun v hv => by simp [exSimple] at hv)
    (.inr (.inr hb))
  have e2 := C121_nested_analysis_partial exNestA (listSolver_sound _) (exSimple none none []) exCases
    exNested exCombs none hds _ hF _ _ hgh .D p p' r r' h1 h2 h3 h4
    (fun LM s h => exSimple_nonsingular none none LM s h) (fun v hv => by simp [exSimple] at hv)
    (.inr (.inr hb))
  exact ⟨p, p', r, r', h1, h2, h3, h4, Prod.ext e1.1 e1.2, by simpa using h1', e2.2⟩

/-- C122 at three cases: one is replaced, one refused, one added. -/
example : lcFactors (lcRun exCases [.set ⟨"Q", [], [], none⟩, .add ⟨"W", [], [], none⟩,
      .add ⟨"S", [], [], none⟩]) (.mapping [(.name "W", 3), (.index 0, 2)]) = .ok [2, 0, 3, 0] ∧
    lcFactors (lcRun exCases [.add ⟨"W", [], [], none⟩]) (.vec [1, 2, 3]) = .ok [1, 2, 3] ∧
    lcFactors (lcRun exCases [.add ⟨"S", [], [], none⟩]) (.vec [1, 2, 3]) = .error .valueError := by
  refine ⟨?_, rfl, rfl⟩
  have := (C122_mapping exCases (by decide +kernel) [.set ⟨"Q", [], [], none⟩,
    .add ⟨"W", [], [], none⟩, .add ⟨"S", [], [], none⟩] [(.name "W", 3), (.index 0, 2)]
    (by simp [FKey.Stable]) [2, 0, 3] rfl).2
  exact this

/-- **C122 fails** for positions from the end: a combination of the last case becomes, when a case is
added, a combination of the new case, without a complaint. -/
theorem C122_negative_index_violation :
    ∃ (cs : List (LCase ℚ)) (c : LCase ℚ) (items : List (FKey × ℚ)),
      (lcNames cs).Nodup ∧ lcFactors cs (.mapping items) = .ok [0, 0, 1] ∧
      lcFactors (lcRun cs [.add c]) (.mapping items) = .ok [0, 0, 0, 1] :=
  ⟨exCases, ⟨"S", [], [], none⟩, [(.index (-1), 1)], by decide +kernel, rfl, rfl⟩

/-- **C122 fails** for the meaning of a target combination: it is bound to the collection itself, so
when a load is later added to a case it goes on with its old selection. Here the selection
for the largest moment at mid-span gives 3 on the changed collection, where another gives
12; and when a case is added, every use of it raises. -/
theorem C122_target_violation :
    ∃ (A : Analyser ℚ) (b : BeamDef ℚ) (cs : List (LCase ℚ)) (f vals : List ℚ) (r : Row ℚ)
      (c : LComb ℚ) (p q : List ℚ × List ℚ), A.solve.Sound ∧
      targetCombination b A.stable A.solve A.npts cs 1 "max" .M 1 0 = .ok (f, vals) ∧
      c.spec = .vec f ∧
      c.response A b none (some (lcRun cs [.addLoad "W" r])) .M = .ok p ∧
      responseAt p.1 1 p.2 = .ok 3 ∧
      (∃ g : List ℚ, (∀ a ∈ g, a = 1 ∨ a = 0) ∧
        lcCombine b A.stable A.solve A.npts (lcRun cs [.addLoad "W" r]) (.vec g) .M = .ok q) ∧
      responseAt q.1 1 q.2 = .ok 12 ∧
      (∀ d : LCase ℚ, d.name ∉ lcNames cs →
        c.toLM none (some (lcRun cs [.add d])) = .error .valueError) := by
  obtain ⟨p, h1, h1'⟩ := ok_of_map (x := LComb.response exNestA (exSimple none none [])
    ⟨"T", .vec [1, 1, 1]⟩ none (some (lcRun exCases [.addLoad "W" ⟨1, 1, [-24]⟩])) .M)
    (f := fun p => responseAt p.1 1 p.2) (y := .ok 3) (by decide +kernel)
  obtain ⟨q, h2, h2'⟩ := ok_of_map (x := lcCombine (exSimple none none []) exNestA.stable
    exNestA.solve exNestA.npts (lcRun exCases [.addLoad "W" ⟨1, 1, [-24]⟩]) (.vec [1, 1, 0]) .M)
    (f := fun p => responseAt p.1 1 p.2) (y := .ok 12) (by decide +kernel)
  refine ⟨exNestA, exSimple none none [], exCases, [1, 1, 1], [6, 6, 3], ⟨1, 1, [-24]⟩,
    ⟨"T", .vec [1, 1, 1]⟩, p, q, listSolver_sound _, by decide +kernel, rfl, h1, h1',
    ⟨[1, 1, 0], by simp, h2⟩, h2', fun d hd => ?_⟩
  have e : lcRun exCases [.add d] = exCases ++ [d] := by
    show (lcAdd exCases d).1 = _
    rw [lcAdd, if_neg hd]
  rw [e]
  rfl

/-- C123 at the simple span: the largest moments of the three cases at mid-span. -/
example : ∃ e B B' x, lcEnvelope exNestA (exSimple none none []) exCases = .ok e ∧
    responseMatrix (exSimple none none []) exNestA.stable exNestA.solve exNestA.npts exCases .M
      = .ok (x, B) ∧
    responseMatrix (exSimple none none []) exNestA.stable exNestA.solve exNestA.npts exCases .V
      = .ok (x, B') ∧ e.Mmax 3 = 6 ∧ e.Mmin 3 = 0 ∧
    (∃ a, additiveEnvelope insArgsort B x.length 1 = .ok a) ∧
    ∃ s, signSelective B x.length none = .ok s := by
  obtain ⟨e, h1, h1'⟩ := ok_of_map (x := lcEnvelope exNestA (exSimple none none []) exCases)
    (f := fun e => (e.Mmax 3, e.Mmin 3)) (y := ((6 : ℚ), (0 : ℚ))) (by decide +kernel)
  obtain ⟨⟨x, B⟩, h2, h2'⟩ := ok_of_map (x := responseMatrix (exSimple none none []) exNestA.stable
    exNestA.solve exNestA.npts exCases .M) (f := fun p => (p.1, p.2.length))
    (y := ([0, 0, 1 / 2, 1, 3 / 2, 2, 2], 3)) (by decide +kernel)
  obtain ⟨⟨x', B'⟩, h3, h3'⟩ := ok_of_map (x := responseMatrix (exSimple none none []) exNestA.stable
    exNestA.solve exNestA.npts exCases .V) (f := fun p => p.1)
    (y := [0, 0, 1 / 2, 1, 3 / 2, 2, 2]) (by decide +kernel)
  have ex : x' = x := by
    have := congrArg Prod.fst h2'
    simp only at this h3'
    rw [this, h3']
  subst ex
  have hl : B.length = 3 := congrArg Prod.snd h2'
  refine ⟨e, B, B', x', h1, h2, h3, congrArg Prod.fst h1', congrArg Prod.snd h1',
    (C38_refusal insArgsort B x'.length 1).2 (by norm_num) (by omega), ?_⟩
  exact ⟨_, rfl⟩

end PyCBA
