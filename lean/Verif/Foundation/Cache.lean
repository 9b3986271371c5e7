import Verif.Foundation.Curve

/-!
C115: the cache of the foundation super-elements.
-/

set_option linter.unusedSectionVars false
set_option linter.unusedSimpArgs false

namespace PyCBA

open Matrix Finset

/-! ### Model -/

/-- A beam with `_found_cache`, `beam.py` 101-103. -/
structure FState where
  beam : FBeam
  cache : ℕ → Option (FoundEl ℝ)

/-- `Beam._foundation`, `beam.py` 682-714, with the cache: the answer (or exception) and the
state after the call. -/
noncomputable def FState.foundation (inv : Inverter ℝ) (σ : FState) (m : Member ℝ) (i : ℕ) (kf : ℝ) :
    Except PyErr (FoundEl ℝ) × FState :=
  match σ.cache i with
  | some E => (.ok E, σ)
  | none => match spanFoundation inv m kf with
    | .error e => (.error e, σ)
    | .ok E => (.ok E, { σ with cache := fun j => if j = i then some E else σ.cache j })

/-- `Beam.get_span_k`, `beam.py` 884-918. -/
noncomputable def FState.getK (inv : Inverter ℝ) (σ : FState) (mi : Member ℝ × ℕ) :
    Except PyErr (Mat4 ℝ) × FState :=
  match σ.beam.kfAt mi.2 with
  | none => (mi.1.spanK, σ)
  | some kf =>
    let q := σ.foundation inv mi.1 mi.2 kf
    (match q.1 with | .error e => .error e | .ok E => .ok E.k, q.2)

/-- `Beam.get_ref`, `beam.py` 716-752, for the loads `ls`. -/
noncomputable def FState.getRef (inv : Inverter ℝ) (ls : List (SpanLoad ℝ)) (σ : FState)
    (mi : Member ℝ × ℕ) : Except PyErr (Vec4 ℝ) × FState :=
  match σ.beam.kfAt mi.2 with
  | none => (match mi.1.refSum mi.2 ls with | .error e => .error e | .ok c => .ok c.vec, σ)
  | some kf =>
    let q := σ.foundation inv mi.1 mi.2 kf
    (match q.1 with | .error e => .error e | .ok E => E.ref (ownLoads mi.2 ls), q.2)

/-- A loop over a list with state, stopped by the first exception. -/
def mapS {σ α β : Type*} (f : σ → α → Except PyErr β × σ) : σ → List α → Except PyErr (List β) × σ
  | s, [] => (.ok [], s)
  | s, a :: l =>
    let q := f s a
    match q.1 with
    | .error e => (.error e, q.2)
    | .ok v =>
      let t := mapS f q.2 l
      (match t.1 with | .error e => .error e | .ok w => .ok (v :: w), t.2)

/-- `_forces` and `_assemble`, `analysis.py` 603-612, 672-686, as `FBeam.system`, with the
cache. -/
noncomputable def FState.system (inv : Inverter ℝ) (σ : FState) : Except PyErr (System ℝ) × FState :=
  match σ.beam.setLoads with
  | .error e => (.error e, σ)
  | .ok ls =>
    let q := mapS (FState.getRef inv ls) σ σ.beam.members.zipIdx
    match q.1 with
    | .error e => (.error e, q.2)
    | .ok refs =>
      let t := mapS (FState.getK inv) q.2 σ.beam.members.zipIdx
      match t.1 with
      | .error e => (.error e, t.2)
      | .ok ks =>
        (if σ.beam.restraints.length < 2 * σ.beam.members.length + 2 ∨
            σ.beam.presc.length < 2 * σ.beam.members.length + 2 then .error .indexError
        else .ok
          { n := σ.beam.members.length
            kb := fun i => ks.getD i 0
            ref := fun i => refs.getD i 0
            r := fun i => σ.beam.restraints.getD i 0
            presc := fun i => σ.beam.presc.getD i none }, t.2)

/-- `BeamAnalysis.analyze`, `analysis.py` 447-466, as `FBeam.analyze`, with the cache. -/
noncomputable def FState.analyze (inv : Inverter ℝ) (stable : System ℝ → Bool) (solve : Solver ℝ)
    (σ : FState) : Except PyErr (Result ℝ) × FState :=
  let q := σ.system inv
  (match q.1 with
    | .error e => .error e
    | .ok s =>
      if s.validate s.forces ∧ ¬ stable s then .error .valueError else s.analyze solve, q.2)

/-- What a program can do with a beam: `add_span` (`beam.py` 192-243), the loads (`beam.py`
277-345), the setters of restraints and prescribed displacements (`beam.py` 346-421), the
queries `get_span_k`, `get_ref`, and an analysis. -/
inductive FOp
  | addSpan (m : Member ℝ) (kf : Option ℝ)
  | loads (LM : List (Row ℝ))
  | restraints (r : List ℝ)
  | prescribed (d : List (Option ℝ))
  | spanK (i : ℕ)
  | spanRef (i : ℕ)
  | analyze (stable : System ℝ → Bool) (solve : Solver ℝ)

/-- One step; only `add_span` empties the cache (`beam.py` 243). -/
noncomputable def FState.step (inv : Inverter ℝ) (σ : FState) : FOp → FState
  | .addSpan m kf =>
    ⟨{ σ.beam with members := σ.beam.members ++ [m], kf := σ.beam.kf ++ [kf] }, fun _ => none⟩
  | .loads LM => { σ with beam := { σ.beam with LM := LM } }
  | .restraints r => { σ with beam := { σ.beam with restraints := r } }
  | .prescribed d => { σ with beam := { σ.beam with presc := d } }
  | .spanK i => match σ.beam.members[i]? with
    | none => σ
    | some m => (σ.getK inv (m, i)).2
  | .spanRef i => match σ.beam.members[i]?, σ.beam.setLoads with
    | some m, .ok ls => (σ.getRef inv ls (m, i)).2
    | _, _ => σ
  | .analyze stable solve => (σ.analyze inv stable solve).2

/-- A program. -/
noncomputable def FState.run (inv : Inverter ℝ) : FState → List FOp → FState
  | σ, [] => σ
  | σ, o :: l => (σ.step inv o).run inv l

/-- The new beam, `beam.py` 92-110. -/
noncomputable def FState.init : FState := ⟨⟨⟨[], [], [], []⟩, []⟩, fun _ => none⟩

/-! ### The cache is never stale -/

/-- Every element in the cache is the one that would be built now. -/
def FState.Fresh (inv : Inverter ℝ) (σ : FState) : Prop :=
  ∀ i E, σ.cache i = some E → ∃ (hi : i < σ.beam.members.length) (k : ℝ),
    σ.beam.kfAt i = some k ∧ spanFoundation inv σ.beam.members[i] k = .ok E

theorem FState.foundation_fresh {inv : Inverter ℝ} {σ : FState} (h : σ.Fresh inv) (i : ℕ)
    (hi : i < σ.beam.members.length) (kf : ℝ) (hk : σ.beam.kfAt i = some kf) :
    (σ.foundation inv σ.beam.members[i] i kf).1 = spanFoundation inv σ.beam.members[i] kf ∧
    (σ.foundation inv σ.beam.members[i] i kf).2.beam = σ.beam ∧
    (σ.foundation inv σ.beam.members[i] i kf).2.Fresh inv := by
  unfold FState.foundation
  split
  · rename_i E hE
    obtain ⟨hi', k, h1, h2⟩ := h i E hE
    rw [hk] at h1
    cases h1
    exact ⟨h2.symm, rfl, h⟩
  · rename_i hE
    split
    · rename_i e he
      exact ⟨he.symm, rfl, h⟩
    · rename_i E he
      refine ⟨he.symm, rfl, ?_⟩
      intro j F hF
      simp only at hF
      split at hF
      · rename_i hj
        subst hj
        cases hF
        exact ⟨hi, kf, hk, he⟩
      · exact h j F hF

theorem FState.getK_fresh {inv : Inverter ℝ} {σ : FState} (h : σ.Fresh inv) (i : ℕ)
    (hi : i < σ.beam.members.length) :
    (σ.getK inv (σ.beam.members[i], i)).1 = spanKf inv σ.beam.members[i] (σ.beam.kfAt i) ∧
    (σ.getK inv (σ.beam.members[i], i)).2.beam = σ.beam ∧
    (σ.getK inv (σ.beam.members[i], i)).2.Fresh inv := by
  unfold FState.getK
  simp only
  split
  · rename_i hk
    rw [hk]
    exact ⟨rfl, rfl, h⟩
  · rename_i kf hk
    obtain ⟨h1, h2, h3⟩ := FState.foundation_fresh h i hi kf hk
    refine ⟨?_, h2, h3⟩
    simp only [h1, hk, spanKf]
    cases spanFoundation inv σ.beam.members[i] kf <;> rfl

theorem FState.getRef_fresh {inv : Inverter ℝ} {σ : FState} (h : σ.Fresh inv)
    (ls : List (SpanLoad ℝ)) (i : ℕ) (hi : i < σ.beam.members.length) :
    (σ.getRef inv ls (σ.beam.members[i], i)).1
      = spanRef inv σ.beam.members[i] i ls (σ.beam.kfAt i) ∧
    (σ.getRef inv ls (σ.beam.members[i], i)).2.beam = σ.beam ∧
    (σ.getRef inv ls (σ.beam.members[i], i)).2.Fresh inv := by
  unfold FState.getRef
  simp only
  split
  · rename_i hk
    rw [hk]
    exact ⟨rfl, rfl, h⟩
  · rename_i kf hk
    obtain ⟨h1, h2, h3⟩ := FState.foundation_fresh h i hi kf hk
    refine ⟨?_, h2, h3⟩
    simp only [h1, hk, spanRef]
    cases spanFoundation inv σ.beam.members[i] kf <;> rfl

/-- A loop whose steps answer as a function and keep an invariant. -/
theorem mapS_inv {σ α β : Type*} {f : σ → α → Except PyErr β × σ} {g : α → Except PyErr β}
    {P : σ → Prop} (l : List α) (hf : ∀ s, P s → ∀ a ∈ l, (f s a).1 = g a ∧ P (f s a).2) (s : σ)
    (hs : P s) : (mapS f s l).1 = mapE g l ∧ P (mapS f s l).2 := by
  induction l generalizing s with
  | nil => exact ⟨rfl, hs⟩
  | cons a l ih =>
    obtain ⟨h1, h2⟩ := hf s hs a (by simp)
    simp only [mapS, mapE]
    rw [h1]
    cases g a with
    | error e => exact ⟨rfl, h2⟩
    | ok v =>
      obtain ⟨h3, h4⟩ := ih (fun s hs a ha => hf s hs a (by simp [ha])) _ h2
      simp only [h3]
      exact ⟨by cases mapE g l <;> rfl, h4⟩

theorem FState.system_fresh {inv : Inverter ℝ} {σ : FState} (h : σ.Fresh inv) :
    (σ.system inv).1 = σ.beam.system inv ∧ (σ.system inv).2.beam = σ.beam ∧
      (σ.system inv).2.Fresh inv := by
  unfold FState.system FBeam.system
  cases hls : σ.beam.setLoads with
  | error e => exact ⟨rfl, rfl, h⟩
  | ok ls =>
    have hz : ∀ mi ∈ σ.beam.members.zipIdx, ∃ hi : mi.2 < σ.beam.members.length,
        mi = (σ.beam.members[mi.2], mi.2) := by
      intro mi hmi
      obtain ⟨q1, q2, q3⟩ := List.mem_zipIdx (x := mi.1) (i := mi.2) (k := 0) hmi
      exact ⟨by omega, Prod.ext (by simpa using q3) rfl⟩
    obtain ⟨a1, a2, a3⟩ := mapS_inv (f := FState.getRef inv ls)
      (g := fun mi : Member ℝ × ℕ => spanRef inv mi.1 mi.2 ls (σ.beam.kfAt mi.2))
      (P := fun τ => τ.beam = σ.beam ∧ τ.Fresh inv) σ.beam.members.zipIdx (by
        rintro τ ⟨t1, t2⟩ mi hmi
        obtain ⟨hi, e⟩ := hz mi hmi
        have := FState.getRef_fresh t2 ls mi.2 (by rw [t1]; exact hi)
        simp only [t1, ← e] at this
        refine ⟨?_, this.2⟩
        rw [this.1, show mi.1 = σ.beam.members[mi.2] from congrArg Prod.fst e]) σ ⟨rfl, h⟩
    simp only [a1]
    rcases mapE (fun mi : Member ℝ × ℕ => spanRef inv mi.1 mi.2 ls (σ.beam.kfAt mi.2))
      σ.beam.members.zipIdx with e | refs
    · exact ⟨rfl, a2, a3⟩
    obtain ⟨b1, b2, b3⟩ := mapS_inv (f := FState.getK inv)
      (g := fun mi : Member ℝ × ℕ => spanKf inv mi.1 (σ.beam.kfAt mi.2))
      (P := fun τ => τ.beam = σ.beam ∧ τ.Fresh inv) σ.beam.members.zipIdx (by
        rintro τ ⟨t1, t2⟩ mi hmi
        obtain ⟨hi, e⟩ := hz mi hmi
        have := FState.getK_fresh t2 mi.2 (by rw [t1]; exact hi)
        simp only [t1, ← e] at this
        refine ⟨?_, this.2⟩
        rw [this.1, show mi.1 = σ.beam.members[mi.2] from congrArg Prod.fst e]) _ ⟨a2, a3⟩
    simp only [b1]
    rcases mapE (fun mi : Member ℝ × ℕ => spanKf inv mi.1 (σ.beam.kfAt mi.2))
      σ.beam.members.zipIdx with e | ks
    · exact ⟨rfl, b2, b3⟩
    · exact ⟨rfl, b2, b3⟩

theorem FState.step_fresh {inv : Inverter ℝ} {σ : FState} (h : σ.Fresh inv) (o : FOp) :
    (σ.step inv o).Fresh inv := by
  cases o with
  | addSpan m kf => intro i E hE; cases hE
  | loads LM => exact h
  | restraints r => exact h
  | prescribed d => exact h
  | spanK i =>
    simp only [FState.step]
    split
    · exact h
    · rename_i m hm
      obtain ⟨hi, rfl⟩ := List.getElem?_eq_some_iff.1 hm
      exact (FState.getK_fresh h i hi).2.2
  | spanRef i =>
    simp only [FState.step]
    split
    · rename_i m ls hm hls
      obtain ⟨hi, rfl⟩ := List.getElem?_eq_some_iff.1 hm
      exact (FState.getRef_fresh h ls i hi).2.2
    · exact h
  | analyze stable solve => exact (FState.system_fresh h).2.2

theorem FState.run_fresh {inv : Inverter ℝ} (l : List FOp) {σ : FState} (h : σ.Fresh inv) :
    (σ.run inv l).Fresh inv := by
  induction l generalizing σ with
  | nil => exact h
  | cons o l ih => exact ih (FState.step_fresh h o)

/-- **C115**: after any program of additions of spans, changes of loads, restraints and
prescribed displacements, queries and analyses, an analysis with the cache gives what an
analysis of the beam as it is now gives without a cache, and leaves the beam alone.  Missing:
a program that assigns to the entries of the public lists `mbr_kf`, `mbr_EIs`, `mbr_lengths`
(`C115_edit_violation`). -/
theorem C115_cache_partial (inv : Inverter ℝ) (l : List FOp) (stable : System ℝ → Bool)
    (solve : Solver ℝ) :
    ((FState.init.run inv l).analyze inv stable solve).1
      = (FState.init.run inv l).beam.analyze inv stable solve ∧
    ((FState.init.run inv l).analyze inv stable solve).2.beam = (FState.init.run inv l).beam := by
  have h : (FState.init.run inv l).Fresh inv :=
    FState.run_fresh l (fun i E hE => by cases hE)
  obtain ⟨h1, h2, -⟩ := FState.system_fresh h
  simp only [FState.analyze, FBeam.analyze, h1]
  exact ⟨rfl, h2⟩

/-- The queries answer as without a cache, too. -/
theorem C115_queries (inv : Inverter ℝ) (l : List FOp) (i : ℕ) (m : Member ℝ)
    (hm : (FState.init.run inv l).beam.members[i]? = some m) :
    ((FState.init.run inv l).getK inv (m, i)).1
      = spanKf inv m ((FState.init.run inv l).beam.kfAt i) ∧
    ∀ ls, ((FState.init.run inv l).getRef inv ls (m, i)).1
      = spanRef inv m i ls ((FState.init.run inv l).beam.kfAt i) := by
  have h : (FState.init.run inv l).Fresh inv :=
    FState.run_fresh l (fun i E hE => by cases hE)
  obtain ⟨hi, rfl⟩ := List.getElem?_eq_some_iff.1 hm
  exact ⟨(FState.getK_fresh h i hi).1, fun ls => (FState.getRef_fresh h ls i hi).1⟩

/-! ### Assignments to the public lists -/

/-- The program that makes `floatBeam`. -/
noncomputable def floatProgram (EI L k w : ℝ) : List FOp :=
  [.addSpan ⟨.const EI, L, .FF, none⟩ (some k), .restraints [0, 0, 0, 0],
    .prescribed [none, none, none, none], .loads [⟨1, 1, [w]⟩]]

theorem floatProgram_run (inv : Inverter ℝ) (EI L k w : ℝ) :
    FState.init.run inv (floatProgram EI L k w) = ⟨floatBeam EI L k w, fun _ => none⟩ := rfl

/-- A system whose only member has its element in the cache is that of the beam for which the
element was made, whatever modulus the list says. -/
theorem floatBeam_stale (inv : Inverter ℝ) (EI L k k' w : ℝ) (E : FoundEl ℝ)
    (hE : spanFoundation inv ⟨.const EI, L, .FF, none⟩ k = .ok E) (τ : FState)
    (hb : τ.beam = floatBeam EI L k' w) (hc : τ.cache 0 = some E) :
    (τ.system inv).1 = (floatBeam EI L k w).system inv := by
  have hls : ∀ k, (floatBeam EI L k w).setLoads = .ok [⟨0, .udl w⟩] := by
    intro k
    simp [BeamDef.setLoads, floatBeam, parseLM, parseRow]
  have hz : ∀ k, (floatBeam EI L k w).members.zipIdx = [(⟨.const EI, L, .FF, none⟩, 0)] :=
    fun k => rfl
  have hk : ∀ k, (floatBeam EI L k w).kfAt 0 = some k := fun k => rfl
  unfold FState.system FBeam.system
  rw [hb, hls, hls, hz, hz]
  simp only [mapS, mapE, FState.getRef, hb, hk, FState.foundation, hc, spanRef, hE]
  cases hr : E.ref (ownLoads 0 [⟨0, .udl w⟩]) with
  | error e => rfl
  | ok r =>
    simp only [FState.getK, hb, hk, FState.foundation, hc, spanKf, hE]
    rfl

/-- An analysis of the floating span leaves its element in the cache. -/
theorem floatBeam_cached (inv : Inverter ℝ) (EI L k w : ℝ) (stable : System ℝ → Bool)
    (solve : Solver ℝ) (s : System ℝ) (h : (floatBeam EI L k w).system inv = .ok s) :
    ∃ E, spanFoundation inv ⟨.const EI, L, .FF, none⟩ k = .ok E ∧
      (FState.analyze inv stable solve ⟨floatBeam EI L k w, fun _ => none⟩).2.cache 0 = some E := by
  have hz : (floatBeam EI L k w).members.zipIdx = [(⟨.const EI, L, .FF, none⟩, 0)] := rfl
  have hkf : (floatBeam EI L k w).kfAt 0 = some k := rfl
  have hls : (floatBeam EI L k w).setLoads = .ok [⟨0, .udl w⟩] := by
    simp [BeamDef.setLoads, floatBeam, parseLM, parseRow]
  have hown : ownLoads 0 [(⟨0, .udl w⟩ : SpanLoad ℝ)] = [.udl w] := by simp [ownLoads]
  obtain ⟨-, -, ⟨ls, q, href⟩, -⟩ := FBeam.system_ok h
  rw [hls] at q
  cases q
  have hr := href 0 (by simp [floatBeam])
  rw [hkf] at hr
  change spanRef inv ⟨.const EI, L, .FF, none⟩ 0 _ (some k) = _ at hr
  simp only [spanRef] at hr
  split at hr
  · cases hr
  rename_i E hE
  refine ⟨E, hE, ?_⟩
  rw [hown] at hr
  simp only [FState.analyze, FState.system]
  simp only [hls, hz, mapS, FState.getRef, hkf, FState.foundation, hE, hown, hr, FState.getK]
  simp

/-- **C115 fails** for assignments to the public lists: after an analysis of a span floating on
a foundation of modulus `k`, `beam.mbr_kf[0] = k'` changes nothing: the next analysis again
finds the displacement `v` for `k`, although an analysis of the beam as it now is finds
`k v / k'`. -/
theorem C115_edit_violation (EI L k k' v : ℝ) (hEI : 0 < EI) (hL : 0 < L) (hk : 0 < k)
    (hk' : 0 < k') (inv : Inverter ℝ) (hS : inv.Sound) (stable stable1 stable2 : System ℝ → Bool)
    (solve solve1 solve2 : Solver ℝ) (hs1 : solve1.Sound) (hs2 : solve2.Sound)
    (res res1 res2 : Result ℝ) (σ τ : FState)
    (hσ : σ = FState.init.run inv (floatProgram EI L k (-(k * v))))
    (h : (σ.analyze inv stable solve).1 = .ok res)
    (hτ : τ = { (σ.analyze inv stable solve).2 with
      beam := { (σ.analyze inv stable solve).2.beam with kf := [some k'] } })
    (h1 : (τ.analyze inv stable1 solve1).1 = .ok res1)
    (h2 : τ.beam.analyze inv stable2 solve2 = .ok res2) :
    res1.d 0 = v ∧ res2.d 0 = k * v / k' := by
  rw [floatProgram_run] at hσ
  have hfr : σ.Fresh inv := by
    rw [hσ]
    intro i E hE
    cases hE
  obtain ⟨f1, f2, -⟩ := FState.system_fresh hfr
  have hb : σ.beam = floatBeam EI L k (-(k * v)) := by rw [hσ]
  have hsys : ∃ s, (floatBeam EI L k (-(k * v))).system inv = .ok s := by
    rw [← hb]
    simp only [FState.analyze, f1] at h
    split at h
    · cases h
    · exact ⟨_, by assumption⟩
  obtain ⟨s, hsys⟩ := hsys
  obtain ⟨E, hE, hcache⟩ := floatBeam_cached inv EI L k (-(k * v)) stable solve s hsys
  rw [← hσ] at hcache
  have hτb : τ.beam = floatBeam EI L k' (-(k * v)) := by
    rw [hτ]
    simp only [FState.analyze]
    rw [f2, hb]
    rfl
  have hstale := floatBeam_stale inv EI L k k' (-(k * v)) E hE τ hτb (by rw [hτ]; exact hcache)
  constructor
  · have h1' : (floatBeam EI L k (-(k * v))).analyze inv stable1 solve1 = .ok res1 := by
      simp only [FState.analyze, hstale] at h1
      exact h1
    have := floatBeam_solution EI L k v hEI hL hk inv hS stable1 solve1 hs1 res1 h1'
    simpa [elemVec] using congrFun this 0
  · have e : -(k * v) = -(k' * (k * v / k')) := by field_simp
    rw [hτb, e] at h2
    have := floatBeam_solution EI L k' _ hEI hL hk' inv hS stable2 solve2 hs2 res2 h2
    simpa [elemVec] using congrFun this 0

/-- C115 and its violation: a span with modulus 50 under the load 300 is analysed, then
`mbr_kf[0]` is set to 100 and it is analysed again. -/
example : ∃ (solve solve2 : Solver ℝ) (res res1 res2 : Result ℝ) (σ τ : FState),
    σ = FState.init.run anyInverter (floatProgram 1000 8 50 (-(50 * 6))) ∧
    (σ.analyze anyInverter (fun _ => true) solve).1 = .ok res ∧
    τ = { (σ.analyze anyInverter (fun _ => true) solve).2 with
      beam := { (σ.analyze anyInverter (fun _ => true) solve).2.beam with kf := [some 100] } } ∧
    (τ.analyze anyInverter (fun _ => true) solve).1 = .ok res1 ∧
    τ.beam.analyze anyInverter (fun _ => true) solve2 = .ok res2 ∧
    res.d 0 = 6 ∧ res1.d 0 = 6 ∧ res2.d 0 = 3 := by
  obtain ⟨solve, hs, res, h, -⟩ := floatBeam_completes 1000 8 50 (-(50 * 6)) (by norm_num)
    (by norm_num) (by norm_num) 1
  obtain ⟨solve2, hs2, res2, h2, -⟩ := floatBeam_completes 1000 8 100 (-(50 * 6)) (by norm_num)
    (by norm_num) (by norm_num) 1
  obtain ⟨c1, c2⟩ := C115_cache_partial anyInverter (floatProgram 1000 8 50 (-(50 * 6)))
    (fun _ => true) solve
  obtain ⟨s, hsys, -⟩ := FBeam.analyze_ok h
  obtain ⟨E, hE, hc⟩ := floatBeam_cached anyInverter 1000 8 50 (-(50 * 6)) (fun _ => true) solve s hsys
  set σ := FState.init.run anyInverter (floatProgram 1000 8 50 (-(50 * 6))) with hσ
  have hb : σ.beam = floatBeam 1000 8 50 (-(50 * 6)) := rfl
  rw [hb] at c1 c2
  rw [h] at c1
  set τ : FState := { (σ.analyze anyInverter (fun _ => true) solve).2 with
      beam := { (σ.analyze anyInverter (fun _ => true) solve).2.beam with kf := [some 100] } } with hτ
  have hτb : τ.beam = floatBeam 1000 8 100 (-(50 * 6)) := by
    rw [hτ]
    simp only [c2]
    rfl
  have hstale := floatBeam_stale anyInverter 1000 8 50 100 (-(50 * 6)) E hE τ hτb hc
  have h1 : (τ.analyze anyInverter (fun _ => true) solve).1 = .ok res := by
    rw [← h]
    unfold FState.analyze FBeam.analyze
    simp only [hstale]
    cases (floatBeam 1000 8 50 (-(50 * 6))).system anyInverter <;> rfl
  rw [← hτb] at h2
  obtain ⟨v1, v2⟩ := C115_edit_violation 1000 8 50 100 6 (by norm_num) (by norm_num) (by norm_num)
    (by norm_num) anyInverter anyInverter_sound _ _ _ solve solve solve2 hs hs2 res res res2 σ τ hσ c1
    hτ h1 h2
  refine ⟨solve, solve2, res, res, res2, σ, τ, hσ, c1, hτ, h1, h2, v1, v1, ?_⟩
  rw [v2]
  norm_num

end PyCBA
