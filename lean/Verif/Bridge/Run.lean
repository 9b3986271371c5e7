import Verif.Influence.Props
import Verif.Bridge.Shear
import Verif.Bridge.Vehicle

/-!
C108: what a vehicle does to a bridge is what its axles do one by one.

`BridgeAnalysis.run_vehicle` and `run_load_model` (`src/pycba/bridge.py` 412-442 and 542-595)
as whole functions, without plots and shear points: the positions, one analysis per position,
and the envelope of the results.
-/

set_option linter.unusedSectionVars false
set_option linter.unusedSimpArgs false

namespace PyCBA

variable {K : Type*} [Field K] [LinearOrder K] [IsStrictOrderedRing K]

/-! ### The model -/

/-- What an envelope reads of a `BeamResults` (`results.py` 72-78, 96-114, 421-424). -/
def envOf (r : Result K × List (MRes K)) : EnvRes K :=
  EnvRes.ofResults r.2 r.1.r.length fun q => r.1.r.getD q 0

/-- The analyses at a list of positions and their envelope: the loops of `run_vehicle`,
`bridge.py` 427-442, and of `run_load_model`, 558-589, with the load matrix of a position. -/
def runOver (A : Analyser K) (b : BeamB K) (LM : K → List (Row K)) (ps : List K) :
    Except PyErr (List (Result K × List (MRes K)) × Envelope K) :=
  match mapE (fun pos => runCase b.toDef A.stable A.solve A.npts (LM pos)) ps with
  | .error e => .error e
  | .ok rs => match Envelope.new (rs.map envOf) with
    | .error e => .error e
    | .ok env => .ok (rs, env)

/-- `run_vehicle`, `bridge.py` 412-447, without plots and shear points: the positions, the
results and the envelope. -/
def runVehicle [FloorRing K] (A : Analyser K) (b : BeamB K) (static : List (Row K))
    (v : Vehicle K) (step : K) (start stop : Option K) :
    Except PyErr (List K × List (Result K × List (MRes K)) × Envelope K) :=
  match runPositions b v step start stop with
  | .error e => .error e
  | .ok ps => match runOver A b (fun pos => addLM static (axleLM b v pos)) ps with
    | .error e => .error e
    | .ok q => .ok (ps, q)

/-- `run_load_model`, `bridge.py` 542-595, without plots and shear points. -/
def runLoadModel [FloorRing K] (A : Analyser K) (b : BeamB K) (static : List (Row K))
    (v : Vehicle K) (step w : K) (clearances : Option (K × K)) (start stop : Option K) :
    Except PyErr (List K × List (Result K × List (MRes K)) × Envelope K) :=
  match validateClearances clearances with
  | .error e => .error e
  | .ok _ => match runPositions b v step start stop with
    | .error e => .error e
    | .ok ps => match runOver A b
        (fun pos => addLM static (axleLM b v pos ++ laneLM b v w clearances pos)) ps with
      | .error e => .error e
      | .ok q => .ok (ps, q)

/-! ### What the words mean -/

/-- The load effects of a result: moment or shear at a station, or a reaction. -/
inductive IsEffect : (EnvRes K → K) → Prop
  | M (k : ℕ) : IsEffect fun r => r.M k
  | V (k : ℕ) : IsEffect fun r => r.V k
  | R (q : ℕ) : IsEffect fun r => r.R q

/-- `r` is the result of analysing the beam under the loads `LM`. -/
def Analysed (A : Analyser K) (b : BeamB K) (LM : List (Row K)) (r : EnvRes K) : Prop :=
  ∃ q, runCase b.toDef A.stable A.solve A.npts LM = .ok q ∧ r = envOf q

/-- `r` is the result under a unit force at `x`. -/
def UnitAt (A : Analyser K) (b : BeamB K) (x : K) (r : EnvRes K) : Prop :=
  ∃ row : Row K, row.PointIn b.lens 1 x ∧ Analysed A b [row] r

/-- The axles on the beam: their places and weights. -/
def Vehicle.onDeck (v : Vehicle K) (b : BeamB K) (pos : K) : List (K × K) :=
  (v.axles.filter fun cw => 0 ≤ pos - cw.1 ∧ pos - cw.1 ≤ b.lens.sum).map
    fun cw => (pos - cw.1, cw.2)

/-- The effect at a position, axle by axle: the effect of the static loads and, for every axle
on the beam, its weight times the effect of a unit force there (both without what the unloaded
beam already has from settlements of its supports, `r0`). -/
def axleByAxle (e : EnvRes K → K) (rs r0 : EnvRes K) (u : K → EnvRes K) (v : Vehicle K)
    (b : BeamB K) (pos : K) : K :=
  e rs + ((v.onDeck b pos).map fun xw => xw.2 * (e (u xw.1) - e r0)).sum

/-! ### Concatenated results superpose -/

theorem concat_read (f : MRes K → ℕ → K) (hf : f ⟨0, 0, 0, 0, 0, 0⟩ = 0) (ns : List ℕ) (k : ℕ) :
    ∃ j k', ∀ rs : List (MRes K), rs.map MRes.n = ns →
      (concatResults rs f).getD k 0 = f (rs.getD j ⟨0, 0, 0, 0, 0, 0⟩) k' := by
  induction ns generalizing k with
  | nil =>
    refine ⟨0, 0, fun rs h => ?_⟩
    rw [List.map_eq_nil_iff] at h
    subst h
    simp [concatResults, hf]
  | cons n ns ih =>
    by_cases hk : k < n
    · refine ⟨0, k, fun rs h => ?_⟩
      cases rs with
      | nil => simp at h
      | cons r rs =>
        simp only [List.map_cons, List.cons.injEq] at h
        simp only [concatResults, List.flatMap_cons, MRes.list, List.getD_cons_zero]
        rw [List.getD_append _ _ _ _ (by simpa [h.1] using hk), List.getD_eq_getElem?_getD,
          List.getElem?_map, List.getElem?_range (by omega)]
        rfl
    · obtain ⟨j, k', hj⟩ := ih (k - n)
      refine ⟨j + 1, k', fun rs h => ?_⟩
      cases rs with
      | nil => simp at h
      | cons r rs =>
        simp only [List.map_cons, List.cons.injEq] at h
        rw [List.getD_cons_succ, ← hj rs h.2]
        simp only [concatResults, List.flatMap_cons, MRes.list]
        rw [List.getD_append_right _ _ _ _ (by simp; omega)]
        simp [h.1]

theorem runCase_counts {b : BeamDef K} {stable : System K → Bool} {solve : Solver K} {npts : ℕ}
    {LM LM' : List (Row K)} {r r' : Result K × List (MRes K)}
    (h : runCase b stable solve npts LM = .ok r) (h' : runCase b stable solve npts LM' = .ok r') :
    r'.2.map MRes.n = r.2.map MRes.n := by
  obtain ⟨hl, -⟩ := BeamDef.memberResults_ok (runCase_ok h).2
  obtain ⟨hl', -⟩ := BeamDef.memberResults_ok (runCase_ok h').2
  simp only at hl hl'
  apply List.ext_getElem
  · simp [hl, hl']
  · intro i h1 h2
    simp only [List.length_map] at h1 h2
    obtain ⟨m', e1, e2, -⟩ := runCase_grid h h' (List.getElem?_eq_getElem h2)
    rw [List.getElem?_eq_getElem h1] at e1
    cases e1
    simp [e2]

/-- Every effect is read in one place of the member results or reactions. -/
theorem IsEffect.reading {e : EnvRes K → K} (he : IsEffect e) {b : BeamDef K}
    {stable : System K → Bool} {solve : Solver K} {npts : ℕ} {LM0 : List (Row K)}
    {r0 : Result K × List (MRes K)} (h0 : runCase b stable solve npts LM0 = .ok r0) :
    ∃ rd, IsReading rd ∧ ∀ LM r, runCase b stable solve npts LM = .ok r → e (envOf r) = rd r := by
  cases he with
  | M k =>
    obtain ⟨j, k', h⟩ := concat_read (K := K) MRes.M rfl (r0.2.map MRes.n) k
    exact ⟨_, .M j k', fun LM r hr => h _ (runCase_counts h0 hr)⟩
  | V k =>
    obtain ⟨j, k', h⟩ := concat_read (K := K) MRes.V rfl (r0.2.map MRes.n) k
    exact ⟨_, .V j k', fun LM r hr => h _ (runCase_counts h0 hr)⟩
  | R q => exact ⟨fun r => r.1.r.getD q 0, .R q, fun LM r hr => rfl⟩

/-- Readings superpose, with settlements when the weights sum to one. -/
theorem IsReading.comb' {rd : Result K × List (MRes K) → K} (hrd : IsReading rd)
    {b : BeamDef K} {stable : System K → Bool} {solve : Solver K}
    (hsol : solve.Sound) {npts : ℕ} {α : Type*} (L : List α) (w : α → K) (c : α → LCase K)
    (run : α → Result K × List (MRes K))
    (hrun : ∀ a ∈ L, runCase b stable solve npts (c a).loads = .ok (run a))
    (LM : List (Row K)) (hLM : CombOf b L w c (fun _ => true) LM)
    (r : Result K × List (MRes K)) (hr : runCase b stable solve npts LM = .ok r)
    (hpr : (L.map w).sum = 1)
    (hns : ∀ s, ({ b with LM := LM } : BeamDef K).system = .ok s → s.Nonsingular) :
    rd r = lsum L w fun a => rd (run a) := by
  have hk : ∀ a ∈ L, (fun _ : α => true) a = false → w a = 0 := fun _ _ h => by cases h
  have key : ∀ rp : Resp, rp = .M ∨ rp = .V → ∀ j k, rp.get (r.2.getD j ⟨0, 0, 0, 0, 0, 0⟩) k =
      lsum L w fun a => rp.get ((run a).2.getD j ⟨0, 0, 0, 0, 0, 0⟩) k := by
    intro rp hrp j k
    obtain ⟨h1, h2, h3⟩ := comb_results' b stable solve hsol npts L w c run hrun _ hk LM hLM r hr
      (fun v hv => .inr hpr) hns rp (by tauto)
    by_cases hj : j < b.members.length
    · have := (h3 j (by omega) (fun a ha => by rw [h2 a ha]; exact hj)).2 k
      rw [← this, List.getD_eq_getElem?_getD, List.getElem?_eq_getElem (by omega)]
      rfl
    · rw [List.getD_eq_getElem?_getD, List.getElem?_eq_none (by omega), lsum_zero]
      · rcases hrp with rfl | rfl <;> rfl
      · intro a ha
        rw [List.getD_eq_getElem?_getD, List.getElem?_eq_none (by rw [h2 a ha]; omega)]
        rcases hrp with rfl | rfl <;> rfl
  cases hrd with
  | V j k => exact key .V (.inr rfl) j k
  | M j k => exact key .M (.inl rfl) j k
  | R q =>
    exact comb_reactions b stable solve hsol npts L w c run hrun _ hk LM hLM r hr
      (fun v hv => .inr hpr) hns q

theorem Load.scale_one (l : Load K) : l.scale 1 = l := by
  cases l <;> simp [Load.scale]

theorem SpanLoad.scale_one (l : SpanLoad K) : l.scale 1 = l := by
  cases l
  simp [SpanLoad.scale, Load.scale_one]

/-- A weighted sum of load matrices gives the weighted sum of the effects (over those of the
unloaded beam). -/
theorem IsEffect.comb {e : EnvRes K → K} (he : IsEffect e) {A : Analyser K}
    (hsol : A.solve.Sound) {b : BeamB K}
    (hns : ∀ LM s, ({ b.toDef with LM := LM } : BeamDef K).system = .ok s → s.Nonsingular)
    {r0 : EnvRes K} (h0 : Analysed A b [] r0)
    (L : List (K × List (Row K) × EnvRes K)) (hL : ∀ a ∈ L, Analysed A b a.2.1 a.2.2)
    {LM : List (Row K)} {r : EnvRes K} (hr : Analysed A b LM r)
    (hLM : ∀ ls : List (Row K) → List (SpanLoad K),
      (∀ a ∈ L, ({ b.toDef with LM := a.2.1 } : BeamDef K).setLoads = .ok (ls a.2.1)) →
      ({ b.toDef with LM := LM } : BeamDef K).setLoads =
        .ok (L.flatMap fun a => (ls a.2.1).map (SpanLoad.scale a.1))) :
    e r = e r0 + (L.map fun a => a.1 * (e a.2.2 - e r0)).sum := by
  obtain ⟨q0, h0, rfl⟩ := h0
  obtain ⟨q, hr, rfl⟩ := hr
  obtain ⟨rd, hrd, hread⟩ := he.reading h0
  have : Nonempty (Result K × List (MRes K)) := ⟨q0⟩
  choose! run hrun henv using hL
  classical
  set L' : List (K × List (Row K) × EnvRes K) := (1 - (L.map Prod.fst).sum, [], envOf q0) :: L
    with hL'
  set run' : K × List (Row K) × EnvRes K → Result K × List (MRes K) :=
    fun a => if a ∈ L then run a else q0
  have hrun' : ∀ a ∈ L', runCase b.toDef A.stable A.solve A.npts a.2.1 = .ok (run' a) ∧
      e a.2.2 = rd (run' a) := by
    intro a ha
    by_cases haL : a ∈ L
    · simp only [run', if_pos haL]
      refine ⟨hrun a haL, ?_⟩
      rw [henv a haL]
      exact hread _ _ (hrun a haL)
    · simp only [run', if_neg haL]
      rcases List.mem_cons.1 ha with rfl | h
      · exact ⟨h0, hread _ _ h0⟩
      · exact absurd h haL
  have hsum := hrd.comb' hsol L' (fun a => a.1) (fun a => ⟨"", a.2.1, [], none⟩) run'
    (fun a ha => (hrun' a ha).1) LM ?_ q hr ?_ (hns _)
  · rw [hread _ _ hr, hsum, lsum_congr (g' := fun a => e a.2.2) fun a ha => (hrun' a ha).2.symm,
      lsum, hL', List.map_cons, List.sum_cons]
    have : ∀ l : List (K × List (Row K) × EnvRes K),
        (l.map fun a => a.1 * (e a.2.2 - e (envOf q0))).sum =
          (l.map fun a => a.1 * e a.2.2).sum - (l.map Prod.fst).sum * e (envOf q0) := by
      intro l
      induction l with
      | nil => simp
      | cons a l ih =>
        simp only [List.map_cons, List.sum_cons, ih]
        ring
    rw [this]
    ring
  · intro ls hls
    -- the parsed loads depend on the rows only
    have hset : ∀ a ∈ L', ls a = (match ({ b.toDef with LM := a.2.1 } : BeamDef K).setLoads with
        | .ok l => l
        | .error _ => []) := by
      intro a ha
      have := hls a ha
      simp only at this
      rw [this]
    have h1 := hLM (fun LM => match ({ b.toDef with LM := LM } : BeamDef K).setLoads with
        | .ok l => l
        | .error _ => []) (by
      intro a ha
      have := hls a (List.mem_cons_of_mem _ ha)
      simp only at this
      rw [this])
    rw [h1, combLoads, hL', List.flatMap_cons]
    have h2 : ls (1 - (L.map Prod.fst).sum, [], envOf q0) = [] := by
      rw [hset _ List.mem_cons_self]
      simp [BeamDef.setLoads, parseLM]
    rw [h2]
    simp only [if_true, List.map_nil, List.nil_append]
    congr 1
    have : ∀ l : List (K × List (Row K) × EnvRes K), (∀ a ∈ l, a ∈ L) →
        (l.flatMap fun a => (match ({ b.toDef with LM := a.2.1 } : BeamDef K).setLoads with
          | .ok l => l
          | .error _ => []).map (SpanLoad.scale a.1)) =
        l.flatMap fun a => (ls a).map (SpanLoad.scale a.1) := by
      intro l hl
      induction l with
      | nil => rfl
      | cons a l ih =>
        rw [List.flatMap_cons, List.flatMap_cons, ih fun x hx => hl x (List.mem_cons_of_mem _ hx),
          hset a (List.mem_cons_of_mem _ (hl a List.mem_cons_self))]
    exact this L fun a h => h
  · simp only [hL', List.map_cons, List.sum_cons]
    have : (L.map fun a => a.1) = L.map Prod.fst := rfl
    rw [this]
    ring

/-- Load matrices one after the other: the effects add. -/
theorem IsEffect.add {e : EnvRes K → K} (he : IsEffect e) {A : Analyser K}
    (hsol : A.solve.Sound) {b : BeamB K}
    (hns : ∀ LM s, ({ b.toDef with LM := LM } : BeamDef K).system = .ok s → s.Nonsingular)
    {r0 : EnvRes K} (h0 : Analysed A b [] r0)
    (L : List (List (Row K) × EnvRes K)) (hL : ∀ a ∈ L, Analysed A b a.1 a.2)
    {r : EnvRes K} (hr : Analysed A b (L.flatMap Prod.fst) r) :
    e r = e r0 + (L.map fun a => e a.2 - e r0).sum := by
  rw [he.comb hsol hns h0 (L.map fun a => (1, a.1, a.2)) (by
      intro a ha
      obtain ⟨c, hc, rfl⟩ := List.mem_map.1 ha
      exact hL c hc) hr ?_]
  · rw [List.map_map]
    congr 2
    apply List.map_congr_left
    intro a _
    simp
  · intro ls hls
    have hls' : ∀ a ∈ L, ({ b.toDef with LM := a.1 } : BeamDef K).setLoads = .ok (ls a.1) := by
      intro a ha
      have := hls (1, a.1, a.2) (List.mem_map_of_mem ha)
      exact this
    clear hr hls hL
    induction L with
    | nil => simp [BeamDef.setLoads, parseLM]
    | cons a L ih =>
      have h1 := ih fun x hx => hls' x (List.mem_cons_of_mem _ hx)
      have := BeamDef.setLoads_append b.toDef _ _ _ _ (hls' a List.mem_cons_self) h1
      simp only [List.flatMap_cons, List.map_cons]
      rw [addLM] at this
      rw [this]
      congr 2
      have : SpanLoad.scale (1 : K) = id := funext fun l => l.scale_one
      simp [this]

/-! ### C108 -/

theorem axleLM_eq {b : BeamB K} (hb : b.Proper) (v : Vehicle K) (pos : K) :
    axleLM b v pos = (v.onDeck b pos).map fun xw => ilRow b xw.2 xw.1 := by
  unfold axleLM Vehicle.onDeck Vehicle.axles
  induction v.coords.zip v.axw with
  | nil => rfl
  | cons cw l ih =>
    have hoff := localCoords_off hb (pos - cw.1)
    by_cases hc : 0 ≤ pos - cw.1 ∧ pos - cw.1 ≤ b.lens.sum
    · rw [List.filter_cons_of_pos (by simpa using hc), List.filterMap_cons_some
        (b := ilRow b cw.2 (pos - cw.1)), ih]
      · rfl
      · simp only
        rw [if_pos]
        · rfl
        · intro h
          rcases hoff.1 h with h | h
          · exact absurd h (not_lt.2 hc.1)
          · exact absurd h (not_lt.2 hc.2)
    · have hc' : pos - cw.1 < 0 ∨ b.lens.sum < pos - cw.1 := by
        by_contra hn
        push Not at hn
        exact hc hn
      rw [List.filter_cons_of_neg (by simpa using hc), List.filterMap_cons_none, ih]
      simp only
      rw [if_neg]
      simpa using hoff.2 hc'

theorem UnitAt.row {A : Analyser K} {b : BeamB K} (hb : b.Proper) {x : K} {r : EnvRes K}
    (h : UnitAt A b x r) : Analysed A b [ilRow b 1 x] r := by
  obtain ⟨row, h1, h2⟩ := h
  rwa [PointIn.eq hb h1] at h2

/-- The effects with a further load after the axles. -/
theorem position_plus (A : Analyser K) (hsol : A.solve.Sound) (b : BeamB K) (hb : b.Proper)
    (hns : ∀ LM s, ({ b.toDef with LM := LM } : BeamDef K).system = .ok s → s.Nonsingular)
    (static extra : List (Row K)) (v : Vehicle K) (pos : K) (r rs rx r0 : EnvRes K)
    (u : K → EnvRes K)
    (hr : Analysed A b (addLM static (axleLM b v pos ++ extra)) r) (hs : Analysed A b static rs)
    (hx : Analysed A b extra rx)
    (h0 : Analysed A b [] r0) (hu : ∀ xw ∈ v.onDeck b pos, UnitAt A b xw.1 (u xw.1))
    (e : EnvRes K → K) (he : IsEffect e) :
    e r = axleByAxle e rs r0 u v b pos + (e rx - e r0) := by
  have h := he.comb hsol hns h0 ((1, static, rs) ::
      ((v.onDeck b pos).map (fun xw => (xw.2, [ilRow b 1 xw.1], u xw.1)) ++ [(1, extra, rx)]))
      ?_ hr ?_
  · rw [h, axleByAxle, List.map_cons, List.sum_cons, List.map_append, List.sum_append,
      List.map_map]
    simp only [Function.comp_def, List.map_cons, List.map_nil, List.sum_cons, List.sum_nil]
    ring
  · intro a ha
    rcases List.mem_cons.1 ha with rfl | ha
    · exact hs
    · rcases List.mem_append.1 ha with ha | ha
      · obtain ⟨xw, h1, rfl⟩ := List.mem_map.1 ha
        exact (hu xw h1).row hb
      · rw [List.mem_singleton] at ha
        subst ha
        exact hx
  · intro ls hls
    have h1 := hls _ List.mem_cons_self
    have h2 := setLoads_points b.toDef b (v.onDeck b pos) (fun xw => xw.2) (fun xw => xw.1)
    have hxl := hls (1, extra, rx) (by simp)
    have h3 := BeamDef.setLoads_append b.toDef _ _ _ _ h1
      (BeamDef.setLoads_append b.toDef _ _ _ _ h2 hxl)
    rw [axleLM_eq hb]
    refine h3.trans ?_
    congr 1
    rw [List.flatMap_cons, List.flatMap_append]
    have : SpanLoad.scale (1 : K) = id := funext fun l => l.scale_one
    congr 1
    · simp [this]
    congr 1
    · have hls' : ∀ xw ∈ v.onDeck b pos, ls [ilRow b 1 xw.1] =
          [⟨(b.localCoords xw.1).1, .pl 1 (b.localCoords xw.1).2⟩] := by
        intro xw hxw
        have h4 := hls (xw.2, [ilRow b 1 xw.1], u xw.1)
          (List.mem_cons_of_mem _ (List.mem_append_left _ (List.mem_map_of_mem hxw)))
        have h5 := setLoads_points b.toDef b [()] (fun _ => 1) (fun _ => xw.1)
        simp only [List.map_cons, List.map_nil] at h4 h5
        rw [h5] at h4
        exact (Except.ok.inj h4).symm
      clear hls h1 h2 h3 hr hu h0
      generalize v.onDeck b pos = l at hls'
      induction l with
      | nil => rfl
      | cons xw l ih =>
        rw [List.map_cons, List.map_cons, List.flatMap_cons,
          ← ih fun a ha => hls' a (List.mem_cons_of_mem _ ha), hls' xw List.mem_cons_self]
        simp [SpanLoad.scale, Load.scale]
    · simp [this]

/-- **C108** — at every position of a vehicle, every moment, shear and reaction is that of the
static loads plus, for each axle on the bridge, its weight times the value for a unit force at
its place. -/
theorem C108_position (A : Analyser K) (hsol : A.solve.Sound) (b : BeamB K) (hb : b.Proper)
    (hns : ∀ LM s, ({ b.toDef with LM := LM } : BeamDef K).system = .ok s → s.Nonsingular)
    (static : List (Row K)) (v : Vehicle K) (pos : K) (r rs r0 : EnvRes K) (u : K → EnvRes K)
    (hr : Analysed A b (addLM static (axleLM b v pos)) r) (hs : Analysed A b static rs)
    (h0 : Analysed A b [] r0) (hu : ∀ xw ∈ v.onDeck b pos, UnitAt A b xw.1 (u xw.1))
    (e : EnvRes K → K) (he : IsEffect e) : e r = axleByAxle e rs r0 u v b pos := by
  rw [position_plus A hsol b hb hns static [] v pos r rs r0 r0 u (by simpa using hr) hs h0 h0 hu
    e he]
  ring

/-- The distance of the front axle of the vehicle `i` of a train from the front of the train. -/
def trainOffset (vs : List (Vehicle K)) (gaps : List K) (i : ℕ) : K :=
  ((vs.take i).map Vehicle.L).sum + (gaps.take i).sum

theorem axleCoords_append (x : K) (l m : List K) (g : K) :
    axleCoords x (l ++ g :: m) = axleCoords x l ++ axleCoords (x + l.sum + g) m := by
  induction l generalizing x with
  | nil => simp [axleCoords]
  | cons s l ih =>
    simp only [List.cons_append, axleCoords, ih, List.sum_cons, List.cons_append]
    congr 3
    ring

theorem axleCoords_shift (x y : K) (l : List K) :
    axleCoords (x + y) l = (axleCoords x l).map (y + ·) := by
  induction l generalizing x with
  | nil => simp [axleCoords, add_comm]
  | cons s l ih =>
    simp only [axleCoords, List.map_cons]
    rw [show x + y + s = x + s + y by ring, ih, add_comm x y]

/-- The axles of a train are those of its vehicles, each at its place. -/
theorem train_axles (vs : List (Vehicle K)) (hne : vs ≠ [])
    (hv : ∀ v ∈ vs, Vehicle.new v.axs v.axw = .ok v) (gaps : List K)
    (hg : gaps.length + 1 = vs.length) (x : K) :
    (axleCoords x (joined (vs.map Vehicle.axs) gaps)).zip (vs.flatMap Vehicle.axw) =
      (List.range vs.length).flatMap fun i => ((vs.getD i ⟨[], [], 0, 0, 0, []⟩).axles.map
        fun cw => (x + trainOffset vs gaps i + cw.1, cw.2)) := by
  have hone : ∀ v ∈ vs, ∀ y : K, (axleCoords y v.axs).zip v.axw =
      v.axles.map fun cw => (y + cw.1, cw.2) := by
    intro v hvm y
    have h := hv v hvm
    obtain ⟨h1, h2⟩ := Vehicle.new_ok h
    have h3 : v.coords = axleCoords 0 v.axs := by rw [h2]
    rw [Vehicle.axles, h3]
    have := axleCoords_shift 0 y v.axs
    rw [zero_add] at this
    rw [this]
    exact List.zip_map_left ..
  have hL : ∀ v ∈ vs, v.L = v.axs.sum ∧ v.axs.length + 1 = v.axw.length := by
    intro v hvm
    obtain ⟨h1, h2⟩ := Vehicle.new_ok (hv v hvm)
    exact ⟨by rw [h2], h1⟩
  induction vs generalizing gaps x with
  | nil => exact absurd rfl hne
  | cons v vs ih =>
    cases vs with
    | nil =>
      have : gaps = [] := List.eq_nil_of_length_eq_zero (by simpa using hg)
      subst this
      simp [joined, trainOffset, hone v List.mem_cons_self]
    | cons w vs =>
      cases gaps with
      | nil => simp at hg
      | cons g gaps =>
        have h1 := ih (by simp) (fun a ha => hv a (List.mem_cons_of_mem _ ha)) gaps
          (by simpa using hg) (x + v.axs.sum + g)
          (fun a ha => hone a (List.mem_cons_of_mem _ ha))
          (fun a ha => hL a (List.mem_cons_of_mem _ ha))
        obtain ⟨hLv, hlv⟩ := hL v List.mem_cons_self
        have e1 : joined ((v :: w :: vs).map Vehicle.axs) (g :: gaps) =
            v.axs ++ g :: joined ((w :: vs).map Vehicle.axs) gaps := rfl
        rw [e1, axleCoords_append, List.flatMap_cons, List.zip_append (by
          rw [axleCoords_length, hlv]), h1, hone v List.mem_cons_self, List.length_cons (a := v),
          List.range_succ_eq_map, List.flatMap_cons, List.flatMap_map]
        congr 1
        · simp [trainOffset]
        · congr 1
          funext i
          rw [List.getD_cons_succ]
          congr 1
          funext cw
          simp only [trainOffset, List.take_succ_cons, List.map_cons, List.sum_cons, hLv]
          congr 1
          ring

/-- **C108** — a train is its vehicles, each at its place: for vehicles without coincident
axles and one gap fewer than vehicles, the effects of the train are those of the static loads
plus those of every vehicle by itself. -/
theorem C108_train_partial (A : Analyser K) (hsol : A.solve.Sound) (b : BeamB K)
    (hns : ∀ LM s, ({ b.toDef with LM := LM } : BeamDef K).system = .ok s → s.Nonsingular)
    (static : List (Row K)) (vs : List (Vehicle K)) (hne : vs ≠ [])
    (hv : ∀ v ∈ vs, Vehicle.new v.axs v.axw = .ok v) (hz : ∀ v ∈ vs, ∀ x ∈ v.axs, x ≠ 0)
    (gaps : List K) (hg : gaps.length + 1 = vs.length) (t : Vehicle K)
    (ht : makeTrain vs gaps = .ok t) (pos : K) (r rs r0 : EnvRes K) (rv : ℕ → EnvRes K)
    (hr : Analysed A b (addLM static (axleLM b t pos)) r) (hs : Analysed A b static rs)
    (h0 : Analysed A b [] r0)
    (hrv : ∀ i (hi : i < vs.length),
      Analysed A b (axleLM b vs[i] (pos - trainOffset vs gaps i)) (rv i))
    (e : EnvRes K → K) (he : IsEffect e) :
    e r = e rs + ((List.range vs.length).map fun i => e (rv i) - e r0).sum := by
  obtain ⟨t', h1, h2, h3, -, h5⟩ := C57_train_partial vs hne hv hz gaps hg
  rw [ht] at h1
  cases h1
  have hax : t.axles = (List.range vs.length).flatMap fun i =>
      ((vs.getD i ⟨[], [], 0, 0, 0, []⟩).axles.map
        fun cw => (trainOffset vs gaps i + cw.1, cw.2)) := by
    have := train_axles vs hne hv gaps hg 0
    simp only [zero_add] at this
    rw [← this, ← h2, ← h3, Vehicle.axles]
    obtain ⟨-, h6⟩ := Vehicle.new_ok h5
    have : t.coords = axleCoords 0 t.axs := by rw [h6]
    rw [this]
  have hLM : axleLM b t pos = (List.range vs.length).flatMap fun i =>
      axleLM b (vs.getD i ⟨[], [], 0, 0, 0, []⟩) (pos - trainOffset vs gaps i) := by
    have hdef : ∀ (v : Vehicle K) (p : K), axleLM b v p = v.axles.filterMap fun cw =>
        let c := b.localCoords (p - cw.1)
        if c.1 ≠ -1 then some ⟨c.1 + 1, 2, [cw.2, c.2, 0]⟩ else none := fun _ _ => rfl
    rw [hdef, hax]
    generalize List.range vs.length = L
    induction L with
    | nil => rfl
    | cons i L ih =>
      rw [List.flatMap_cons, List.filterMap_append, ih, List.flatMap_cons, hdef,
        List.filterMap_map]
      congr 1
      apply List.filterMap_congr
      intro cw _
      simp only [Function.comp_def, sub_sub]
  have h := he.add hsol hns h0 ((static, rs) :: (List.range vs.length).map fun i =>
      (axleLM b (vs.getD i ⟨[], [], 0, 0, 0, []⟩) (pos - trainOffset vs gaps i), rv i))
    (r := r) ?_ ?_
  · rw [h, List.map_cons, List.sum_cons, List.map_map]
    simp only [Function.comp_def]
    ring
  · intro a ha
    rcases List.mem_cons.1 ha with rfl | ha
    · exact hs
    · obtain ⟨i, hi, rfl⟩ := List.mem_map.1 ha
      have hi := List.mem_range.1 hi
      have := hrv i hi
      simp only
      rwa [List.getD_eq_getElem?_getD, List.getElem?_eq_getElem hi]
  · rw [List.flatMap_cons, List.flatMap_map, ← hLM]
    exact hr

theorem runOver_ok {A : Analyser K} {b : BeamB K} {LM : K → List (Row K)} {ps : List K}
    {rs : List (Result K × List (MRes K))} {env : Envelope K}
    (h : runOver A b LM ps = .ok (rs, env)) :
    List.Forall₂ (fun pos q => runCase b.toDef A.stable A.solve A.npts (LM pos) = .ok q) ps rs ∧
      Envelope.new (rs.map envOf) = .ok env := by
  unfold runOver at h
  split at h
  · cases h
  · rename_i l hl
    split at h
    · cases h
    · rename_i en hen
      cases h
      obtain ⟨h1, h2⟩ := mapE_ok hl
      refine ⟨?_, hen⟩
      rw [List.forall₂_iff_get]
      exact ⟨h1.symm, fun i hi hi' => h2 i hi hi'⟩

/-- The extremes of an envelope over a run, effect by effect. -/
def EnvelopeOf (env : Envelope K) (ps : List K) (F : (EnvRes K → K) → K → K) : Prop :=
  (∀ k, IsGreatest ({0} ∪ {y | ∃ pos ∈ ps, F (fun r => r.M k) pos = y}) (env.Mmax k) ∧
    IsLeast ({0} ∪ {y | ∃ pos ∈ ps, F (fun r => r.M k) pos = y}) (env.Mmin k) ∧
    IsGreatest ({0} ∪ {y | ∃ pos ∈ ps, F (fun r => r.V k) pos = y}) (env.Vmax k) ∧
    IsLeast ({0} ∪ {y | ∃ pos ∈ ps, F (fun r => r.V k) pos = y}) (env.Vmin k)) ∧
  ∀ q, IsGreatest ({0} ∪ {y | ∃ pos ∈ ps, F (fun r => r.R q) pos = y}) (env.Rmaxval q) ∧
    IsLeast ({0} ∪ {y | ∃ pos ∈ ps, F (fun r => r.R q) pos = y}) (env.Rminval q)

theorem runOver_envelope {A : Analyser K} {b : BeamB K} {LM : K → List (Row K)} {ps : List K}
    {rs : List (Result K × List (MRes K))} {env : Envelope K}
    (h : runOver A b LM ps = .ok (rs, env)) (F : (EnvRes K → K) → K → K)
    (hF : ∀ pos ∈ ps, ∀ r, Analysed A b (LM pos) r → ∀ e, IsEffect e → e r = F e pos) :
    EnvelopeOf env ps F := by
  obtain ⟨h1, h2⟩ := runOver_ok h
  have key : ∀ e : EnvRes K → K, IsEffect e →
      {y | ∃ r ∈ rs.map envOf, e r = y} = {y | ∃ pos ∈ ps, F e pos = y} := by
    intro e he
    clear h h2
    ext y
    simp only [Set.mem_ofPred_eq]
    induction h1 with
    | nil => simp
    | @cons pos q ps rs h _ ih =>
      have e1 := hF pos List.mem_cons_self _ ⟨q, h, rfl⟩ e he
      have := ih fun p hp => hF p (List.mem_cons_of_mem _ hp)
      simp only [List.map_cons, List.mem_cons, exists_eq_or_imp] at this ⊢
      rw [this, e1]
  obtain ⟨k1, k2⟩ := C28_envelope_attained _ _ h2
  refine ⟨fun k => ?_, fun q => ?_⟩
  · have := k1 k
    rw [key _ (.M k), key _ (.V k)] at this
    exact this
  · have := k2 q
    rw [key _ (.R q)] at this
    exact this

/-- **C108** — the envelope of a completed run is that of the axle-by-axle effects over the
positions visited. -/
theorem C108_envelope [FloorRing K] (A : Analyser K) (hsol : A.solve.Sound) (b : BeamB K)
    (hb : b.Proper)
    (hns : ∀ LM s, ({ b.toDef with LM := LM } : BeamDef K).system = .ok s → s.Nonsingular)
    (static : List (Row K)) (v : Vehicle K) (step : K) (start stop : Option K) (ps : List K)
    (l : List (Result K × List (MRes K))) (env : Envelope K)
    (h : runVehicle A b static v step start stop = .ok (ps, l, env))
    (rs r0 : EnvRes K) (u : K → EnvRes K) (hs : Analysed A b static rs) (h0 : Analysed A b [] r0)
    (hu : ∀ pos ∈ ps, ∀ xw ∈ v.onDeck b pos, UnitAt A b xw.1 (u xw.1)) :
    EnvelopeOf env ps fun e pos => axleByAxle e rs r0 u v b pos := by
  unfold runVehicle at h
  split at h
  · cases h
  · rename_i ps' hps
    split at h
    · cases h
    · rename_i q hq
      cases h
      exact runOver_envelope hq _ fun pos hpos r hr e he =>
        C108_position A hsol b hb hns static v pos r rs r0 u hr hs h0 (hu pos hpos) e he

/-- **C108** — a load model is the vehicle and its lane load: the envelope of a completed run is
that of the axle-by-axle effects plus the effects of the lane load at each position. -/
theorem C108_load_model [FloorRing K] (A : Analyser K) (hsol : A.solve.Sound) (b : BeamB K)
    (hb : b.Proper)
    (hns : ∀ LM s, ({ b.toDef with LM := LM } : BeamDef K).system = .ok s → s.Nonsingular)
    (static : List (Row K)) (v : Vehicle K) (step w : K) (clearances : Option (K × K))
    (start stop : Option K) (ps : List K)
    (l : List (Result K × List (MRes K))) (env : Envelope K)
    (h : runLoadModel A b static v step w clearances start stop = .ok (ps, l, env))
    (rs r0 : EnvRes K) (u rl : K → EnvRes K) (hs : Analysed A b static rs)
    (h0 : Analysed A b [] r0)
    (hu : ∀ pos ∈ ps, ∀ xw ∈ v.onDeck b pos, UnitAt A b xw.1 (u xw.1))
    (hl : ∀ pos ∈ ps, Analysed A b (laneLM b v w clearances pos) (rl pos)) :
    EnvelopeOf env ps fun e pos => axleByAxle e rs r0 u v b pos + (e (rl pos) - e r0) := by
  unfold runLoadModel at h
  split at h
  · cases h
  split at h
  · cases h
  · rename_i ps' hps
    split at h
    · cases h
    · rename_i q hq
      cases h
      exact runOver_envelope hq _ fun pos hpos r hr e he =>
        position_plus A hsol b hb hns static _ v pos r rs (rl pos) r0 u hr hs (hl pos hpos) h0
          (hu pos hpos) e he

/-! ### Examples -/

/-- An analyser for the simple span of length 2 (`exIL`): the displacements under forces of 0,
1, 2, 3 and 4 at midspan, and under a uniform load of 6 alone and with a force of 1. -/
def exRunA : Analyser ℚ :=
  ⟨fun _ => true, listSolver [fun _ => 0, fun p => [0, -1 / 24, 0, 1 / 24].getD p 0,
    fun p => [0, -1 / 12, 0, 1 / 12].getD p 0, fun p => [0, -1 / 8, 0, 1 / 8].getD p 0,
    fun p => [0, -1 / 6, 0, 1 / 6].getD p 0, fun p => [0, -1 / 3, 0, 1 / 3].getD p 0,
    fun p => [0, -3 / 8, 0, 3 / 8].getD p 0], 4⟩

/-- The result of an analysis, if it completes. -/
def exRunRes (LM : List (Row ℚ)) : EnvRes ℚ :=
  match runCase exIL.toDef exRunA.stable exRunA.solve exRunA.npts LM with
  | .ok q => envOf q
  | .error _ => ⟨0, 0, 0, 0, 0, 0, []⟩

theorem exRunRes_ok {LM : List (Row ℚ)} (h : ((runCase exIL.toDef exRunA.stable exRunA.solve
    exRunA.npts LM).toOption.map fun _ => ()) = some ()) : Analysed exRunA exIL LM (exRunRes LM) := by
  unfold Analysed exRunRes
  cases hc : runCase exIL.toDef exRunA.stable exRunA.solve exRunA.npts LM with
  | error e => rw [hc] at h; cases h
  | ok q => exact ⟨q, rfl, rfl⟩

theorem exRun_unit : ∀ x ∈ ([0, 1, 2] : List ℚ), UnitAt exRunA exIL x (exRunRes [ilRow exIL 1 x]) := by
  intro x hx
  simp only [List.mem_cons, List.not_mem_nil, or_false] at hx
  refine ⟨ilRow exIL 1 x, ?_, ?_⟩
  · refine (ilRow_spec exIL_forIL.proper 1 x).1 ?_ ?_ <;> rcases hx with rfl | rfl | rfl <;>
      norm_num [exIL]
  · rcases hx with rfl | rfl | rfl <;> exact exRunRes_ok (by decide +kernel)

/-- C108 at a vehicle of two unit axles crossing the simple span, with a static force of 2 at
midspan: four positions, and a largest moment of 3/2 at midspan. -/
example : ∃ (v : Vehicle ℚ) (l : List (Result ℚ × List (MRes ℚ))) (env : Envelope ℚ),
    Vehicle.new [1] [1, 1] = .ok v ∧
    runVehicle exRunA exIL [⟨1, 2, [2, 1, 0]⟩] v 1 none none = .ok ([0, 1, 2, 3], l, env) ∧
    env.Mmax 3 = 3 / 2 ∧ env.Rmaxval 0 = 5 / 2 ∧
    EnvelopeOf env [0, 1, 2, 3] fun e pos => axleByAxle e (exRunRes [⟨1, 2, [2, 1, 0]⟩])
      (exRunRes []) (fun x => exRunRes [ilRow exIL 1 x]) v exIL pos := by
  obtain ⟨q, hq, hv⟩ := ok_of_map
    (x := runVehicle exRunA exIL [⟨1, 2, [2, 1, 0]⟩] ⟨[1], [1, 1], 1, 2, 2, [0, 1]⟩ 1 none none)
    (f := fun q => (q.1, q.2.2.Mmax 3, q.2.2.Rmaxval 0)) (y := ([0, 1, 2, 3], 3 / 2, 5 / 2))
    (by decide +kernel)
  obtain ⟨ps, l, env⟩ := q
  simp only [Prod.mk.injEq] at hv
  obtain ⟨rfl, h1, h2⟩ := hv
  refine ⟨_, l, env, by decide +kernel, hq, h1, h2, ?_⟩
  refine C108_envelope exRunA (listSolver_sound _) exIL exIL_forIL.proper exIL_nonsingular _ _ _ _
    _ _ l env hq _ _ _ (exRunRes_ok (by decide +kernel)) (exRunRes_ok (by decide +kernel)) ?_
  intro pos hpos xw hxw
  have hd : ∀ pos ∈ ([0, 1, 2, 3] : List ℚ), ∀ xw ∈ (⟨[1], [1, 1], 1, 2, 2, [0, 1]⟩ :
      Vehicle ℚ).onDeck exIL pos, xw.1 ∈ ([0, 1, 2] : List ℚ) := by decide +kernel
  exact exRun_unit _ (hd pos hpos xw hxw)

/-- C108 at the same vehicle with a lane load of 6: the moment at midspan is the 3 of the lane
load and the 1/2 of an axle. -/
example : ∃ (v : Vehicle ℚ) (l : List (Result ℚ × List (MRes ℚ))) (env : Envelope ℚ),
    Vehicle.new [1] [1, 1] = .ok v ∧
    runLoadModel exRunA exIL [] v 1 6 none none none = .ok ([0, 1, 2, 3], l, env) ∧
    env.Mmax 3 = 7 / 2 ∧
    EnvelopeOf env [0, 1, 2, 3] fun e pos => axleByAxle e (exRunRes [])
      (exRunRes []) (fun x => exRunRes [ilRow exIL 1 x]) v exIL pos +
        (e (exRunRes (laneLM exIL v 6 none pos)) - e (exRunRes [])) := by
  obtain ⟨q, hq, hv⟩ := ok_of_map
    (x := runLoadModel exRunA exIL [] ⟨[1], [1, 1], 1, 2, 2, [0, 1]⟩ 1 6 none none none)
    (f := fun q => (q.1, q.2.2.Mmax 3)) (y := ([0, 1, 2, 3], 7 / 2))
    (by decide +kernel)
  obtain ⟨ps, l, env⟩ := q
  simp only [Prod.mk.injEq] at hv
  obtain ⟨rfl, h1⟩ := hv
  refine ⟨_, l, env, by decide +kernel, hq, h1, ?_⟩
  refine C108_load_model exRunA (listSolver_sound _) exIL exIL_forIL.proper exIL_nonsingular _ _
    _ _ _ _ _ _ l env hq _ _ _ (fun pos => exRunRes (laneLM exIL _ 6 none pos))
    (exRunRes_ok (by decide +kernel)) (exRunRes_ok (by decide +kernel)) ?_ ?_
  · intro pos hpos xw hxw
    have hd : ∀ pos ∈ ([0, 1, 2, 3] : List ℚ), ∀ xw ∈ (⟨[1], [1, 1], 1, 2, 2, [0, 1]⟩ :
        Vehicle ℚ).onDeck exIL pos, xw.1 ∈ ([0, 1, 2] : List ℚ) := by decide +kernel
    exact exRun_unit _ (hd pos hpos xw hxw)
  · intro pos _
    show Analysed exRunA exIL (intervalUdlLM exIL 0 exIL.length 6)
      (exRunRes (intervalUdlLM exIL 0 exIL.length 6))
    exact exRunRes_ok (by decide +kernel)

/-- C108 at a train of two single axles of 1 and 2, a gap of 1 apart, over the static force. -/
example : ∃ (v w t : Vehicle ℚ), Vehicle.new [] [1] = .ok v ∧ Vehicle.new [] [2] = .ok w ∧
    makeTrain [v, w] [1] = .ok t ∧ trainOffset [v, w] [1] 1 = 1 ∧
    ∀ e, IsEffect e → e (exRunRes (addLM [⟨1, 2, [2, 1, 0]⟩] (axleLM exIL t 2))) =
      e (exRunRes [⟨1, 2, [2, 1, 0]⟩]) +
        ((e (exRunRes (axleLM exIL v 2)) - e (exRunRes [])) +
          (e (exRunRes (axleLM exIL w 1)) - e (exRunRes []))) := by
  refine ⟨⟨[], [1], 0, 1, 1, [0]⟩, ⟨[], [2], 0, 2, 1, [0]⟩, ⟨[1], [1, 2], 1, 3, 2, [0, 1]⟩,
    by decide +kernel, by decide +kernel, by decide +kernel, by decide +kernel, ?_⟩
  intro e he
  have := C108_train_partial exRunA (listSolver_sound _) exIL exIL_nonsingular
    [⟨1, 2, [2, 1, 0]⟩] [⟨[], [1], 0, 1, 1, [0]⟩, ⟨[], [2], 0, 2, 1, [0]⟩] (by simp)
    (by decide +kernel) (by simp) [1] rfl ⟨[1], [1, 2], 1, 3, 2, [0, 1]⟩ (by decide +kernel) 2
    _ _ _ (fun i => exRunRes (axleLM exIL (([⟨[], [1], 0, 1, 1, [0]⟩,
      ⟨[], [2], 0, 2, 1, [0]⟩] : List (Vehicle ℚ)).getD i ⟨[], [], 0, 0, 0, []⟩)
        (2 - (i : ℚ)))) (exRunRes_ok (by decide +kernel)) (exRunRes_ok (by decide +kernel))
    (exRunRes_ok (by decide +kernel)) ?_ e he
  · rw [this]
    norm_num [List.range_succ]
  · intro i hi
    have hi : i < 2 := hi
    have e0 : (2 : ℚ) - trainOffset ([⟨[], [1], 0, 1, 1, [0]⟩,
        ⟨[], [2], 0, 2, 1, [0]⟩] : List (Vehicle ℚ)) [1] 0 = 2 - ((0 : ℕ) : ℚ) := by
      decide +kernel
    have e1 : (2 : ℚ) - trainOffset ([⟨[], [1], 0, 1, 1, [0]⟩,
        ⟨[], [2], 0, 2, 1, [0]⟩] : List (Vehicle ℚ)) [1] 1 = 2 - ((1 : ℕ) : ℚ) := by
      decide +kernel
    have h0 : Analysed exRunA exIL (axleLM exIL ⟨[], [1], 0, 1, 1, [0]⟩ (2 - ((0 : ℕ) : ℚ))) _ :=
      exRunRes_ok (by decide +kernel)
    have h1 : Analysed exRunA exIL (axleLM exIL ⟨[], [2], 0, 2, 1, [0]⟩ (2 - ((1 : ℕ) : ℚ))) _ :=
      exRunRes_ok (by decide +kernel)
    interval_cases i
    · rw [e0]
      exact h0
    · rw [e1]
      exact h1

/-- **C108** — the positions of a completed run, of a vehicle or of a load model, are
`start, start + step, …` up to half a step from the end. -/
theorem C108_visited [FloorRing K] (A : Analyser K) (b : BeamB K) (static : List (Row K))
    (v : Vehicle K) (step w : K) (hstep : 0 < step) (clearances : Option (K × K))
    (start stop : Option K) (hse : start.getD 0 ≤ stop.getD (b.length + v.L)) (ps : List K)
    (l : List (Result K × List (MRes K))) (env : Envelope K)
    (h : runVehicle A b static v step start stop = .ok (ps, l, env) ∨
      runLoadModel A b static v step w clearances start stop = .ok (ps, l, env)) :
    ps.head? = some (start.getD 0) ∧ l.length = ps.length ∧
      (∀ i (hi : i < ps.length), ps[i] = start.getD 0 + i * step) ∧
      ∃ p, ps.getLast? = some p ∧ |p - stop.getD (b.length + v.L)| ≤ step / 2 := by
  obtain ⟨ps', h1, h2, h3⟩ := C58_positions b v step hstep start stop hse
  have len : ∀ (LM : K → List (Row K)) (q), runOver A b LM ps' = .ok q → q.1.length = ps'.length := by
    intro LM q hq
    unfold runOver at hq
    split at hq
    · cases hq
    · rename_i rs hrs
      split at hq
      · cases hq
      · cases hq
        exact (mapE_ok hrs).1
  have key : ps = ps' ∧ l.length = ps'.length := by
    rcases h with h | h
    · unfold runVehicle at h
      simp only [h1] at h
      split at h
      · cases h
      · rename_i q hq
        cases h
        exact ⟨rfl, len _ _ hq⟩
    · unfold runLoadModel at h
      split at h
      · cases h
      · simp only [h1] at h
        split at h
        · cases h
        · rename_i q hq
          cases h
          exact ⟨rfl, len _ _ hq⟩
  obtain ⟨rfl, hl⟩ := key
  exact ⟨h2, hl, h3⟩

end PyCBA
