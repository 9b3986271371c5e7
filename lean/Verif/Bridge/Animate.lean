import Verif.Bridge.Run

/-!
Model of the data that `BridgeAnalysis.animate` (`bridge.py` 1060-1146) draws below the deck, of
`plot_envelopes` (1164-1256) and of the caption `_vehicle_spec` (995-1011), with C130, C132 and
C133.  Colours, line widths, ticks and the writing of the file are not modelled.
-/

set_option linter.unusedSectionVars false
set_option linter.unusedSimpArgs false

namespace PyCBA

variable {K : Type*} [Field K] [LinearOrder K] [IsStrictOrderedRing K]

/-! ### The model -/

/-- The rows of `np.maximum.accumulate(rows, axis=0)` (`op = max`) after a first row `a`. -/
def accumFrom (op : K → K → K) (a : ℕ → K) : List (ℕ → K) → List (ℕ → K)
  | [] => [a]
  | r :: rs => a :: accumFrom op (fun k => op (a k) (r k)) rs

/-- `np.maximum.accumulate(rows, axis=0)` and `np.minimum.accumulate(rows, axis=0)`. -/
def accum (op : K → K → K) : List (ℕ → K) → List (ℕ → K)
  | [] => []
  | r :: rs => accumFrom op r rs

/-- `_lims`, `bridge.py` 1080-1083, of arrays of `n` entries. -/
def animLims (n : ℕ) (lo hi : ℕ → K) : K × K :=
  let a := rowMin (n - 1) lo
  let c := rowMax (n - 1) hi
  let span := if a < c then c - a else |c| + 1
  (a - 8 / 100 * span, c + 8 / 100 * span)

/-- One panel of the animation: the curve and the band of every frame, and the limits of the
vertical axis, which are the same for all frames. -/
structure AnimPanel (K : Type*) where
  curve : List (ℕ → K)
  bandMin : List (ℕ → K)
  bandMax : List (ℕ → K)
  lims : K × K

/-- A panel from the rows of a load effect, `bridge.py` 1073-1076, 1085-1086. -/
def animPanel (n : ℕ) (rows : List (ℕ → K)) : AnimPanel K :=
  { curve := rows
    bandMin := accum min rows
    bandMax := accum max rows
    lims := animLims n ((accum min rows).getLastD 0) ((accum max rows).getLastD 0) }

/-- What `animate` draws: the number of stations and their coordinates, the position of the
front axle in every frame, and the panels of moment (drawn as `-M`) and shear. -/
structure Anim (K : Type*) where
  npts : ℕ
  x : ℕ → K
  pos : List K
  bmd : AnimPanel K
  sfd : AnimPanel K

/-- `animate`, `bridge.py` 1063-1086 with the frames of 1109-1136. -/
def animate [FloorRing K] (A : Analyser K) (b : BeamB K) (static : List (Row K)) (v : Vehicle K)
    (step : K) (start stop : Option K) : Except PyErr (Anim K) :=
  match runVehicle A b static v step start stop with
  | .error e => .error e
  | .ok (ps, rs, env) =>
    .ok { npts := env.npts, x := env.x, pos := ps
          bmd := animPanel env.npts (rs.map fun r => fun k => -(envOf r).M k)
          sfd := animPanel env.npts (rs.map fun r => fun k => (envOf r).V k) }

/-- The groups of `_vehicle_spec`, `bridge.py` 1001-1009: counts and weights. -/
def axleGroups : List K → List (ℕ × K)
  | [] => []
  | w :: ws =>
    let n := (ws.takeWhile fun x => decide (npClose x w)).length
    (n + 1, w) :: axleGroups (ws.drop n)
  termination_by l => l.length
  decreasing_by simp

/-- One axes of the right panel of `plot_envelopes`: a history of a reaction over the positions of
the front axle (`bridge.py` 1198-1211), with the marked extremes (1239-1244), or the extremes of
all reactions as bars (1214-1228). -/
inductive ReactPanel (K : Type*) where
  | history (hi lo : List (K × K)) (markHi markLo : K × K)
  | bars (hi lo : List K)

/-- The panels of reactions in `plot_envelopes`, `bridge.py` 1197-1228: `pos` is the list of
positions of the bridge analysis at the time of the call.  `Rmax.shape[1]` is the number of
results of the envelope. -/
def reactPanels (pos : List K) (e : Envelope K) : List (ReactPanel K) :=
  if pos.length = e.nres then
    (List.range e.nsup).map fun j =>
      let at' := fun i => pos.getD i 0
      .history ((List.range e.nres).map fun i => (at' i, e.Rmax j i))
        ((List.range e.nres).map fun i => (at' i, e.Rmin j i))
        (at' (argMax (e.nres - 1) (e.Rmax j)), e.Rmax j (argMax (e.nres - 1) (e.Rmax j)))
        (at' (argMin (e.nres - 1) (e.Rmin j)), e.Rmin j (argMin (e.nres - 1) (e.Rmin j)))
  else [.bars ((List.range e.nsup).map e.Rmaxval) ((List.range e.nsup).map e.Rminval)]

/-! ### C130: the running envelope -/

theorem accumFrom_length (op : K → K → K) (rs : List (ℕ → K)) : ∀ a : ℕ → K,
    (accumFrom op a rs).length = rs.length + 1 := by
  induction rs with
  | nil => intro a; rfl
  | cons r rs ih => intro a; simp [accumFrom, ih]

theorem accum_length (op : K → K → K) (rows : List (ℕ → K)) : (accum op rows).length = rows.length := by
  cases rows with
  | nil => rfl
  | cons r rs => simp [accum, accumFrom_length]

theorem accumFrom_max (rs : List (ℕ → K)) : ∀ (a : ℕ → K) (i k : ℕ), i ≤ rs.length →
    IsGreatest {y | ∃ j ≤ i, ((a :: rs).getD j 0) k = y} ((accumFrom max a rs).getD i 0 k) := by
  induction rs with
  | nil =>
    intro a i k hi
    obtain rfl : i = 0 := by simpa using hi
    refine ⟨⟨0, le_rfl, rfl⟩, ?_⟩
    rintro y ⟨j, hj, rfl⟩
    obtain rfl : j = 0 := by omega
    exact le_rfl
  | cons r rs ih =>
    intro a i k hi
    cases i with
    | zero =>
      refine ⟨⟨0, le_rfl, rfl⟩, ?_⟩
      rintro y ⟨j, hj, rfl⟩
      obtain rfl : j = 0 := by omega
      exact le_rfl
    | succ i =>
      have h := ih (fun k => max (a k) (r k)) i k (by simpa using hi)
      have e : (accumFrom max a (r :: rs)).getD (i + 1) 0 k
          = (accumFrom max (fun k => max (a k) (r k)) rs).getD i 0 k := by simp [accumFrom]
      rw [e]
      constructor
      · obtain ⟨j, hj, hy⟩ := h.1
        rw [← hy]
        cases j with
        | zero =>
          rcases le_total (a k) (r k) with hc | hc
          · exact ⟨1, by omega, by simp [max_eq_right hc]⟩
          · exact ⟨0, by omega, by simp [max_eq_left hc]⟩
        | succ j => exact ⟨j + 2, by omega, by simp⟩
      · rintro y ⟨j, hj, rfl⟩
        have h0 : max (a k) (r k) ≤ (accumFrom max (fun k => max (a k) (r k)) rs).getD i 0 k :=
          h.2 ⟨0, by omega, by simp⟩
        match j, hj with
        | 0, _ => exact le_trans (by simp) h0
        | 1, _ => exact le_trans (by simp) h0
        | j + 2, hj => exact h.2 ⟨j + 1, by omega, by simp⟩

theorem accumFrom_min (rs : List (ℕ → K)) : ∀ (a : ℕ → K) (i k : ℕ), i ≤ rs.length →
    IsLeast {y | ∃ j ≤ i, ((a :: rs).getD j 0) k = y} ((accumFrom min a rs).getD i 0 k) := by
  induction rs with
  | nil =>
    intro a i k hi
    obtain rfl : i = 0 := by simpa using hi
    refine ⟨⟨0, le_rfl, rfl⟩, ?_⟩
    rintro y ⟨j, hj, rfl⟩
    obtain rfl : j = 0 := by omega
    exact le_rfl
  | cons r rs ih =>
    intro a i k hi
    cases i with
    | zero =>
      refine ⟨⟨0, le_rfl, rfl⟩, ?_⟩
      rintro y ⟨j, hj, rfl⟩
      obtain rfl : j = 0 := by omega
      exact le_rfl
    | succ i =>
      have h := ih (fun k => min (a k) (r k)) i k (by simpa using hi)
      have e : (accumFrom min a (r :: rs)).getD (i + 1) 0 k
          = (accumFrom min (fun k => min (a k) (r k)) rs).getD i 0 k := by simp [accumFrom]
      rw [e]
      constructor
      · obtain ⟨j, hj, hy⟩ := h.1
        rw [← hy]
        cases j with
        | zero =>
          rcases le_total (a k) (r k) with hc | hc
          · exact ⟨0, by omega, by simp [min_eq_left hc]⟩
          · exact ⟨1, by omega, by simp [min_eq_right hc]⟩
        | succ j => exact ⟨j + 2, by omega, by simp⟩
      · rintro y ⟨j, hj, rfl⟩
        have h0 : (accumFrom min (fun k => min (a k) (r k)) rs).getD i 0 k ≤ min (a k) (r k) :=
          h.2 ⟨0, by omega, by simp⟩
        match j, hj with
        | 0, _ => exact h0.trans (by simp)
        | 1, _ => exact h0.trans (by simp)
        | j + 2, hj => exact h.2 ⟨j + 1, by omega, by simp⟩

theorem accum_max {rows : List (ℕ → K)} {i : ℕ} (hi : i < rows.length) (k : ℕ) :
    IsGreatest {y | ∃ j ≤ i, (rows.getD j 0) k = y} ((accum max rows).getD i 0 k) := by
  cases rows with
  | nil => simp at hi
  | cons r rs => exact accumFrom_max rs r i k (by simp at hi; omega)

theorem accum_min {rows : List (ℕ → K)} {i : ℕ} (hi : i < rows.length) (k : ℕ) :
    IsLeast {y | ∃ j ≤ i, (rows.getD j 0) k = y} ((accum min rows).getD i 0 k) := by
  cases rows with
  | nil => simp at hi
  | cons r rs => exact accumFrom_min rs r i k (by simp at hi; omega)

theorem accum_last (op : K → K → K) {rows : List (ℕ → K)} (h : rows ≠ []) :
    (accum op rows).getLastD 0 = (accum op rows).getD (rows.length - 1) 0 := by
  have hl := accum_length op rows
  have hne : accum op rows ≠ [] := by
    intro h0
    rw [h0] at hl
    exact h (List.eq_nil_of_length_eq_zero hl.symm)
  rw [List.getLastD_eq_getLast?, List.getLast?_eq_getElem?, List.getD_eq_getElem?_getD, hl]

/-- A panel shows, in every frame, the effect of that position and the extremes of the effects
of the positions so far; and all of it lies strictly between the limits. -/
structure AnimPanel.Shows (p : AnimPanel K) (npts frames : ℕ) (eff : ℕ → ℕ → K) : Prop where
  curve : ∀ i < frames, ∀ k, p.curve.getD i 0 k = eff i k
  top : ∀ i < frames, ∀ k, IsGreatest {y | ∃ j ≤ i, eff j k = y} (p.bandMax.getD i 0 k)
  bottom : ∀ i < frames, ∀ k, IsLeast {y | ∃ j ≤ i, eff j k = y} (p.bandMin.getD i 0 k)
  inside : ∀ i < frames, ∀ k < npts, p.lims.1 < p.bandMin.getD i 0 k ∧ p.bandMin.getD i 0 k ≤ p.curve.getD i 0 k ∧
    p.curve.getD i 0 k ≤ p.bandMax.getD i 0 k ∧ p.bandMax.getD i 0 k < p.lims.2
  frames : p.curve.length = frames ∧ p.bandMin.length = frames ∧ p.bandMax.length = frames

theorem AnimPanel.Shows.congr {p : AnimPanel K} {npts frames : ℕ} {f g : ℕ → ℕ → K}
    (h : p.Shows npts frames f) (e : ∀ i < frames, ∀ k, f i k = g i k) : p.Shows npts frames g := by
  refine ⟨fun i hi k => (h.curve i hi k).trans (e i hi k), ?_, ?_, h.inside, h.frames⟩
  · intro i hi k
    have := h.top i hi k
    have hs : {y | ∃ j ≤ i, f j k = y} = {y | ∃ j ≤ i, g j k = y} := by
      ext y
      constructor <;> rintro ⟨j, hj, rfl⟩
      · exact ⟨j, hj, (e j (by omega) k).symm⟩
      · exact ⟨j, hj, e j (by omega) k⟩
    rwa [hs] at this
  · intro i hi k
    have := h.bottom i hi k
    have hs : {y | ∃ j ≤ i, f j k = y} = {y | ∃ j ≤ i, g j k = y} := by
      ext y
      constructor <;> rintro ⟨j, hj, rfl⟩
      · exact ⟨j, hj, (e j (by omega) k).symm⟩
      · exact ⟨j, hj, e j (by omega) k⟩
    rwa [hs] at this

theorem animPanel_shows (n : ℕ) (rows : List (ℕ → K)) :
    (animPanel n rows).Shows n rows.length fun i => rows.getD i 0 := by
  refine ⟨fun _ _ _ => rfl, fun i hi k => accum_max hi k, fun i hi k => accum_min hi k, ?_,
    rfl, accum_length _ _, accum_length _ _⟩
  intro i hi k hk
  have hne : rows ≠ [] := by rintro rfl; simp at hi
  have hlast : rows.length - 1 < rows.length := by omega
  have t1 := accum_max hi k
  have t2 := accum_min hi k
  have u1 := accum_max hlast k
  have u2 := accum_min hlast k
  have m1 : (accum max rows).getD i 0 k ≤ (accum max rows).getD (rows.length - 1) 0 k := by
    obtain ⟨j, hj, e⟩ := t1.1
    exact u1.2 ⟨j, by omega, e⟩
  have m2 : (accum min rows).getD (rows.length - 1) 0 k ≤ (accum min rows).getD i 0 k := by
    obtain ⟨j, hj, e⟩ := t2.1
    exact u2.2 ⟨j, by omega, e⟩
  have c1 : rows.getD i 0 k ≤ (accum max rows).getD i 0 k := t1.2 ⟨i, le_rfl, rfl⟩
  have c2 : (accum min rows).getD i 0 k ≤ rows.getD i 0 k := t2.2 ⟨i, le_rfl, rfl⟩
  have r1 : (accum max rows).getD (rows.length - 1) 0 k
      ≤ rowMax (n - 1) ((accum max rows).getD (rows.length - 1) 0) :=
    (rowMax_isGreatest (n - 1) _).2 ⟨k, by omega, rfl⟩
  have r2 : rowMin (n - 1) ((accum min rows).getD (rows.length - 1) 0)
      ≤ (accum min rows).getD (rows.length - 1) 0 k :=
    (rowMin_isLeast (n - 1) _).2 ⟨k, by omega, rfl⟩
  have hl : (animPanel n rows).lims = animLims n ((accum min rows).getD (rows.length - 1) 0)
      ((accum max rows).getD (rows.length - 1) 0) := by
    simp only [animPanel, accum_last _ hne]
  rw [hl]
  simp only [animLims]
  show _ < (accum min rows).getD i 0 k ∧ (accum min rows).getD i 0 k ≤ rows.getD i 0 k ∧
    rows.getD i 0 k ≤ (accum max rows).getD i 0 k ∧ (accum max rows).getD i 0 k < _
  generalize rowMax (n - 1) ((accum max rows).getD (rows.length - 1) 0) = hi' at *
  generalize rowMin (n - 1) ((accum min rows).getD (rows.length - 1) 0) = lo' at *
  have hs : 0 < (if lo' < hi' then hi' - lo' else |hi'| + 1) := by
    split
    · linarith
    · linarith [abs_nonneg hi']
  generalize (if lo' < hi' then hi' - lo' else |hi'| + 1) = s at *
  exact ⟨by linarith, c2, c1, by linarith⟩

theorem animate_ok [FloorRing K] {A : Analyser K} {b : BeamB K} {static : List (Row K)} {v : Vehicle K}
    {step : K} {start stop : Option K} {an : Anim K} (h : animate A b static v step start stop = .ok an) :
    ∃ ps rs env, runVehicle A b static v step start stop = .ok (ps, rs, env) ∧
      an = { npts := env.npts, x := env.x, pos := ps
             bmd := animPanel env.npts (rs.map fun r => fun k => -(envOf r).M k)
             sfd := animPanel env.npts (rs.map fun r => fun k => (envOf r).V k) } := by
  unfold animate at h
  split at h
  · cases h
  · rename_i ps rs env hrun
    exact ⟨ps, rs, env, hrun, (Except.ok.inj h).symm⟩

theorem runVehicle_ok [FloorRing K] {A : Analyser K} {b : BeamB K} {static : List (Row K)} {v : Vehicle K}
    {step : K} {start stop : Option K} {ps : List K} {rs : List (Result K × List (MRes K))}
    {env : Envelope K} (h : runVehicle A b static v step start stop = .ok (ps, rs, env)) :
    runPositions b v step start stop = .ok ps ∧ rs.length = ps.length ∧
      (∀ i (hi : i < ps.length) (hi' : i < rs.length),
        runCase b.toDef A.stable A.solve A.npts (addLM static (axleLM b v ps[i])) = .ok rs[i]) ∧
      Envelope.new (rs.map envOf) = .ok env := by
  unfold runVehicle at h
  split at h
  · cases h
  · rename_i ps' hps
    split at h
    · cases h
    · rename_i q hq
      have h := Except.ok.inj h
      simp only [Prod.mk.injEq] at h
      obtain ⟨rfl, rfl⟩ := h
      unfold runOver at hq
      split at hq
      · cases hq
      · rename_i rs' hrs
        split at hq
        · cases hq
        · rename_i env' henv
          have hq := Except.ok.inj hq
          simp only [Prod.mk.injEq] at hq
          obtain ⟨rfl, rfl⟩ := hq
          obtain ⟨h1, h2⟩ := mapE_ok hrs
          exact ⟨hps, h1, h2, henv⟩

/-- **C130**: whenever the animation is made, its frames are the positions of the run; in frame
`i` the panels show moment (as `-M`) and shear of the analysis with the static loads and the
axles at that position, and the shaded band spans exactly from the least to the greatest of the
values at the positions so far; curve and band lie strictly inside the limits of the axes, which
do not change.  So a band never shrinks. -/
theorem C130_frames [FloorRing K] {A : Analyser K} {b : BeamB K} {static : List (Row K)} {v : Vehicle K}
    {step : K} {start stop : Option K} {an : Anim K} (h : animate A b static v step start stop = .ok an) :
    runPositions b v step start stop = .ok an.pos ∧ an.pos ≠ [] ∧
    ∃ q : ℕ → Result K × List (MRes K),
      (∀ i (hi : i < an.pos.length), runCase b.toDef A.stable A.solve A.npts
        (addLM static (axleLM b v an.pos[i])) = .ok (q i) ∧ (envOf (q i)).npts = an.npts) ∧
      (envOf (q 0)).x = an.x ∧
      an.bmd.Shows an.npts an.pos.length (fun i k => -(envOf (q i)).M k) ∧
      an.sfd.Shows an.npts an.pos.length (fun i k => (envOf (q i)).V k) := by
  obtain ⟨ps, rs, env, hrun, rfl⟩ := animate_ok h
  obtain ⟨hps, hlen, hcase, henv⟩ := runVehicle_ok hrun
  obtain ⟨-, -, -, hn⟩ := Envelope.new_spec henv
  cases rs with
  | nil => cases henv
  | cons r0 rs =>
    have hne : ps ≠ [] := by rintro rfl; simp at hlen
    refine ⟨hps, hne, fun i => (r0 :: rs).getD i r0, ?_, ?_, ?_, ?_⟩
    · intro i hi
      have hi' : i < (r0 :: rs).length := by rw [hlen]; exact hi
      have e : (r0 :: rs).getD i r0 = (r0 :: rs)[i] := by
        rw [List.getD_eq_getElem?_getD, List.getElem?_eq_getElem hi', Option.getD_some]
      dsimp only
      rw [e]
      exact ⟨hcase i hi hi', (hn _ (List.mem_map_of_mem (List.getElem_mem hi'))).1⟩
    · show (envOf r0).x = env.x
      simp only [Envelope.new, List.map_cons] at henv
      split at henv
      · cases henv; rfl
      · cases henv
    · have hs := animPanel_shows env.npts ((r0 :: rs).map fun r => fun k => -(envOf r).M k)
      rw [List.length_map, hlen] at hs
      have e : ∀ i < ps.length, ((r0 :: rs).map fun r => fun k => -(envOf r).M k).getD i 0
          = fun k => -(envOf ((r0 :: rs).getD i r0)).M k := by
        intro i hi
        have hi' : i < (r0 :: rs).length := by rw [hlen]; exact hi
        simp only [List.getD_eq_getElem?_getD, List.getElem?_map, List.getElem?_eq_getElem hi',
          Option.map_some, Option.getD_some]
      exact hs.congr fun i hi k => congrFun (e i hi) k
    · have hs := animPanel_shows env.npts ((r0 :: rs).map fun r => fun k => (envOf r).V k)
      rw [List.length_map, hlen] at hs
      have e : ∀ i < ps.length, ((r0 :: rs).map fun r => fun k => (envOf r).V k).getD i 0
          = fun k => (envOf ((r0 :: rs).getD i r0)).V k := by
        intro i hi
        have hi' : i < (r0 :: rs).length := by rw [hlen]; exact hi
        simp only [List.getD_eq_getElem?_getD, List.getElem?_map, List.getElem?_eq_getElem hi',
          Option.map_some, Option.getD_some]
      exact hs.congr fun i hi k => congrFun (e i hi) k

/-- The last band of a panel, as `(least, greatest)`. -/
def AnimPanel.final (p : AnimPanel K) (k : ℕ) : K × K :=
  (p.bandMin.getLastD 0 k, p.bandMax.getLastD 0 k)

/-- **C130**, the end — the band grows to the envelope of the run, except that an `Envelopes`
object counts the unloaded beam as well: its extremes are those of the last band and zero. -/
theorem C130_final [FloorRing K] {A : Analyser K} {b : BeamB K} {static : List (Row K)} {v : Vehicle K}
    {step : K} {start stop : Option K} {an : Anim K} {ps : List K}
    {rs : List (Result K × List (MRes K))} {env : Envelope K}
    (h : animate A b static v step start stop = .ok an)
    (hrun : runVehicle A b static v step start stop = .ok (ps, rs, env)) (k : ℕ) :
    env.Mmax k = max 0 (-(an.bmd.final k).1) ∧ env.Mmin k = min 0 (-(an.bmd.final k).2) ∧
    env.Vmax k = max 0 (an.sfd.final k).2 ∧ env.Vmin k = min 0 (an.sfd.final k).1 := by
  obtain ⟨ps', rs', env', hrun', rfl⟩ := animate_ok h
  rw [hrun] at hrun'
  have he := Except.ok.inj hrun'
  simp only [Prod.mk.injEq] at he
  obtain ⟨rfl, rfl, rfl⟩ := he
  obtain ⟨-, -, -, henv⟩ := runVehicle_ok hrun
  obtain ⟨hC, -⟩ := C28_envelope_attained _ _ henv
  obtain ⟨c1, c2, c3, c4⟩ := hC k
  have hne : rs ≠ [] := by rintro rfl; cases henv
  have hlast : rs.length - 1 < rs.length := by
    have := List.length_pos_of_ne_nil hne
    omega
  have key : ∀ (f : EnvRes K → ℕ → K) (g : K → K),
      (∀ y, (∃ j ≤ rs.length - 1, ((rs.map fun r => fun k => g (f (envOf r) k)).getD j 0) k = y) ↔
        ∃ r ∈ rs.map envOf, g (f r k) = y) := by
    intro f g y
    constructor
    · rintro ⟨j, hj, rfl⟩
      have hj' : j < rs.length := by omega
      refine ⟨envOf rs[j], List.mem_map_of_mem (List.getElem_mem hj'), ?_⟩
      simp only [List.getD_eq_getElem?_getD, List.getElem?_map, List.getElem?_eq_getElem hj',
        Option.map_some, Option.getD_some]
    · rintro ⟨r, hr, rfl⟩
      obtain ⟨r', hr', rfl⟩ := List.mem_map.1 hr
      obtain ⟨j, hj', rfl⟩ := List.getElem_of_mem hr'
      refine ⟨j, by omega, ?_⟩
      simp only [List.getD_eq_getElem?_getD, List.getElem?_map, List.getElem?_eq_getElem hj',
        Option.map_some, Option.getD_some]
  have neM : (rs.map fun r => fun k => -(envOf r).M k) ≠ [] := by simpa using hne
  have neV : (rs.map fun r => fun k => (envOf r).V k) ≠ [] := by simpa using hne
  have M1 := accum_max (rows := rs.map fun r => fun k => -(envOf r).M k) (i := rs.length - 1)
    (by simpa using hlast) k
  have M2 := accum_min (rows := rs.map fun r => fun k => -(envOf r).M k) (i := rs.length - 1)
    (by simpa using hlast) k
  have V1 := accum_max (rows := rs.map fun r => fun k => (envOf r).V k) (i := rs.length - 1)
    (by simpa using hlast) k
  have V2 := accum_min (rows := rs.map fun r => fun k => (envOf r).V k) (i := rs.length - 1)
    (by simpa using hlast) k
  simp only [AnimPanel.final, animPanel, accum_last _ neM, accum_last _ neV, List.length_map]
  have kM := key (fun r k => r.M k) (fun y => -y)
  have kV := key (fun r k => r.V k) id
  simp only [id] at kV
  simp only [IsGreatest, IsLeast, upperBounds, lowerBounds, Set.mem_ofPred_eq, kM, kV] at M1 M2 V1 V2
  refine ⟨c1.unique ⟨?_, ?_⟩, c2.unique ⟨?_, ?_⟩, c3.unique ⟨?_, ?_⟩, c4.unique ⟨?_, ?_⟩⟩
  · obtain ⟨r, hr, e⟩ := M2.1
    rw [← e, neg_neg]
    rcases le_total 0 (r.M k) with hc | hc
    · rw [max_eq_right hc]; exact Or.inr ⟨r, hr, rfl⟩
    · rw [max_eq_left hc]; exact Or.inl rfl
  · rintro y (rfl | ⟨r, hr, rfl⟩)
    · exact le_max_left _ _
    · have := M2.2 ⟨r, hr, rfl⟩
      exact le_max_of_le_right (by linarith)
  · obtain ⟨r, hr, e⟩ := M1.1
    rw [← e, neg_neg]
    rcases le_total 0 (r.M k) with hc | hc
    · rw [min_eq_left hc]; exact Or.inl rfl
    · rw [min_eq_right hc]; exact Or.inr ⟨r, hr, rfl⟩
  · rintro y (rfl | ⟨r, hr, rfl⟩)
    · exact min_le_left _ _
    · have := M1.2 ⟨r, hr, rfl⟩
      exact min_le_of_right_le (by linarith)
  · obtain ⟨r, hr, e⟩ := V1.1
    rw [← e]
    rcases le_total 0 (r.V k) with hc | hc
    · rw [max_eq_right hc]; exact Or.inr ⟨r, hr, rfl⟩
    · rw [max_eq_left hc]; exact Or.inl rfl
  · rintro y (rfl | ⟨r, hr, rfl⟩)
    · exact le_max_left _ _
    · exact le_max_of_le_right (V1.2 ⟨r, hr, rfl⟩)
  · obtain ⟨r, hr, e⟩ := V2.1
    rw [← e]
    rcases le_total 0 (r.V k) with hc | hc
    · rw [min_eq_left hc]; exact Or.inl rfl
    · rw [min_eq_right hc]; exact Or.inr ⟨r, hr, rfl⟩
  · rintro y (rfl | ⟨r, hr, rfl⟩)
    · exact min_le_left _ _
    · exact min_le_of_right_le (V2.2 ⟨r, hr, rfl⟩)

/-- **C130** at a static force of 2 at midspan of a simple span and two unit axles crossing it:
the animation has four frames; at midspan the last band of the moments spans from `-3/2` to `-1`
(moments of 1 to 3/2), while the envelope of the same run has the minimum 0: the band does *not*
grow to the full envelope. -/
theorem C130_static_violation : ∃ (v : Vehicle ℚ) (an : Anim ℚ) (ps : List ℚ)
    (rs : List (Result ℚ × List (MRes ℚ))) (env : Envelope ℚ),
    Vehicle.new [1] [1, 1] = .ok v ∧
    animate exRunA exIL [⟨1, 2, [2, 1, 0]⟩] v 1 none none = .ok an ∧
    runVehicle exRunA exIL [⟨1, 2, [2, 1, 0]⟩] v 1 none none = .ok (ps, rs, env) ∧
    an.pos = [0, 1, 2, 3] ∧ an.bmd.final 3 = (-3 / 2, -1) ∧ env.Mmax 3 = 3 / 2 ∧ env.Mmin 3 = 0 := by
  obtain ⟨v, hv⟩ : ∃ v : Vehicle ℚ, Vehicle.new [1] [1, 1] = .ok v := ⟨_, rfl⟩
  have hv' : v = ⟨[1], [1, 1], 1, 2, 2, [0, 1]⟩ := by
    have : Vehicle.new ([1] : List ℚ) [1, 1] = .ok ⟨[1], [1, 1], 1, 2, 2, [0, 1]⟩ := by decide +kernel
    exact Except.ok.inj (hv.symm.trans this)
  subst hv'
  obtain ⟨an, h1, h2⟩ := ok_of_map (x := animate exRunA exIL [⟨1, 2, [2, 1, 0]⟩]
    ⟨[1], [1, 1], 1, 2, 2, [0, 1]⟩ 1 none none) (f := fun an => (an.pos, an.bmd.final 3))
    (y := ([0, 1, 2, 3], (-3 / 2, -1))) (by decide +kernel)
  obtain ⟨q, h3, h4⟩ := ok_of_map (x := runVehicle exRunA exIL [⟨1, 2, [2, 1, 0]⟩]
    ⟨[1], [1, 1], 1, 2, 2, [0, 1]⟩ 1 none none) (f := fun q => (q.2.2.Mmax 3, q.2.2.Mmin 3))
    (y := (3 / 2, 0)) (by decide +kernel)
  simp only [Prod.mk.injEq] at h2 h4
  exact ⟨_, an, q.1, q.2.1, q.2.2, hv, h1, h3, h2.1, h2.2, h4.1, h4.2⟩

/-! ### C132: the caption -/

/-- The axle weights a caption of groups stands for. -/
def spelledOut (gs : List (ℕ × K)) : List K := gs.flatMap fun g => List.replicate g.1 g.2

theorem forall₂_takeWhile (w : K) (ws : List K) :
    List.Forall₂ (fun g x => npClose x g) (List.replicate (ws.takeWhile fun x => decide (npClose x w)).length w)
      (ws.takeWhile fun x => decide (npClose x w)) := by
  induction ws with
  | nil => exact List.Forall₂.nil
  | cons a ws ih =>
    by_cases h : npClose a w
    · rw [List.takeWhile_cons_of_pos (by simpa using h), List.length_cons, List.replicate_succ]
      exact List.Forall₂.cons h ih
    · rw [List.takeWhile_cons_of_neg (by simpa using h)]
      exact List.Forall₂.nil

theorem npClose_refl (w : K) : npClose w w := by
  unfold npClose
  rw [sub_self, abs_zero]
  positivity

/-- **C132**: the caption gives the axles in order: written out, its groups have as many axles as
the vehicle, each with a weight within `np.isclose` of the one given, and every group has one. -/
theorem C132_groups (ws : List K) :
    List.Forall₂ (fun g x => npClose x g) (spelledOut (axleGroups ws)) ws ∧
      ∀ g ∈ axleGroups ws, 0 < g.1 := by
  induction hn : ws.length using Nat.strong_induction_on generalizing ws with
  | _ n ih =>
    cases ws with
    | nil => rw [axleGroups]; exact ⟨List.Forall₂.nil, by simp⟩
    | cons w ws =>
      rw [axleGroups]
      set m := (ws.takeWhile fun x => decide (npClose x w)).length with hm
      obtain ⟨i1, i2⟩ := ih (ws.drop m).length (by simp at hn ⊢; omega) _ rfl
      constructor
      · simp only [spelledOut, List.flatMap_cons, List.replicate_succ, List.cons_append]
        refine List.Forall₂.cons (npClose_refl w) ?_
        conv_rhs => rw [← List.takeWhile_append_dropWhile (p := fun x => decide (npClose x w)) (l := ws)]
        have hd : ws.dropWhile (fun x => decide (npClose x w)) = ws.drop m := by
          have h1 := List.takeWhile_append_dropWhile (p := fun x => decide (npClose x w)) (l := ws)
          conv_rhs => rw [← h1]
          rw [hm, List.drop_left]
        rw [hd]
        exact List.rel_append (forall₂_takeWhile w ws) i1
      · intro g hg
        rcases List.mem_cons.1 hg with rfl | hg
        · simp
        · exact i2 g hg

/-- **C132**, exactly — if no two different axle weights of the vehicle are within `np.isclose`
of each other, the caption is exact: written out, it is the list of axle weights, and the total
is the one shown. -/
theorem C132_exact (ws : List K) (hsep : ∀ x ∈ ws, ∀ y ∈ ws, npClose x y → x = y) :
    spelledOut (axleGroups ws) = ws ∧
      ((axleGroups ws).map fun g => (g.1 : K) * g.2).sum = ws.sum := by
  have hmem : ∀ ws : List K, ∀ g ∈ axleGroups ws, g.2 ∈ ws := by
    intro ws
    induction hn : ws.length using Nat.strong_induction_on generalizing ws with
    | _ n ih =>
      cases ws with
      | nil => rw [axleGroups]; simp
      | cons w ws =>
        rw [axleGroups]
        intro g hg
        rcases List.mem_cons.1 hg with rfl | hg
        · simp
        · exact List.mem_cons_of_mem _ (List.mem_of_mem_drop
            (ih _ (by simp at hn ⊢; omega) _ rfl g hg))
  have h1 := (C132_groups ws).1
  have key : ∀ (l l' : List K), (∀ x ∈ l, x ∈ ws) → (∀ x ∈ l', x ∈ ws) →
      List.Forall₂ (fun g x => npClose x g) l l' → l = l' := by
    intro l l' hl hl' hf
    induction hf with
    | nil => rfl
    | cons hab _ ih =>
      rw [hsep _ (hl' _ (by simp)) _ (hl _ (by simp)) hab,
        ih (fun x hx => hl x (by simp [hx])) (fun x hx => hl' x (by simp [hx]))]
  have e : spelledOut (axleGroups ws) = ws := by
    refine key _ _ ?_ (fun x hx => hx) h1
    intro x hx
    obtain ⟨g, hg, hx⟩ := List.mem_flatMap.1 hx
    rw [(List.mem_replicate.1 hx).2]
    exact hmem ws g hg
  refine ⟨e, ?_⟩
  conv_rhs => rw [← e]
  unfold spelledOut
  generalize axleGroups ws = gs
  induction gs with
  | nil => rfl
  | cons g gs ih => simp [ih]

/-- C132 at the vehicle of the docstring, with axles 150, 150, 150, 120, 120, 40. -/
example : axleGroups [150, 150, 150, 120, 120, (40 : ℚ)] = [(3, 150), (2, 120), (1, 40)] := by
  norm_num [axleGroups, npClose]

/-- **C132** is false beyond: axles of 100000 and 100001 are shown as two of 100000, next to a
total of 200001; and the chain of near weights depends on the order of the axles. -/
theorem C132_close_violation :
    axleGroups [100000, (100001 : ℚ)] = [(2, 100000)] ∧ ([100000, 100001] : List ℚ).sum = 200001 ∧
    axleGroups [100000, 100001, (100002 : ℚ)] = [(2, 100000), (1, 100002)] ∧
    axleGroups [100001, 100000, (100002 : ℚ)] = [(3, 100001)] := by
  norm_num [axleGroups, npClose]

/-! ### C133: the reactions of an envelope -/

/-- What a history over the positions `pos` of the function `f` should show: its points in order. -/
def HistoryOf (pos : List K) (f : ℕ → K) (pts : List (K × K)) : Prop :=
  pts.length = pos.length ∧ ∀ i (hi : i < pos.length) (hi' : i < pts.length), pts[i] = (pos[i], f i)

/-- **C133**: the reactions drawn for the envelope of the last run: one panel for each reaction,
whose curves are the reaction of the analysis at each position of the front axle, where positive
and where negative; the marked points are on the curves, at the extremes of the envelope. -/
theorem C133_history_partial [FloorRing K] {A : Analyser K} {b : BeamB K} {static : List (Row K)}
    {v : Vehicle K} {step : K} {start stop : Option K} {ps : List K}
    {rs : List (Result K × List (MRes K))} {env : Envelope K}
    (h : runVehicle A b static v step start stop = .ok (ps, rs, env)) :
    (reactPanels ps env).length = env.nsup ∧ ∀ j (hj : j < (reactPanels ps env).length),
      ∃ hi lo mh ml, (reactPanels ps env)[j] = .history hi lo mh ml ∧
        HistoryOf ps (fun i => max 0 ((rs.map envOf).getD i ⟨0, 0, 0, 0, 0, 0, []⟩ |>.R j)) hi ∧
        HistoryOf ps (fun i => min 0 ((rs.map envOf).getD i ⟨0, 0, 0, 0, 0, 0, []⟩ |>.R j)) lo ∧
        mh ∈ hi ∧ mh.2 = env.Rmaxval j ∧ ml ∈ lo ∧ ml.2 = env.Rminval j := by
  obtain ⟨hps, hlen, hcase, henv⟩ := runVehicle_ok h
  obtain ⟨-, hn, hR, -⟩ := Envelope.new_spec henv
  rw [List.length_map] at hn
  have hp : ps.length = env.nres := by omega
  have hpos : 0 < env.nres := by
    cases rs with
    | nil => cases henv
    | cons r rs => rw [hn]; simp
  have e : reactPanels ps env = (List.range env.nsup).map fun j =>
      .history ((List.range env.nres).map fun i => (ps.getD i 0, env.Rmax j i))
        ((List.range env.nres).map fun i => (ps.getD i 0, env.Rmin j i))
        (ps.getD (argMax (env.nres - 1) (env.Rmax j)) 0, env.Rmax j (argMax (env.nres - 1) (env.Rmax j)))
        (ps.getD (argMin (env.nres - 1) (env.Rmin j)) 0, env.Rmin j (argMin (env.nres - 1) (env.Rmin j))) := by
    unfold reactPanels
    rw [if_pos hp]
  rw [e]
  refine ⟨by simp, ?_⟩
  intro j hj
  have hget : ∀ i (hi : i < ps.length), ∀ a, (rs.map envOf).getD i a = (rs.map envOf)[i]'(by simp; omega) := by
    intro i hi a
    rw [List.getD_eq_getElem?_getD, List.getElem?_eq_getElem (by simp; omega), Option.getD_some]
  have hval : env.Rmaxval j = rowMax (env.nres - 1) (env.Rmax j) ∧
      env.Rminval j = rowMin (env.nres - 1) (env.Rmin j) := by
    cases rs with
    | nil => cases henv
    | cons r0 rs =>
      simp only [Envelope.new, List.map_cons] at henv
      split at henv
      · cases henv
        simp
      · cases henv
  obtain ⟨a1, a2, -⟩ := argMax_spec (env.nres - 1) (env.Rmax j)
  obtain ⟨b1, b2, -⟩ := argMin_spec (env.nres - 1) (env.Rmin j)
  rw [List.getElem_map, List.getElem_range]
  refine ⟨_, _, _, _, rfl, ⟨by simp [hp], ?_⟩, ⟨by simp [hp], ?_⟩, ?_, ?_, ?_, ?_⟩
  · intro i hi hi'
    dsimp only
    rw [List.getElem_map, List.getElem_range, hget i hi, (hR j i (by simp; omega)).1,
      List.getD_eq_getElem?_getD, List.getElem?_eq_getElem hi, Option.getD_some]
  · intro i hi hi'
    dsimp only
    rw [List.getElem_map, List.getElem_range, hget i hi, (hR j i (by simp; omega)).2,
      List.getD_eq_getElem?_getD, List.getElem?_eq_getElem hi, Option.getD_some]
  · exact List.mem_map.2 ⟨_, List.mem_range.2 (by omega), rfl⟩
  · rw [hval.1]; exact a2
  · exact List.mem_map.2 ⟨_, List.mem_range.2 (by omega), rfl⟩
  · rw [hval.2]; exact b2

/-- **C133** is false after a merge: an envelope augmented by one with another number of results
has its history blanked, but keeps its number of columns; so for the positions of its own run
every panel is a history of zeros whose marked "governing" values are zero. -/
theorem C133_blank_violation (e e' o : Envelope K) (h : e.augment e' = .ok o) (hn : e.nres ≠ e'.nres)
    (pos : List K) (hp : pos.length = e.nres) : ∀ p ∈ reactPanels pos o, ∃ hi lo mh ml,
      p = .history hi lo mh ml ∧ (∀ q ∈ hi, q.2 = 0) ∧ (∀ q ∈ lo, q.2 = 0) ∧ mh.2 = 0 ∧ ml.2 = 0 := by
  unfold Envelope.augment at h
  split at h
  · cases h
  · have h := (Except.ok.inj h).symm
    subst h
    intro p hpm
    unfold reactPanels at hpm
    dsimp only at hpm
    rw [if_pos hp] at hpm
    obtain ⟨j, -, rfl⟩ := List.mem_map.1 hpm
    refine ⟨_, _, _, _, rfl, ?_, ?_, ?_, ?_⟩
    · intro q hq
      obtain ⟨i, -, rfl⟩ := List.mem_map.1 hq
      dsimp only
    · intro q hq
      obtain ⟨i, -, rfl⟩ := List.mem_map.1 hq
      dsimp only
    · dsimp only
    · dsimp only

/-- The witness: the run of C130 with four positions, augmented by a run of six; the largest
left reaction is 5/2, but the panels mark zero. -/
theorem C133_blank_witness : ∃ (v : Vehicle ℚ) (ps ps' : List ℚ) (rs rs' : List (Result ℚ × List (MRes ℚ)))
    (e e' o : Envelope ℚ),
    runVehicle exRunA exIL [⟨1, 2, [2, 1, 0]⟩] v 1 none none = .ok (ps, rs, e) ∧
    runVehicle exRunA exIL [⟨1, 2, [2, 1, 0]⟩] v 1 (some 0) (some 5) = .ok (ps', rs', e') ∧
    e.augment e' = .ok o ∧ ps.length = e.nres ∧ e.nres ≠ e'.nres ∧ o.Rmaxval 0 = 5 / 2 ∧
    (reactPanels ps o).length = 2 := by
  refine ⟨⟨[1], [1, 1], 1, 2, 2, [0, 1]⟩, ?_⟩
  obtain ⟨q, h3, h4⟩ := ok_of_map (x := runVehicle exRunA exIL [⟨1, 2, [2, 1, 0]⟩]
    ⟨[1], [1, 1], 1, 2, 2, [0, 1]⟩ 1 none none) (f := fun q => (q.1.length, q.2.2.nres, q.2.2.npts, q.2.2.nsup, q.2.2.Rmaxval 0))
    (y := (4, 4, 7, 2, 5 / 2)) (by decide +kernel)
  obtain ⟨q', h3', h4'⟩ := ok_of_map (x := runVehicle exRunA exIL [⟨1, 2, [2, 1, 0]⟩]
    ⟨[1], [1, 1], 1, 2, 2, [0, 1]⟩ 1 (some 0) (some 5)) (f := fun q => (q.1.length, q.2.2.nres, q.2.2.npts, q.2.2.nsup, q.2.2.Rmaxval 0))
    (y := (6, 6, 7, 2, 5 / 2)) (by decide +kernel)
  simp only [Prod.mk.injEq] at h4 h4'
  obtain ⟨a1, a2, a3, a4, a5⟩ := h4
  obtain ⟨b1, b2, b3, b4, b5⟩ := h4'
  obtain ⟨o, ho⟩ : ∃ o, q.2.2.augment q'.2.2 = .ok o := by
    unfold Envelope.augment
    rw [if_neg (by omega)]
    exact ⟨_, rfl⟩
  refine ⟨q.1, q'.1, q.2.1, q'.2.1, q.2.2, q'.2.2, o, h3, h3', ho, by omega, by omega, ?_⟩
  unfold Envelope.augment at ho
  rw [if_neg (by omega)] at ho
  have ho := (Except.ok.inj ho).symm
  subst ho
  refine ⟨?_, ?_⟩
  · dsimp only
    rw [a5, b5, max_self]
  · unfold reactPanels
    dsimp only
    rw [if_pos (by omega)]
    simp [a4]

/-- **C133** is false for an envelope of another run with the same number of positions: it is
drawn over the positions of the last run.  Here the vehicle is run over positions 0 to 3, and then
over 2 to 5; the first envelope is then drawn with the largest left reaction, 3/2, at position 3,
where the left reaction is zero. -/
theorem C133_positions_violation : ∃ (v : Vehicle ℚ) (ps ps' : List ℚ) (rs rs' : List (Result ℚ × List (MRes ℚ)))
    (e e' : Envelope ℚ) (p : ReactPanel ℚ) (hi lo : List (ℚ × ℚ)) (mh ml : ℚ × ℚ) (r : Result ℚ × List (MRes ℚ)),
    runVehicle exRunA exIL [] v 1 (some 0) (some 3) = .ok (ps, rs, e) ∧
    runVehicle exRunA exIL [] v 1 (some 2) (some 5) = .ok (ps', rs', e') ∧
    (reactPanels ps' e)[0]? = some p ∧ p = .history hi lo mh ml ∧ mh = (3, 3 / 2) ∧
    ps[3]? = some 3 ∧ rs[3]? = some r ∧ (envOf r).R 0 = 0 := by
  refine ⟨⟨[1], [1, 1], 1, 2, 2, [0, 1]⟩, ?_⟩
  obtain ⟨q, h3, h4⟩ := ok_of_map (x := runVehicle exRunA exIL []
    ⟨[1], [1, 1], 1, 2, 2, [0, 1]⟩ 1 (some 0) (some 3))
    (f := fun q => (q.1, q.2.2.nres, q.2.2.nsup, (q.2.1[3]?).map fun r => (envOf r).R 0,
      argMax (q.2.2.nres - 1) (q.2.2.Rmax 0), q.2.2.Rmax 0 1))
    (y := ([0, 1, 2, 3], 4, 2, some 0, 1, 3 / 2)) (by decide +kernel)
  obtain ⟨q', h3', h4'⟩ := ok_of_map (x := runVehicle exRunA exIL []
    ⟨[1], [1, 1], 1, 2, 2, [0, 1]⟩ 1 (some 2) (some 5)) (f := fun q => q.1)
    (y := [2, 3, 4, 5]) (by decide +kernel)
  simp only [Prod.mk.injEq] at h4 h4'
  obtain ⟨a1, a2, a3, a4, a5, a6⟩ := h4
  obtain ⟨r, hr, hr0⟩ := Option.map_eq_some_iff.1 a4
  have e : (reactPanels q'.1 q.2.2)[0]? = some (.history
      ((List.range q.2.2.nres).map fun i => (q'.1.getD i 0, q.2.2.Rmax 0 i))
      ((List.range q.2.2.nres).map fun i => (q'.1.getD i 0, q.2.2.Rmin 0 i))
      (q'.1.getD (argMax (q.2.2.nres - 1) (q.2.2.Rmax 0)) 0,
        q.2.2.Rmax 0 (argMax (q.2.2.nres - 1) (q.2.2.Rmax 0)))
      (q'.1.getD (argMin (q.2.2.nres - 1) (q.2.2.Rmin 0)) 0,
        q.2.2.Rmin 0 (argMin (q.2.2.nres - 1) (q.2.2.Rmin 0)))) := by
    unfold reactPanels
    rw [if_pos (by rw [h4', a2]; rfl), a3]
    rfl
  exact ⟨q.1, q'.1, q.2.1, q'.2.1, q.2.2, q'.2.2, _, _, _, _, _, r, h3, h3', e, rfl,
    by rw [a5, a6, h4']; rfl, by rw [a1]; rfl, hr, hr0⟩

end PyCBA
