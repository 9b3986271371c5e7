import Verif.Bridge.Run
import Verif.Analysis.Total
import Verif.Exact.Broken
import Mathlib.Topology.Algebra.GroupCompletion
import Mathlib.Topology.UniformSpace.HeineCantor

/-!
C135: a finer step of a vehicle run gives a wider envelope, which converges to the extremes over
all positions.

`BridgeAnalysis.run_vehicle` (`src/pycba/bridge.py` 412-447) visits the positions a step apart.
-/

set_option linter.unusedSectionVars false
set_option linter.unusedSimpArgs false

namespace PyCBA

open Set Filter Topology

variable {K : Type*} [Field K] [LinearOrder K] [IsStrictOrderedRing K]

/-! ### Division of the step -/

theorem runVehicle_positions [FloorRing K] {A : Analyser K} {b : BeamB K} {static : List (Row K)}
    {v : Vehicle K} {step : K} {start stop : Option K} {ps : List K}
    {l : List (Result K × List (MRes K))} {env : Envelope K}
    (h : runVehicle A b static v step start stop = .ok (ps, l, env)) :
    runPositions b v step start stop = .ok ps ∧
      runOver A b (fun pos => addLM static (axleLM b v pos)) ps = .ok (l, env) := by
  unfold runVehicle at h
  split at h
  · cases h
  · rename_i ps' hps
    split at h
    · cases h
    · rename_i q hq
      cases h
      exact ⟨hps, hq⟩

theorem runPositions_mem [FloorRing K] {b : BeamB K} {v : Vehicle K} {step : K}
    {start stop : Option K} {ps : List K} (h : runPositions b v step start stop = .ok ps) (p : K) :
    p ∈ ps ↔ ∃ i : ℕ, (i : ℤ) ≤ pyRound ((stop.getD (b.length + v.L) - start.getD 0) / step) ∧
      p = start.getD 0 + i * step := by
  simp only [runPositions] at h
  split at h
  · cases h
  · cases h
    simp only [List.mem_map, List.mem_range]
    constructor
    · rintro ⟨i, hi, rfl⟩
      exact ⟨i, by omega, rfl⟩
    · rintro ⟨i, hi, rfl⟩
      exact ⟨i, by omega, rfl⟩

theorem pyRound_ge_of_le [FloorRing K] {x : K} {m : ℤ} (h : (m : K) ≤ x) : m ≤ pyRound x := by
  have : m ≤ ⌊x⌋ := Int.le_floor.2 h
  unfold pyRound
  split
  · exact this
  · split
    · omega
    · split <;> omega

/-- **C135** (positions): if no position of the run lies beyond the end of the run, dividing the
step by a whole number keeps every position. -/
theorem C135_positions [FloorRing K] (b : BeamB K) (v : Vehicle K) (step : K) (hstep : 0 < step)
    (n : ℕ) (hn : 0 < n) (start stop : Option K) (ps ps' : List K)
    (h : runPositions b v step start stop = .ok ps)
    (h' : runPositions b v (step / n) start stop = .ok ps')
    (hin : ∀ p ∈ ps, p ≤ stop.getD (b.length + v.L)) : ∀ p ∈ ps, p ∈ ps' := by
  intro p hp
  have hle := hin p hp
  obtain ⟨i, hi, rfl⟩ := (runPositions_mem h p).1 hp
  have hnK : (0 : K) < n := by exact_mod_cast hn
  refine (runPositions_mem h' _).2 ⟨n * i, pyRound_ge_of_le ?_, ?_⟩
  · have e : (stop.getD (b.length + v.L) - start.getD 0) / (step / n)
        = n * ((stop.getD (b.length + v.L) - start.getD 0) / step) := by
      field_simp
    rw [e]
    push_cast
    refine mul_le_mul_of_nonneg_left ?_ hnK.le
    rw [le_div_iff₀ hstep]
    linarith
  · push_cast
    field_simp

/-- One envelope contains another. -/
structure Wider (env env' : Envelope K) : Prop where
  M : ∀ k, env.Mmax k ≤ env'.Mmax k ∧ env'.Mmin k ≤ env.Mmin k
  V : ∀ k, env.Vmax k ≤ env'.Vmax k ∧ env'.Vmin k ≤ env.Vmin k
  R : ∀ q, env.Rmaxval q ≤ env'.Rmaxval q ∧ env'.Rminval q ≤ env.Rminval q

theorem Analysed.unique {A : Analyser K} {b : BeamB K} {LM : List (Row K)} {r r' : EnvRes K}
    (h : Analysed A b LM r) (h' : Analysed A b LM r') : r = r' := by
  obtain ⟨q, h1, rfl⟩ := h
  obtain ⟨q', h2, rfl⟩ := h'
  rw [h1] at h2
  cases h2
  rfl

open Classical in
/-- The value of an effect at a position, if the analysis completes. -/
noncomputable def effectAt (A : Analyser K) (b : BeamB K) (LM : K → List (Row K))
    (e : EnvRes K → K) (pos : K) : K :=
  if h : ∃ r, Analysed A b (LM pos) r then e h.choose else 0

theorem effectAt_eq {A : Analyser K} {b : BeamB K} {LM : K → List (Row K)} {pos : K}
    {r : EnvRes K} (h : Analysed A b (LM pos) r) (e : EnvRes K → K) :
    e r = effectAt A b LM e pos := by
  have hex : ∃ r, Analysed A b (LM pos) r := ⟨r, h⟩
  rw [effectAt, dif_pos hex, h.unique hex.choose_spec]

/-- A run over more positions has a wider envelope. -/
theorem runOver_wider {A : Analyser K} {b : BeamB K} {LM : K → List (Row K)} {ps ps' : List K}
    {l l' : List (Result K × List (MRes K))} {env env' : Envelope K}
    (h : runOver A b LM ps = .ok (l, env)) (h' : runOver A b LM ps' = .ok (l', env'))
    (hsub : ∀ p ∈ ps, p ∈ ps') : Wider env env' := by
  obtain ⟨k1, k2⟩ := runOver_envelope h (effectAt A b LM) fun pos _ r hr e _ => effectAt_eq hr e
  obtain ⟨j1, j2⟩ := runOver_envelope h' (effectAt A b LM) fun pos _ r hr e _ => effectAt_eq hr e
  have hs : ∀ e : EnvRes K → K,
      ({0} ∪ {y | ∃ pos ∈ ps, effectAt A b LM e pos = y}) ⊆
        {0} ∪ {y | ∃ pos ∈ ps', effectAt A b LM e pos = y} := by
    intro e y hy
    rcases hy with hy | ⟨p, hp, hy⟩
    · exact .inl hy
    · exact .inr ⟨p, hsub p hp, hy⟩
  refine ⟨fun k => ⟨?_, ?_⟩, fun k => ⟨?_, ?_⟩, fun q => ⟨?_, ?_⟩⟩
  · exact (j1 k).1.2 (hs _ (k1 k).1.1)
  · exact (j1 k).2.1.2 (hs _ (k1 k).2.1.1)
  · exact (j1 k).2.2.1.2 (hs _ (k1 k).2.2.1.1)
  · exact (j1 k).2.2.2.2 (hs _ (k1 k).2.2.2.1)
  · exact (j2 q).1.2 (hs _ (k2 q).1.1)
  · exact (j2 q).2.2 (hs _ (k2 q).2.1)

/-- **C135** (refinement): the envelope of a run with the step divided by a whole number contains
that of the run with the step itself, if no position of the latter lies beyond the end of the
run.  Partial: without that condition it is false (`C135_refine_violation`). -/
theorem C135_refine_partial [FloorRing K] (A : Analyser K) (b : BeamB K) (static : List (Row K))
    (v : Vehicle K) (step : K) (hstep : 0 < step) (n : ℕ) (hn : 0 < n) (start stop : Option K)
    (ps ps' : List K) (l l' : List (Result K × List (MRes K))) (env env' : Envelope K)
    (h : runVehicle A b static v step start stop = .ok (ps, l, env))
    (h' : runVehicle A b static v (step / n) start stop = .ok (ps', l', env'))
    (hin : ∀ p ∈ ps, p ≤ stop.getD (b.length + v.L)) : Wider env env' := by
  obtain ⟨h1, h2⟩ := runVehicle_positions h
  obtain ⟨h1', h2'⟩ := runVehicle_positions h'
  exact runOver_wider h2 h2' (C135_positions b v step hstep n hn start stop ps ps' h1 h1' hin)

/-! ### A line given span by span -/

theorem take_sum_succ (lens : List ℝ) (i : ℕ) (hi : i < lens.length) :
    (lens.take (i + 1)).sum = (lens.take i).sum + lens[i] := boundary_succ lens i hi

theorem take_sum_le {lens : List ℝ} (hpos : ∀ L ∈ lens, 0 < L) {i : ℕ} (hi : i ≤ lens.length) :
    (lens.take i).sum ≤ lens.sum := by
  rcases hi.lt_or_eq with h | rfl
  · have := take_sum_strict hpos h le_rfl
    rw [List.take_length] at this
    exact this.le
  · rw [List.take_length]

theorem span_eq {lens : List ℝ} (hpos : ∀ L ∈ lens, 0 < L) {y : ℝ} {i i' : ℕ}
    (hi : i < lens.length) (hi' : i' < lens.length) (h0 : 0 ≤ y)
    (h1 : (lens.take i).sum ≤ y) (h2 : y < (lens.take (i + 1)).sum)
    (h1' : (lens.take i').sum ≤ y) (h2' : y < (lens.take (i' + 1)).sum) : i = i' := by
  have hs : y < lens.sum := h2.trans_le (take_sum_le hpos (by omega))
  refine SpanOf.unique hpos (poi := y) ⟨hi, fun _ _ => ⟨h1, h2.le, fun _ => h2⟩, ?_⟩
    ⟨hi', fun _ _ => ⟨h1', h2'.le, fun _ => h2'⟩, ?_⟩
  · rintro (h | h) <;> linarith
  · rintro (h | h) <;> linarith

theorem heightFrom_span {lens : List ℝ} (hpos : ∀ L ∈ lens, 0 < L) {f : ℕ → ℝ → ℝ} {y w : ℝ}
    (h : HeightFrom lens f y w) {i : ℕ} (hi : i < lens.length) (h0 : 0 ≤ y)
    (h1 : (lens.take i).sum ≤ y) (h2 : y < (lens.take (i + 1)).sum) :
    w = f i (y - (lens.take i).sum) := by
  obtain ⟨i', hi', a, e, ha0, ha1, ha2, rfl⟩ := h
  have hs : y < lens.sum := h2.trans_le (take_sum_le hpos (by omega))
  have := ha2 hs
  have : i = i' := by
    refine span_eq hpos hi hi' h0 h1 h2 (by linarith) ?_
    rw [take_sum_succ lens i' hi']
    linarith
  subst this
  congr 1
  linarith

/-- The line is continuous to the right if it ends at zero. -/
theorem line_right {lens : List ℝ} (hpos : ∀ L ∈ lens, 0 < L) {f : ℕ → ℝ → ℝ} {H : ℝ → ℝ}
    (hH : ∀ y, 0 ≤ y → y ≤ lens.sum → HeightFrom lens f y (H y))
    (hout : ∀ y, y < 0 ∨ lens.sum < y → H y = 0) (hend : H lens.sum = 0)
    (hf : ∀ i (hi : i < lens.length), ∀ a, 0 ≤ a → a < lens[i] →
      ContinuousWithinAt (f i) (Ici a) a) (y : ℝ) : ContinuousWithinAt H (Ici y) y := by
  have h0s : 0 ≤ lens.sum := by
    have := take_sum_le hpos (Nat.zero_le lens.length)
    simpa using this
  by_cases hy : y < 0
  · have : H =ᶠ[𝓝 y] fun _ => 0 := by
      filter_upwards [Iio_mem_nhds hy] with z hz using hout z (.inl hz)
    exact (continuousAt_const.congr this.symm).continuousWithinAt
  by_cases hy' : lens.sum ≤ y
  · have hz : ∀ z ∈ Ici y, H z = 0 := by
      intro z hz
      rcases (hy'.trans hz).lt_or_eq with h | h
      · exact hout z (.inr h)
      · rw [← h]; exact hend
    exact continuousWithinAt_const.congr hz (hz y self_mem_Ici)
  push Not at hy hy'
  obtain ⟨i, hi, a, e, ha0, ha1, ha2, hw⟩ := hH y hy hy'.le
  have ha := ha2 hy'
  have hsucc := take_sum_succ lens i hi
  have h1 : (lens.take i).sum ≤ y := by linarith
  have key : ∀ z ∈ Ici y ∩ Iio (lens.take (i + 1)).sum, H z = f i (z - (lens.take i).sum) := by
    intro z hz
    have hz0 : y ≤ z := hz.1
    have hz1 : z < (lens.take (i + 1)).sum := hz.2
    exact heightFrom_span hpos (hH z (hy.trans hz0)
      (hz1.le.trans (take_sum_le hpos (by omega)))) hi (hy.trans hz0) (h1.trans hz0) hz1
  have hy2 : y < (lens.take (i + 1)).sum := by linarith
  have hc : ContinuousWithinAt (fun z => f i (z - (lens.take i).sum)) (Ici y) y := by
    have hfa := hf i hi a ha0 ha
    have ea : a = y - (lens.take i).sum := by linarith
    rw [ea] at hfa
    refine hfa.comp (f := fun z => z - (lens.take i).sum)
      (by fun_prop : Continuous fun z : ℝ => z - (lens.take i).sum).continuousWithinAt ?_
    intro z hz
    have hz : y ≤ z := hz
    show y - (lens.take i).sum ≤ z - (lens.take i).sum
    linarith
  refine hc.congr_of_eventuallyEq ?_ (key y ⟨self_mem_Ici, hy2⟩)
  filter_upwards [inter_mem_nhdsWithin (Ici y) (Iio_mem_nhds hy2)] with z hz using key z hz

/-- The line is continuous to the left if the spans join and it starts at zero. -/
theorem line_left {lens : List ℝ} (hpos : ∀ L ∈ lens, 0 < L) {f : ℕ → ℝ → ℝ} {H : ℝ → ℝ}
    (hH : ∀ y, 0 ≤ y → y ≤ lens.sum → HeightFrom lens f y (H y))
    (hout : ∀ y, y < 0 ∨ lens.sum < y → H y = 0) (hstart : H 0 = 0)
    (hjoin : ∀ i (hi : i + 1 < lens.length), f i lens[i] = f (i + 1) 0)
    (hf : ∀ i (hi : i < lens.length), ∀ a, 0 < a → a ≤ lens[i] →
      ContinuousWithinAt (f i) (Iic a) a) (y : ℝ) : ContinuousWithinAt H (Iic y) y := by
  by_cases hy : lens.sum < y
  · have : H =ᶠ[𝓝 y] fun _ => 0 := by
      filter_upwards [Ioi_mem_nhds hy] with z hz using hout z (.inr hz)
    exact (continuousAt_const.congr this.symm).continuousWithinAt
  by_cases hy' : y ≤ 0
  · have hz : ∀ z ∈ Iic y, H z = 0 := by
      intro z hz
      have hz : z ≤ y := hz
      rcases (hz.trans hy').lt_or_eq with h | h
      · exact hout z (.inl h)
      · rw [h]; exact hstart
    exact continuousWithinAt_const.congr hz (hz y self_mem_Iic)
  push Not at hy hy'
  obtain ⟨i, hi, h1, h2, hw⟩ : ∃ i, ∃ hi : i < lens.length, (lens.take i).sum < y ∧
      y ≤ (lens.take (i + 1)).sum ∧ H y = f i (y - (lens.take i).sum) := by
    obtain ⟨i, hi, a, e, ha0, ha1, ha2, hw⟩ := hH y hy'.le hy
    have hsucc := take_sum_succ lens i hi
    rcases ha0.lt_or_eq with h | h
    · refine ⟨i, hi, by linarith, by linarith, ?_⟩
      rw [hw]
      congr 1
      linarith
    · subst h
      cases i with
      | zero => simp at e; linarith
      | succ i =>
        have hs' := take_sum_succ lens i (by omega)
        have hp := hpos _ (List.getElem_mem (show i < lens.length by omega))
        refine ⟨i, by omega, by linarith, by linarith, ?_⟩
        rw [hw, ← hjoin i hi]
        congr 1
        linarith
  have h0i : 0 ≤ (lens.take i).sum := by
    rcases Nat.eq_zero_or_pos i with rfl | h
    · simp
    · have := take_sum_strict hpos h hi.le
      simp at this
      exact this.le
  have key : ∀ z ∈ Iic y ∩ Ioi (lens.take i).sum, H z = f i (z - (lens.take i).sum) := by
    intro z hz
    have hz0 : z ≤ y := hz.1
    have hz1 : (lens.take i).sum < z := hz.2
    rcases hz0.lt_or_eq with h | h
    · exact heightFrom_span hpos (hH z (h0i.trans hz1.le) (hz0.trans hy)) hi (h0i.trans hz1.le)
        hz1.le (by linarith)
    · rw [h]; exact hw
  have hc : ContinuousWithinAt (fun z => f i (z - (lens.take i).sum)) (Iic y) y := by
    have hsucc := take_sum_succ lens i hi
    have hfa := hf i hi (y - (lens.take i).sum) (by linarith) (by linarith)
    refine hfa.comp (f := fun z => z - (lens.take i).sum)
      (by fun_prop : Continuous fun z : ℝ => z - (lens.take i).sum).continuousWithinAt ?_
    intro z hz
    have hz : z ≤ y := hz
    show z - (lens.take i).sum ≤ y - (lens.take i).sum
    linarith
  refine hc.congr_of_eventuallyEq ?_ (key y ⟨self_mem_Iic, h1⟩)
  filter_upwards [inter_mem_nhdsWithin (Iic y) (Ioi_mem_nhds h1)] with z hz using key z hz

/-! ### The effects of a unit force -/

theorem concat_place {K : Type*} [Field K] [LinearOrder K] [IsStrictOrderedRing K] (ns : List ℕ)
    (k : ℕ) :
    ∃ j k', (j < ns.length → k' < ns.getD j 0) ∧
      ∀ f : MRes K → ℕ → K, f ⟨0, 0, 0, 0, 0, 0⟩ = 0 → ∀ rs : List (MRes K), rs.map MRes.n = ns →
      (concatResults rs f).getD k 0 = f (rs.getD j ⟨0, 0, 0, 0, 0, 0⟩) k' := by
  induction ns generalizing k with
  | nil =>
    refine ⟨0, 0, by simp, fun f hf rs h => ?_⟩
    rw [List.map_eq_nil_iff] at h
    subst h
    simp [concatResults, hf]
  | cons n ns ih =>
    by_cases hk : k < n
    · refine ⟨0, k, fun _ => by simpa using hk, fun f hf rs h => ?_⟩
      cases rs with
      | nil => simp at h
      | cons r rs =>
        simp only [List.map_cons, List.cons.injEq] at h
        simp only [concatResults, List.flatMap_cons, MRes.list, List.getD_cons_zero]
        rw [List.getD_append _ _ _ _ (by simpa [h.1] using hk), List.getD_eq_getElem?_getD,
          List.getElem?_map, List.getElem?_range (by omega)]
        rfl
    · obtain ⟨j, k', hp, hj⟩ := ih (k - n)
      refine ⟨j + 1, k', fun h => ?_, fun f hf rs h => ?_⟩
      · rw [List.getD_cons_succ]
        exact hp (by simpa using h)
      cases rs with
      | nil => simp at h
      | cons r rs =>
        simp only [List.map_cons, List.cons.injEq] at h
        rw [List.getD_cons_succ, ← hj f hf rs h.2]
        simp only [concatResults, List.flatMap_cons, MRes.list]
        rw [List.getD_append_right _ _ _ _ (by simp; omega)]
        simp [h.1]

theorem BeamB.ForIL.unsettled {b : BeamB ℝ} (hb : b.ForIL) : b.toDef.Unsettled := by
  intro p v hv
  refine hb.presc v ?_
  rw [List.getD_eq_getElem?_getD] at hv
  rcases hp : b.presc[p]? with _ | o
  · change (b.presc[p]?).getD none = some v at hv
    rw [hp] at hv
    cases hv
  · change (b.presc[p]?).getD none = some v at hv
    rw [hp] at hv
    simp only [Option.getD_some] at hv
    subst hv
    exact List.mem_of_getElem? hp

/-- The moment and shear at a station under a unit force are heights of the broken lines. -/
theorem unit_broken {A : Analyser ℝ} (hsol : A.solve.Sound) (hn : 0 < A.npts) {b : BeamB ℝ}
    (hb : b.ForIL) (hsl : b.toDef.Slender []) (hpp : ∀ m ∈ b.toDef.members, m.et ≠ .PP)
    (j k : ℕ) (hj : j < b.lens.length) (hk : 0 < k) (hk' : k + 1 < A.npts + 3)
    {δ τ : ℝ} {y : ℕ → ℝ} {G : ℕ → Vec4 ℝ} {ηl φl : ℝ → ℝ} {η φ : ℕ → ℝ → ℝ}
    (hB : BrokenBeam b.toDef j ((k - 1 : ℕ) * (b.lens.getD j 0 / A.npts)) δ τ y G ηl φl η φ)
    {z : ℝ} {row : Row ℝ} (hrow : row.PointIn b.lens 1 z) {r : Result ℝ × List (MRes ℝ)}
    (hrun : runCase b.toDef A.stable A.solve A.npts [row] = .ok r) :
    (δ = 1 → τ = 0 → HeightFrom b.lens
      (brokenLine j ((k - 1 : ℕ) * (b.lens.getD j 0 / A.npts)) ηl η) z
        ((r.2.getD j ⟨0, 0, 0, 0, 0, 0⟩).V k)) ∧
    (δ = 0 → τ = -1 → HeightFrom b.lens
      (brokenLine j ((k - 1 : ℕ) * (b.lens.getD j 0 / A.npts)) ηl η) z
        ((r.2.getD j ⟨0, 0, 0, 0, 0, 0⟩).M k)) := by
  obtain ⟨i, hi, a, rfl, hya, ha0, ha1, ha2⟩ := hrow
  have hlen := toDef_length hb.proper.inStep
  set d : BeamDef ℝ := { b.toDef with LM := [⟨(i : ℤ) + 1, 2, [1, a, 0]⟩] } with hd
  have hls : d.setLoads = .ok [⟨i, .pl 1 a⟩] := by
    simp [hd, BeamDef.setLoads, parseLM, parseRow]
  have hbs : d.Slender [⟨i, .pl 1 a⟩] := by
    refine ⟨hsl.pos, hsl.prismatic, ?_⟩
    intro k hk l hl hlk
    simp only [List.mem_cons, List.not_mem_nil, or_false] at hl
    subst hl
    have : i = k := by simpa using hlk
    subst this
    refine ⟨⟨ha0, ?_⟩, by simp [Load.IsMechanical]⟩
    exact ha1.trans_eq (zipMembers_L _ _ _ _ i hk hi).symm
  have hun : d.Unsettled := hb.unsettled
  obtain ⟨ra, rb⟩ := runCase_ok hrun
  have hlr : r.2.length = b.lens.length := by
    rw [(BeamDef.memberResults_ok rb).1]
    exact hlen
  have hj' : j < r.2.length := by omega
  have hjd : j < d.members.length := by
    change j < b.toDef.members.length
    omega
  have hi' : i < d.members.length := by
    change i < b.toDef.members.length
    omega
  obtain ⟨_, g2, g3⟩ := runCase_stations hsol hb.proper.inStep hrun j r.2[j]
    (List.getElem?_eq_getElem hj')
  have hk2 : k + 1 < r.2[j].n := by omega
  have hxx : d.nodeX j + (k - 1 : ℕ) * (b.lens.getD j 0 / A.npts) = r.2[j].x k := by
    rw [g3 k hk hk2]
    congr 1
    exact toDef_nodeX hb.proper.inStep j
  obtain ⟨kV, kM⟩ := C109_internal_partial d _ hls hbs (BeamDef.pinsBalanced_of hpp _) hun A.stable
    A.solve hsol r.1 ra A.npts hn _ r.2 rb j hjd hj' k hk hk2 _ hxx
  have hB' : BrokenBeam d j ((k - 1 : ℕ) * (b.lens.getD j 0 / A.npts)) δ τ y G ηl φl η φ :=
    ⟨hB.span, hB.broken, hB.left, hB.right, hB.rotLeft, hB.rotRight, hB.prescribed, hB.rigid, hB.free⟩
  have e0 : r.2.getD j ⟨0, 0, 0, 0, 0, 0⟩ = r.2[j] := by
    rw [List.getD_eq_getElem?_getD, List.getElem?_eq_getElem hj']
    rfl
  rw [e0]
  constructor
  · rintro rfl rfl
    refine ⟨i, hi, a, hya, ha0, ha1, ha2, ?_⟩
    rw [kV y G ηl φl η φ hB', loadWork_point d i hi']
    ring
  · rintro rfl rfl
    refine ⟨i, hi, a, hya, ha0, ha1, ha2, ?_⟩
    rw [kM (by
        intro ld hld p hp
        simp only [ownLoads, List.mem_map, List.mem_filter] at hld
        obtain ⟨l, ⟨hl, -⟩, rfl⟩ := hld
        simp only [List.mem_cons, List.not_mem_nil, or_false] at hl
        subst hl
        simp [Load.couplesAt] at hp) y G ηl φl η φ hB', loadWork_point d i hi']
    ring

/-- The unloaded beam has no moment and no shear. -/
theorem bare_zero {A : Analyser ℝ} (hsol : A.solve.Sound) (hn : 0 < A.npts) {b : BeamB ℝ}
    (hb : b.ForIL) (hsl : b.toDef.Slender [])
    (hns : ∀ LM s, ({ b.toDef with LM := LM } : BeamDef ℝ).system = .ok s → s.Nonsingular)
    (j k : ℕ) (hj : j < b.lens.length) (hk : 0 < k) (hk' : k + 1 < A.npts + 3)
    {r : Result ℝ × List (MRes ℝ)}
    (hrun : runCase b.toDef A.stable A.solve A.npts [] = .ok r) :
    (∀ δ τ, ∃ y G ηl φl η φ,
      BrokenBeam b.toDef j ((k - 1 : ℕ) * (b.lens.getD j 0 / A.npts)) δ τ y G ηl φl η φ) ∧
    (r.2.getD j ⟨0, 0, 0, 0, 0, 0⟩).V k = 0 ∧ (r.2.getD j ⟨0, 0, 0, 0, 0, 0⟩).M k = 0 := by
  have hlen := toDef_length hb.proper.inStep
  set d : BeamDef ℝ := { b.toDef with LM := [] } with hd
  have hls : d.setLoads = .ok [] := by
    simp [hd, BeamDef.setLoads, parseLM]
  have hbs : d.Slender [] := ⟨hsl.pos, hsl.prismatic, by simp⟩
  have hun : d.Unsettled := hb.unsettled
  obtain ⟨ra, rb⟩ := runCase_ok hrun
  have hlr : r.2.length = b.lens.length := by
    rw [(BeamDef.memberResults_ok rb).1]
    exact hlen
  have hj' : j < r.2.length := by omega
  have hjd : j < d.members.length := by
    change j < b.toDef.members.length
    omega
  obtain ⟨_, g2, g3⟩ := runCase_stations hsol hb.proper.inStep hrun j r.2[j]
    (List.getElem?_eq_getElem hj')
  have hk2 : k + 1 < r.2[j].n := by omega
  have hxx : d.nodeX j + (k - 1 : ℕ) * (b.lens.getD j 0 / A.npts) = r.2[j].x k := by
    rw [g3 k hk hk2]
    congr 1
    exact toDef_nodeX hb.proper.inStep j
  have hLj : b.lens.getD j 0 = d.members[j].L := by
    rw [List.getD_eq_getElem?_getD, List.getElem?_eq_getElem hj]
    exact (zipMembers_L _ _ _ _ j hjd hj).symm
  have hLp : 0 < d.members[j].L := hsl.pos _ (List.getElem_mem hjd)
  have hnp : (0 : ℝ) < A.npts := by exact_mod_cast hn
  obtain ⟨s, hs, -⟩ := BeamDef.analyze_ok ra
  have hex : ∀ δ τ, ∃ y G ηl φl η φ,
      BrokenBeam d j ((k - 1 : ℕ) * (b.lens.getD j 0 / A.npts)) δ τ y G ηl φl η φ := by
    intro δ τ
    refine C109_exists_partial d [] hbs s hs (hns [] s hs) j hjd _ ?_ ?_ δ τ
    · rw [hLj]; positivity
    · rw [hLj, mul_div_assoc', div_le_iff₀ hnp, mul_comm]
      refine mul_le_mul_of_nonneg_left ?_ hLp.le
      exact_mod_cast (show k - 1 ≤ A.npts by omega)
  obtain ⟨kV, kM⟩ := C109_internal_partial d _ hls hbs (BeamDef.pinsBalanced_nil _) hun A.stable
    A.solve hsol r.1 ra A.npts hn _ r.2 rb j hjd hj' k hk hk2 _ hxx
  have e0 : r.2.getD j ⟨0, 0, 0, 0, 0, 0⟩ = r.2[j] := by
    rw [List.getD_eq_getElem?_getD, List.getElem?_eq_getElem hj']
    rfl
  rw [e0]
  have hw : ∀ f g, loadWork d [] f g = 0 := by
    intro f g
    simp [loadWork, ownLoads]
  refine ⟨fun δ τ => ?_, ?_, ?_⟩
  · obtain ⟨y, G, ηl, φl, η, φ, hB⟩ := hex δ τ
    exact ⟨y, G, ηl, φl, η, φ, ⟨hB.span, hB.broken, hB.left, hB.right, hB.rotLeft, hB.rotRight,
      hB.prescribed, hB.rigid, hB.free⟩⟩
  · obtain ⟨y, G, ηl, φl, η, φ, hB⟩ := hex 1 0
    rw [kV y G ηl φl η φ hB, hw, neg_zero]
  · obtain ⟨y, G, ηl, φl, η, φ, hB⟩ := hex 0 (-1)
    rw [kM (by simp [ownLoads]) y G ηl φl η φ hB, hw, neg_zero]

/-- A node with a rigid vertical support does not move. -/
theorem BrokenBeam.held {b : BeamB ℝ} (hb : b.ForIL) {j : ℕ} {x0 δ τ : ℝ} {y : ℕ → ℝ}
    {G : ℕ → Vec4 ℝ} {ηl φl : ℝ → ℝ} {η φ : ℕ → ℝ → ℝ}
    (hB : BrokenBeam b.toDef j x0 δ τ y G ηl φl η φ) (p : ℕ)
    (hp : p < 2 * b.lens.length + 2) (hr : b.restraints.getD p 0 < 0) : y p = 0 := by
  have hlen := toDef_length hb.proper.inStep
  rcases hpr : b.toDef.presc.getD p none with _ | w
  · exact hB.rigid p (by omega) hpr hr
  · rw [hB.prescribed p (by omega) w hpr]
    exact hb.unsettled p w hpr

/-- The line of a broken beam is continuous to the right in every span. -/
theorem BrokenBeam.right_cont {b : BeamB ℝ} (hb : b.ForIL) (hsl : b.toDef.Slender []) {j : ℕ}
    {x0 δ τ : ℝ} (hx1 : x0 ≤ b.lens.getD j 0) {y : ℕ → ℝ}
    {G : ℕ → Vec4 ℝ} {ηl φl : ℝ → ℝ} {η φ : ℕ → ℝ → ℝ}
    (hB : BrokenBeam b.toDef j x0 δ τ y G ηl φl η φ) (i : ℕ) (hi : i < b.lens.length) (a : ℝ)
    (ha0 : 0 ≤ a) (ha1 : a < b.lens[i]) :
    ContinuousWithinAt (brokenLine j x0 ηl η i) (Ici a) a := by
  have hlen := toDef_length hb.proper.inStep
  have hid : i < b.toDef.members.length := by omega
  have hLi : b.toDef.members[i].L = b.lens[i] := zipMembers_L _ _ _ _ i hid hi
  obtain ⟨-, e, -, he⟩ := hsl.prismatic _ (List.getElem_mem hid)
  have hcont : ∀ (f : ℝ → ℝ) (c d : ℝ), ContinuousOn f (Icc c d) → c ≤ a → a < d →
      ContinuousWithinAt f (Ici a) a := by
    intro f c d hf h1 h2
    have h3 : ContinuousWithinAt f (Icc a d) a :=
      (hf a ⟨h1, h2.le⟩).mono (Icc_subset_Icc_left h1)
    exact (continuousWithinAt_Icc_iff_Ici h2).1 h3
  by_cases hij : i = j
  · subst hij
    have hs := hB.broken hid e he
    rw [List.getD_eq_getElem?_getD, List.getElem?_eq_getElem hi, Option.getD_some] at hx1
    by_cases hax : a < x0
    · have h1 := hcont ηl 0 x0 hs.contL.1 ha0 hax
      refine h1.congr_of_eventuallyEq ?_ ?_
      · filter_upwards [mem_nhdsWithin_of_mem_nhds (Iio_mem_nhds hax)] with z hz
        rw [brokenLine, if_pos ⟨rfl, hz⟩]
      · rw [brokenLine, if_pos ⟨rfl, hax⟩]
    · push Not at hax
      have h1 := hcont (η i) x0 _ hs.contR.1 hax (by rw [hLi]; exact ha1)
      refine h1.congr ?_ ?_
      · intro z hz
        have hz : a ≤ z := hz
        rw [brokenLine, if_neg (fun h => absurd h.2 (not_lt.2 (hax.trans hz)))]
      · rw [brokenLine, if_neg (fun h => absurd h.2 (not_lt.2 hax))]
  · have hs := hB.span i hid e he hij
    have h1 := hcont (η i) 0 _ hs.contV ha0 (by rw [hLi]; exact ha1)
    refine h1.congr (fun z _ => ?_) ?_ <;> rw [brokenLine, if_neg (fun h => hij h.1)]

/-- The line of a beam broken by a rotation is continuous to the left in every span. -/
theorem BrokenBeam.left_cont {b : BeamB ℝ} (hb : b.ForIL) (hsl : b.toDef.Slender []) {j : ℕ}
    {x0 τ : ℝ} (hx1 : x0 ≤ b.lens.getD j 0) {y : ℕ → ℝ}
    {G : ℕ → Vec4 ℝ} {ηl φl : ℝ → ℝ} {η φ : ℕ → ℝ → ℝ}
    (hB : BrokenBeam b.toDef j x0 0 τ y G ηl φl η φ) (i : ℕ) (hi : i < b.lens.length) (a : ℝ)
    (ha0 : 0 < a) (ha1 : a ≤ b.lens[i]) :
    ContinuousWithinAt (brokenLine j x0 ηl η i) (Iic a) a := by
  have hlen := toDef_length hb.proper.inStep
  have hid : i < b.toDef.members.length := by omega
  have hLi : b.toDef.members[i].L = b.lens[i] := zipMembers_L _ _ _ _ i hid hi
  obtain ⟨-, e, -, he⟩ := hsl.prismatic _ (List.getElem_mem hid)
  have hcont : ∀ (f : ℝ → ℝ) (c d : ℝ), ContinuousOn f (Icc c d) → c < a → a ≤ d →
      ContinuousWithinAt f (Iic a) a := by
    intro f c d hf h1 h2
    have h3 : ContinuousWithinAt f (Icc c a) a :=
      (hf a ⟨h1.le, h2⟩).mono (Icc_subset_Icc_right h2)
    exact (continuousWithinAt_Icc_iff_Iic h1).1 h3
  by_cases hij : i = j
  · subst hij
    have hs := hB.broken hid e he
    rw [List.getD_eq_getElem?_getD, List.getElem?_eq_getElem hi, Option.getD_some] at hx1
    have hjump : η i x0 = ηl x0 := by rw [hs.jumpV, add_zero]
    by_cases hax : a ≤ x0
    · have h1 := hcont ηl 0 x0 hs.contL.1 ha0 hax
      have hz : ∀ z ∈ Iic a, brokenLine i x0 ηl η i z = ηl z := by
        intro z hz
        have hz : z ≤ a := hz
        rcases (hz.trans hax).lt_or_eq with h | h
        · rw [brokenLine, if_pos ⟨rfl, h⟩]
        · subst h
          rw [brokenLine, if_neg (by simp), hjump]
      exact h1.congr hz (hz a self_mem_Iic)
    · push Not at hax
      have h1 := hcont (η i) x0 _ hs.contR.1 hax (by rw [hLi]; exact ha1)
      refine h1.congr_of_eventuallyEq ?_ ?_
      · filter_upwards [mem_nhdsWithin_of_mem_nhds (Ioi_mem_nhds hax)] with z hz
        rw [brokenLine, if_neg (fun h => absurd h.2 (not_lt.2 (le_of_lt hz)))]
      · rw [brokenLine, if_neg (fun h => absurd h.2 (not_lt.2 hax.le))]
  · have hs := hB.span i hid e he hij
    have h1 := hcont (η i) 0 _ hs.contV ha0 (by rw [hLi]; exact ha1)
    refine h1.congr (fun z _ => ?_) ?_ <;> rw [brokenLine, if_neg (fun h => hij h.1)]

/-- The value at the right end of a span is the displacement of the node. -/
theorem BrokenBeam.at_right {b : BeamB ℝ} (hb : b.ForIL) {j : ℕ} {x0 δ τ : ℝ}
    (hx1 : x0 ≤ b.lens.getD j 0) {y : ℕ → ℝ} {G : ℕ → Vec4 ℝ} {ηl φl : ℝ → ℝ} {η φ : ℕ → ℝ → ℝ}
    (hB : BrokenBeam b.toDef j x0 δ τ y G ηl φl η φ) (i : ℕ) (hi : i < b.lens.length) :
    brokenLine j x0 ηl η i b.lens[i] = y (2 * i + 2) := by
  have hlen := toDef_length hb.proper.inStep
  have hid : i < b.toDef.members.length := by omega
  have hLi : b.toDef.members[i].L = b.lens[i] := zipMembers_L _ _ _ _ i hid hi
  rw [brokenLine, if_neg, ← hLi, hB.right i hid]
  rintro ⟨rfl, h⟩
  rw [List.getD_eq_getElem?_getD, List.getElem?_eq_getElem hi, Option.getD_some] at hx1
  linarith

/-- The value at the left end of a span of a beam broken by a rotation is the displacement of
the node. -/
theorem BrokenBeam.at_left {b : BeamB ℝ} (hb : b.ForIL) (hsl : b.toDef.Slender []) {j : ℕ}
    {x0 τ : ℝ} (hx0 : 0 ≤ x0)
    {y : ℕ → ℝ} {G : ℕ → Vec4 ℝ} {ηl φl : ℝ → ℝ} {η φ : ℕ → ℝ → ℝ}
    (hB : BrokenBeam b.toDef j x0 0 τ y G ηl φl η φ) (i : ℕ) (hi : i < b.lens.length) :
    brokenLine j x0 ηl η i 0 = y (2 * i) := by
  have hlen := toDef_length hb.proper.inStep
  have hid : i < b.toDef.members.length := by omega
  obtain ⟨-, e, -, he⟩ := hsl.prismatic _ (List.getElem_mem hid)
  have h := hB.left i hid
  by_cases hij : i = j
  · subst hij
    rw [if_pos rfl] at h
    rcases hx0.lt_or_eq with h0 | h0
    · rw [brokenLine, if_pos ⟨rfl, h0⟩, h]
    · subst h0
      have := (hB.broken hid e he).jumpV
      rw [add_zero] at this
      rw [brokenLine, if_neg (by simp), this, h]
  · rw [if_neg hij] at h
    rw [brokenLine, if_neg (fun h => hij h.1), h]

/-- The effect of a unit force at `y` on a beam of length `L`, zero off the beam. -/
noncomputable def unitLine (e : EnvRes ℝ → ℝ) (u : ℝ → EnvRes ℝ) (r0 : EnvRes ℝ) (L y : ℝ) : ℝ :=
  if 0 ≤ y ∧ y ≤ L then e (u y) - e r0 else 0

/-- The padding stations have neither moment nor shear. -/
theorem runCase_padding {A : Analyser ℝ} (hsol : A.solve.Sound) {b : BeamB ℝ} (hb : b.InStep)
    {LM : List (Row ℝ)} {r : Result ℝ × List (MRes ℝ)}
    (hr : runCase b.toDef A.stable A.solve A.npts LM = .ok r) (j k : ℕ)
    (h : j < b.lens.length → k = 0 ∨ k = A.npts + 2) :
    (r.2.getD j ⟨0, 0, 0, 0, 0, 0⟩).M k = 0 ∧ (r.2.getD j ⟨0, 0, 0, 0, 0, 0⟩).V k = 0 := by
  obtain ⟨h1, h2⟩ := runCase_ok hr
  have hlen := toDef_length hb
  have hl : r.2.length = b.lens.length := by
    rw [(BeamDef.memberResults_ok h2).1]
    exact hlen
  by_cases hj : j < b.lens.length
  · have hj' : j < r.2.length := by omega
    have hjd : j < b.toDef.members.length := by omega
    have hn := (runCase_stations hsol hb hr j r.2[j] (List.getElem?_eq_getElem hj')).2.1
    obtain ⟨ls', kk, t, c, _, _, _, _, m1, m2, m3, m4, m5, m6, hc⟩ :=
      BeamDef.results_member hsol h1 h2 j hjd hj'
    have e0 : r.2.getD j ⟨0, 0, 0, 0, 0, 0⟩ = r.2[j] := by
      rw [List.getD_eq_getElem?_getD, List.getElem?_eq_getElem hj']
      rfl
    rw [e0]
    have hcn : c.n = A.npts + 3 := by rw [← hn, hc]; rfl
    have hend : c.IsEnd k := by
      rcases h hj with h | h
      · exact .inl h
      · exact .inr (by omega)
    rw [hc]
    exact ⟨if_pos hend, if_pos hend⟩
  · have : r.2.getD j ⟨0, 0, 0, 0, 0, 0⟩ = ⟨0, 0, 0, 0, 0, 0⟩ := by
      rw [List.getD_eq_getElem?_getD, List.getElem?_eq_none (by omega)]
      rfl
    rw [this]
    exact ⟨rfl, rfl⟩

/-- A beam of slender prismatic members, none of them pinned at both ends, with rigid vertical
supports at both ends, no settlements, and no mechanism, whatever the loads. -/
structure BeamB.Regular (b : BeamB ℝ) : Prop where
  forIL : b.ForIL
  slender : b.toDef.Slender []
  noPP : ∀ m ∈ b.toDef.members, m.et ≠ .PP
  first : b.restraints.getD 0 0 < 0
  last : b.restraints.getD (2 * b.lens.length) 0 < 0
  stable : ∀ LM s, ({ b.toDef with LM := LM } : BeamDef ℝ).system = .ok s → s.Nonsingular

/-- The influence line of a bending moment is continuous, that of a shear continuous to the
right. -/
theorem unitLine_cont {A : Analyser ℝ} (hsol : A.solve.Sound) (hn : 0 < A.npts) {b : BeamB ℝ}
    (hb : b.Regular) {u : ℝ → EnvRes ℝ} {r0 : EnvRes ℝ} (h0 : Analysed A b [] r0)
    (hu : ∀ y, 0 ≤ y → y ≤ b.lens.sum → UnitAt A b y (u y)) (k : ℕ) :
    Continuous (unitLine (fun r => r.M k) u r0 b.lens.sum) ∧
    ∀ y, ContinuousWithinAt (unitLine (fun r => r.V k) u r0 b.lens.sum) (Ici y) y := by
  have hil := hb.forIL
  have hst := hil.proper.inStep
  have hpos : ∀ L ∈ b.lens, 0 < L := hil.proper.pos
  obtain ⟨q0, hq0, rfl⟩ := h0
  have hlen0 : q0.2.length = b.lens.length := by
    rw [(BeamDef.memberResults_ok (runCase_ok hq0).2).1]
    exact toDef_length hst
  obtain ⟨j, k', hp, hread⟩ := concat_place (K := ℝ) (q0.2.map MRes.n) k
  have hM : ∀ LM q, runCase b.toDef A.stable A.solve A.npts LM = .ok q →
      (envOf q).M k = (q.2.getD j ⟨0, 0, 0, 0, 0, 0⟩).M k' := fun LM q hq =>
    hread MRes.M rfl _ (runCase_counts hq0 hq)
  have hV : ∀ LM q, runCase b.toDef A.stable A.solve A.npts LM = .ok q →
      (envOf q).V k = (q.2.getD j ⟨0, 0, 0, 0, 0, 0⟩).V k' := fun LM q hq =>
    hread MRes.V rfl _ (runCase_counts hq0 hq)
  by_cases hcase : j < b.lens.length ∧ 0 < k' ∧ k' + 1 < A.npts + 3
  swap
  · have hpad : j < b.lens.length → k' = 0 ∨ k' = A.npts + 2 := by
      intro hj
      have h1 := hp (by simpa [hlen0] using hj)
      have hj' : j < q0.2.length := by omega
      have h2 := (runCase_stations hsol hst hq0 j q0.2[j] (List.getElem?_eq_getElem hj')).2.1
      rw [List.getD_eq_getElem?_getD, List.getElem?_map, List.getElem?_eq_getElem hj'] at h1
      simp only [Option.map_some, Option.getD_some, h2] at h1
      by_contra hne
      push Not at hne
      exact hcase ⟨hj, by omega, by omega⟩
    have z0 := runCase_padding hsol hst hq0 j k' hpad
    have zM : unitLine (fun r => r.M k) u (envOf q0) b.lens.sum = fun _ => 0 := by
      funext y
      unfold unitLine
      split
      · rename_i hy
        obtain ⟨row, _, q, hq, e⟩ := hu y hy.1 hy.2
        show (u y).M k - (envOf q0).M k = 0
        rw [e, hM _ q hq, hM _ q0 hq0, (runCase_padding hsol hst hq j k' hpad).1, z0.1, sub_zero]
      · rfl
    have zV : unitLine (fun r => r.V k) u (envOf q0) b.lens.sum = fun _ => 0 := by
      funext y
      unfold unitLine
      split
      · rename_i hy
        obtain ⟨row, _, q, hq, e⟩ := hu y hy.1 hy.2
        show (u y).V k - (envOf q0).V k = 0
        rw [e, hV _ q hq, hV _ q0 hq0, (runCase_padding hsol hst hq j k' hpad).2, z0.2, sub_zero]
      · rfl
    rw [zM, zV]
    exact ⟨continuous_const, fun y => continuousWithinAt_const⟩
  obtain ⟨hj, hk, hk2⟩ := hcase
  obtain ⟨hex, b0V, b0M⟩ := bare_zero hsol hn hil hb.slender hb.stable j k' hj hk hk2 hq0
  have hne : 0 < b.lens.length := by omega
  have hLj : b.lens.getD j 0 = b.lens[j] := by
    rw [List.getD_eq_getElem?_getD, List.getElem?_eq_getElem hj]
    rfl
  have hLp : 0 < b.lens[j] := hpos _ (List.getElem_mem hj)
  have hnp : (0 : ℝ) < A.npts := by exact_mod_cast hn
  set x0 : ℝ := (k' - 1 : ℕ) * (b.lens.getD j 0 / A.npts) with hx0
  have hx00 : 0 ≤ x0 := by rw [hx0, hLj]; positivity
  have hx01 : x0 ≤ b.lens.getD j 0 := by
    rw [hx0, hLj, mul_div_assoc', div_le_iff₀ hnp, mul_comm]
    refine mul_le_mul_of_nonneg_left ?_ hLp.le
    exact_mod_cast (show k' - 1 ≤ A.npts by omega)
  have h0s : 0 ≤ b.lens.sum := by simpa using take_sum_le hpos (Nat.zero_le b.lens.length)
  -- the value at the end of the beam
  have hlast : ∀ (f : ℕ → ℝ → ℝ) (H : ℝ → ℝ),
      HeightFrom b.lens f b.lens.sum (H b.lens.sum) →
      (∀ i (hi : i < b.lens.length), i + 1 = b.lens.length → f i b.lens[i] = 0) →
      H b.lens.sum = 0 := by
    intro f H hH hf
    obtain ⟨i, hi, a, e, ha0, ha1, ha2, hw⟩ := hH
    have hs := take_sum_succ b.lens i hi
    have hi1 : i + 1 = b.lens.length := by
      by_contra hne
      have := take_sum_strict hpos (show i + 1 < b.lens.length by omega) le_rfl
      rw [List.take_length] at this
      linarith
    have ea : a = b.lens[i] := by
      have : (b.lens.take (i + 1)).sum = b.lens.sum := by rw [hi1, List.take_length]
      linarith
    rw [hw, ea]
    exact hf i hi hi1
  constructor
  · obtain ⟨y, G, ηl, φl, η, φ, hB⟩ := hex 0 (-1)
    have hH : ∀ z, 0 ≤ z → z ≤ b.lens.sum → HeightFrom b.lens (brokenLine j x0 ηl η) z
        (unitLine (fun r => r.M k) u (envOf q0) b.lens.sum z) := by
      intro z hz0 hz1
      obtain ⟨row, hrow, q, hq, e⟩ := hu z hz0 hz1
      have := (unit_broken hsol hn hil hb.slender hb.noPP j k' hj hk hk2 hB hrow hq).2 rfl rfl
      rw [unitLine, if_pos ⟨hz0, hz1⟩]
      show HeightFrom b.lens (brokenLine j x0 ηl η) z ((u z).M k - (envOf q0).M k)
      rw [e, hM _ q hq, hM _ q0 hq0, b0M, sub_zero]
      exact this
    have hout : ∀ z, z < 0 ∨ b.lens.sum < z →
        unitLine (fun r => r.M k) u (envOf q0) b.lens.sum z = 0 := by
      intro z hz
      rw [unitLine, if_neg]
      rintro ⟨h1, h2⟩
      rcases hz with h | h <;> linarith
    have hend : unitLine (fun r => r.M k) u (envOf q0) b.lens.sum b.lens.sum = 0 := by
      refine hlast _ _ (hH _ h0s le_rfl) fun i hi hi1 => ?_
      rw [hB.at_right hil hx01 i hi]
      refine hB.held hil _ (by omega) ?_
      rw [show 2 * i + 2 = 2 * b.lens.length by omega]
      exact hb.last
    have hstart : unitLine (fun r => r.M k) u (envOf q0) b.lens.sum 0 = 0 := by
      have hs1 := take_sum_succ b.lens 0 hne
      have hL0 := hpos _ (List.getElem_mem hne)
      have := heightFrom_span hpos (hH 0 le_rfl h0s) hne le_rfl (by simp) (by
        rw [hs1]; simpa using hL0)
      rw [this]
      simp only [List.take_zero, List.sum_nil, sub_zero]
      rw [hB.at_left hil hb.slender hx00 0 hne]
      exact hB.held hil _ (by omega) hb.first
    rw [continuous_iff_continuousAt]
    intro z
    refine continuousAt_iff_continuous_left_right.2 ⟨?_, ?_⟩
    · refine line_left hpos hH hout hstart (fun i hi => ?_)
        (fun i hi a ha0 ha1 => hB.left_cont hil hb.slender hx01 i hi a ha0 ha1) z
      rw [hB.at_right hil hx01 i (by omega), hB.at_left hil hb.slender hx00 (i + 1) hi]
      rfl
    · exact line_right hpos hH hout hend
        (fun i hi a ha0 ha1 => hB.right_cont hil hb.slender hx01 i hi a ha0 ha1) z
  · intro z
    obtain ⟨y, G, ηl, φl, η, φ, hB⟩ := hex 1 0
    have hH : ∀ z, 0 ≤ z → z ≤ b.lens.sum → HeightFrom b.lens (brokenLine j x0 ηl η) z
        (unitLine (fun r => r.V k) u (envOf q0) b.lens.sum z) := by
      intro z hz0 hz1
      obtain ⟨row, hrow, q, hq, e⟩ := hu z hz0 hz1
      have := (unit_broken hsol hn hil hb.slender hb.noPP j k' hj hk hk2 hB hrow hq).1 rfl rfl
      rw [unitLine, if_pos ⟨hz0, hz1⟩]
      show HeightFrom b.lens (brokenLine j x0 ηl η) z ((u z).V k - (envOf q0).V k)
      rw [e, hV _ q hq, hV _ q0 hq0, b0V, sub_zero]
      exact this
    have hout : ∀ z, z < 0 ∨ b.lens.sum < z →
        unitLine (fun r => r.V k) u (envOf q0) b.lens.sum z = 0 := by
      intro z hz
      rw [unitLine, if_neg]
      rintro ⟨h1, h2⟩
      rcases hz with h | h <;> linarith
    have hend : unitLine (fun r => r.V k) u (envOf q0) b.lens.sum b.lens.sum = 0 := by
      refine hlast _ _ (hH _ h0s le_rfl) fun i hi hi1 => ?_
      rw [hB.at_right hil hx01 i hi]
      refine hB.held hil _ (by omega) ?_
      rw [show 2 * i + 2 = 2 * b.lens.length by omega]
      exact hb.last
    exact line_right hpos hH hout hend
      (fun i hi a ha0 ha1 => hB.right_cont hil hb.slender hx01 i hi a ha0 ha1) z

theorem axleByAxle_line (e : EnvRes ℝ → ℝ) (rs r0 : EnvRes ℝ) (u : ℝ → EnvRes ℝ) (v : Vehicle ℝ)
    (b : BeamB ℝ) (pos : ℝ) : axleByAxle e rs r0 u v b pos =
      e rs + (v.axles.map fun cw => cw.2 * unitLine e u r0 b.lens.sum (pos - cw.1)).sum := by
  unfold axleByAxle Vehicle.onDeck
  congr 1
  rw [List.map_map]
  induction v.axles with
  | nil => rfl
  | cons cw l ih =>
    by_cases h : 0 ≤ pos - cw.1 ∧ pos - cw.1 ≤ b.lens.sum
    · rw [List.filter_cons_of_pos (by simpa using h), List.map_cons, List.sum_cons, List.map_cons,
        List.sum_cons, ih, unitLine, if_pos h]
      rfl
    · rw [List.filter_cons_of_neg (by simpa using h), ih, List.map_cons, List.sum_cons, unitLine,
        if_neg h]
      ring

theorem axleByAxle_uniform {e : EnvRes ℝ → ℝ} {rs r0 : EnvRes ℝ} {u : ℝ → EnvRes ℝ}
    (v : Vehicle ℝ) (b : BeamB ℝ) (hc : Continuous (unitLine e u r0 b.lens.sum)) :
    UniformContinuous (axleByAxle e rs r0 u v b) := by
  have hu : UniformContinuous (unitLine e u r0 b.lens.sum) := by
    refine HasCompactSupport.uniformContinuous_of_continuous ?_ hc
    refine HasCompactSupport.intro (K := Icc 0 b.lens.sum) isCompact_Icc fun y hy => ?_
    rw [unitLine, if_neg]
    exact hy
  have e1 : axleByAxle e rs r0 u v b = fun pos =>
      e rs + (v.axles.map fun cw => cw.2 * unitLine e u r0 b.lens.sum (pos - cw.1)).sum :=
    funext fun pos => axleByAxle_line e rs r0 u v b pos
  rw [e1]
  refine uniformContinuous_const.add ?_
  induction v.axles with
  | nil => exact uniformContinuous_const
  | cons cw l ih =>
    simp only [List.map_cons, List.sum_cons]
    refine UniformContinuous.add ?_ ih
    have h1 : UniformContinuous fun pos : ℝ => unitLine e u r0 b.lens.sum (pos - cw.1) :=
      hu.comp (uniformContinuous_id.sub uniformContinuous_const)
    exact h1.const_mul' cw.2

theorem axleByAxle_right {e : EnvRes ℝ → ℝ} {rs r0 : EnvRes ℝ} {u : ℝ → EnvRes ℝ}
    (v : Vehicle ℝ) (b : BeamB ℝ)
    (hc : ∀ y, ContinuousWithinAt (unitLine e u r0 b.lens.sum) (Ici y) y) (pos : ℝ) :
    ContinuousWithinAt (axleByAxle e rs r0 u v b) (Ici pos) pos := by
  have e1 : axleByAxle e rs r0 u v b = fun pos =>
      e rs + (v.axles.map fun cw => cw.2 * unitLine e u r0 b.lens.sum (pos - cw.1)).sum :=
    funext fun pos => axleByAxle_line e rs r0 u v b pos
  rw [e1]
  refine continuousWithinAt_const.add ?_
  induction v.axles with
  | nil => exact continuousWithinAt_const
  | cons cw l ih =>
    simp only [List.map_cons, List.sum_cons]
    refine ContinuousWithinAt.add ?_ ih
    refine continuousWithinAt_const.mul ?_
    refine (hc (pos - cw.1)).comp (f := fun p => p - cw.1)
      (by fun_prop : Continuous fun p : ℝ => p - cw.1).continuousWithinAt ?_
    intro z hz
    have hz : pos ≤ z := hz
    show pos - cw.1 ≤ z - cw.1
    linarith

/-! ### Convergence -/

/-- Bending moments, from the influence lines. -/
theorem moment_near (A : Analyser ℝ) (hsol : A.solve.Sound) (hn : 0 < A.npts)
    (b : BeamB ℝ) (hb : b.Regular) (static : List (Row ℝ)) (v : Vehicle ℝ)
    (start stop : Option ℝ) (rs r0 : EnvRes ℝ) (u : ℝ → EnvRes ℝ) (hs : Analysed A b static rs)
    (h0 : Analysed A b [] r0) (hu : ∀ y, 0 ≤ y → y ≤ b.lens.sum → UnitAt A b y (u y)) (k : ℕ)
    (ε : ℝ) (hε : 0 < ε) :
    ∃ δ > 0, ∀ step, 0 < step → step < δ → ∀ ps l env,
      runVehicle A b static v step start stop = .ok (ps, l, env) →
      ∀ pos, start.getD 0 ≤ pos → pos ≤ stop.getD (b.length + v.L) → ∀ r,
        Analysed A b (addLM static (axleLM b v pos)) r →
        r.M k ≤ env.Mmax k + ε ∧ env.Mmin k - ε ≤ r.M k := by
  have hdeck : ∀ pos, ∀ xw ∈ v.onDeck b pos, UnitAt A b xw.1 (u xw.1) := by
    intro pos xw hxw
    simp only [Vehicle.onDeck, List.mem_map, List.mem_filter, decide_eq_true_eq] at hxw
    obtain ⟨cw, ⟨-, h1, h2⟩, rfl⟩ := hxw
    exact hu _ h1 h2
  have hc := axleByAxle_uniform (rs := rs) v b (unitLine_cont hsol hn hb h0 hu k).1
  obtain ⟨δ, hδ, hd⟩ := Metric.uniformContinuous_iff.1 hc ε hε
  refine ⟨δ, hδ, fun step hs0 hs1 ps l env hrun pos hp0 hp1 r hr => ?_⟩
  obtain ⟨hps, -⟩ := runVehicle_positions hrun
  have henv := (C108_envelope A hsol b hb.forIL.proper hb.stable static v step start stop ps l env
    hrun rs r0 u hs h0 fun pos _ => hdeck pos).1 k
  have hval := C108_position A hsol b hb.forIL.proper hb.stable static v pos r rs r0 u hr hs h0
    (hdeck pos) (fun r => r.M k) (.M k)
  -- the last position visited before `pos`
  set q : ℝ := (pos - start.getD 0) / step with hq
  have hq0 : 0 ≤ q := div_nonneg (by linarith) hs0.le
  have f1 := Nat.floor_le hq0
  have f2 := Nat.lt_floor_add_one q
  have hmem : start.getD 0 + (⌊q⌋₊ : ℕ) * step ∈ ps := by
    refine (runPositions_mem hps _).2 ⟨_, pyRound_ge_of_le ?_, rfl⟩
    push_cast
    refine f1.trans ?_
    rw [hq]
    exact div_le_div_of_nonneg_right (by linarith) hs0.le
  have hqs : q * step = pos - start.getD 0 := by rw [hq]; field_simp
  have hdist : dist pos (start.getD 0 + (⌊q⌋₊ : ℕ) * step) < δ := by
    rw [Real.dist_eq, abs_of_nonneg]
    · nlinarith
    · nlinarith
  have hclose := hd hdist
  rw [Real.dist_eq, abs_lt] at hclose
  have u1 := henv.1.2 (.inr ⟨_, hmem, rfl⟩)
  have u2 := henv.2.1.2 (.inr ⟨_, hmem, rfl⟩)
  simp only at hval u1 u2
  rw [hval]
  constructor <;> linarith [hclose.1, hclose.2]

/-- Shear, from the influence lines. -/
theorem shear_near (A : Analyser ℝ) (hsol : A.solve.Sound) (hn : 0 < A.npts)
    (b : BeamB ℝ) (hb : b.Regular) (static : List (Row ℝ)) (v : Vehicle ℝ)
    (start stop : Option ℝ) (rs r0 : EnvRes ℝ) (u : ℝ → EnvRes ℝ) (hs : Analysed A b static rs)
    (h0 : Analysed A b [] r0) (hu : ∀ y, 0 ≤ y → y ≤ b.lens.sum → UnitAt A b y (u y)) (k : ℕ)
    (pos : ℝ) (hp0 : start.getD 0 ≤ pos) (hp1 : pos < stop.getD (b.length + v.L)) (r : EnvRes ℝ)
    (hr : Analysed A b (addLM static (axleLM b v pos)) r) (ε : ℝ) (hε : 0 < ε) :
    ∃ δ > 0, ∀ step, 0 < step → step < δ → ∀ ps l env,
      runVehicle A b static v step start stop = .ok (ps, l, env) →
        r.V k ≤ env.Vmax k + ε ∧ env.Vmin k - ε ≤ r.V k := by
  have hdeck : ∀ pos, ∀ xw ∈ v.onDeck b pos, UnitAt A b xw.1 (u xw.1) := by
    intro pos xw hxw
    simp only [Vehicle.onDeck, List.mem_map, List.mem_filter, decide_eq_true_eq] at hxw
    obtain ⟨cw, ⟨-, h1, h2⟩, rfl⟩ := hxw
    exact hu _ h1 h2
  have hc := axleByAxle_right (rs := rs) v b (unitLine_cont hsol hn hb h0 hu k).2 pos
  obtain ⟨δ, hδ, hd⟩ := Metric.continuousWithinAt_iff.1 hc ε hε
  refine ⟨min δ (stop.getD (b.length + v.L) - pos), lt_min hδ (by linarith),
    fun step hs0 hs1 ps l env hrun => ?_⟩
  have hs2 := hs1.trans_le (min_le_left _ _)
  have hs3 := hs1.trans_le (min_le_right _ _)
  obtain ⟨hps, -⟩ := runVehicle_positions hrun
  have henv := (C108_envelope A hsol b hb.forIL.proper hb.stable static v step start stop ps l env
    hrun rs r0 u hs h0 fun pos _ => hdeck pos).1 k
  have hval := C108_position A hsol b hb.forIL.proper hb.stable static v pos r rs r0 u hr hs h0
    (hdeck pos) (fun r => r.V k) (.V k)
  set q : ℝ := (pos - start.getD 0) / step with hq
  have hq0 : 0 ≤ q := div_nonneg (by linarith) hs0.le
  have f1 := Nat.le_ceil q
  have f2 := Nat.ceil_lt_add_one hq0
  have hqs : q * step = pos - start.getD 0 := by rw [hq]; field_simp
  have hmem : start.getD 0 + (⌈q⌉₊ : ℕ) * step ∈ ps := by
    refine (runPositions_mem hps _).2 ⟨_, pyRound_ge_of_le ?_, rfl⟩
    push_cast
    rw [le_div_iff₀ hs0]
    nlinarith
  have hge : start.getD 0 + (⌈q⌉₊ : ℕ) * step ∈ Ici pos := by
    show pos ≤ _
    nlinarith
  have hdist : dist (start.getD 0 + (⌈q⌉₊ : ℕ) * step) pos < δ := by
    rw [Real.dist_eq, abs_of_nonneg (by linarith [show pos ≤ _ from hge])]
    nlinarith
  have hclose := hd hge hdist
  rw [Real.dist_eq, abs_lt] at hclose
  have u1 := henv.2.2.1.2 (.inr ⟨_, hmem, rfl⟩)
  have u2 := henv.2.2.2.2 (.inr ⟨_, hmem, rfl⟩)
  simp only at hval u1 u2
  rw [hval]
  constructor <;> linarith [hclose.1, hclose.2]

/-- The unit loads of a beam that can be analysed. -/
theorem BeamB.Analysable.units {A : Analyser ℝ} {b : BeamB ℝ} (ha : b.Analysable A) :
    ∃ u : ℝ → EnvRes ℝ, ∀ y, 0 ≤ y → y ≤ b.lens.sum → UnitAt A b y (u y) := by
  have h : ∀ y, ∃ r, 0 ≤ y → y ≤ b.lens.sum → UnitAt A b y r := by
    intro y
    obtain ⟨r, hr⟩ := (ha.analysed_iff [ilRow b 1 y]).2 (by
      simp only [List.mem_singleton, forall_eq, ilRow]
      exact Row.Accepted.point _ _ _ _ _)
    exact ⟨r, fun h0 h1 => ⟨_, (ilRow_spec ha.proper 1 y).1 h0 h1, hr⟩⟩
  choose u hu using h
  exact ⟨u, hu⟩

theorem BeamB.Analysable.at_position {A : Analyser ℝ} {b : BeamB ℝ} (ha : b.Analysable A)
    {static : List (Row ℝ)} (hs : ∀ r ∈ static, r.Accepted b.toDef.members) (v : Vehicle ℝ)
    (pos : ℝ) : ∃ r, Analysed A b (addLM static (axleLM b v pos)) r := by
  rw [ha.analysed_iff]
  intro r hr
  rcases List.mem_append.1 hr with h | h
  · exact hs r h
  · exact axleLM_accepted b v pos r h

/-! ## C135, convergence -/

/-- **C135** (bending moments): for every `ε` there is a step below which a run completes and no
position between its start and its end, whether visited or not, has a bending moment beyond the
envelope by more than `ε`.  Partial: slender prismatic members, none of them pinned at both ends,
and rigid vertical supports at both ends of the beam. -/
theorem C135_moment_partial (A : Analyser ℝ) (hsol : A.solve.Sound) (hn : 0 < A.npts)
    (b : BeamB ℝ) (hb : b.Regular) (ha : b.Analysable A) (static : List (Row ℝ))
    (hs : ∀ r ∈ static, r.Accepted b.toDef.members) (v : Vehicle ℝ) (start stop : Option ℝ)
    (hse : start.getD 0 ≤ stop.getD (b.length + v.L)) (k : ℕ) (ε : ℝ) (hε : 0 < ε) :
    ∃ δ > 0, ∀ step, 0 < step → step < δ → ∃ ps l env,
      runVehicle A b static v step start stop = .ok (ps, l, env) ∧
      ∀ pos, start.getD 0 ≤ pos → pos ≤ stop.getD (b.length + v.L) → ∃ r,
        Analysed A b (addLM static (axleLM b v pos)) r ∧
        r.M k ≤ env.Mmax k + ε ∧ env.Mmin k - ε ≤ r.M k := by
  obtain ⟨rs, hrs⟩ := (ha.analysed_iff static).2 hs
  obtain ⟨r0, hr0⟩ := (ha.analysed_iff []).2 (by simp)
  obtain ⟨u, hu⟩ := ha.units
  obtain ⟨δ, hδ, hd⟩ := moment_near A hsol hn b hb static v start stop rs r0 u hrs hr0 hu k ε hε
  refine ⟨δ, hδ, fun step h0 h1 => ?_⟩
  obtain ⟨⟨ps, l, env⟩, hrun⟩ := (C136_run A b ha static v step start stop).2
    ⟨h0.ne', le_trans (by norm_num) (div_nonneg (by linarith) h0.le), hs⟩
  refine ⟨ps, l, env, hrun, fun pos hp0 hp1 => ?_⟩
  obtain ⟨r, hr⟩ := ha.at_position hs v pos
  exact ⟨r, hr, hd step h0 h1 ps l env hrun pos hp0 hp1 r hr⟩

/-- **C135** (shear): at a position before the end of the run the shear is at most `ε` beyond the
envelope of every run with a small enough step, which completes.  Partial: as for the bending
moments; and the step depends on the position. -/
theorem C135_shear_partial (A : Analyser ℝ) (hsol : A.solve.Sound) (hn : 0 < A.npts)
    (b : BeamB ℝ) (hb : b.Regular) (ha : b.Analysable A) (static : List (Row ℝ))
    (hs : ∀ r ∈ static, r.Accepted b.toDef.members) (v : Vehicle ℝ) (start stop : Option ℝ)
    (k : ℕ) (pos : ℝ) (hp0 : start.getD 0 ≤ pos) (hp1 : pos < stop.getD (b.length + v.L)) :
    ∃ r, Analysed A b (addLM static (axleLM b v pos)) r ∧ ∀ ε > 0, ∃ δ > 0, ∀ step, 0 < step →
      step < δ → ∃ ps l env, runVehicle A b static v step start stop = .ok (ps, l, env) ∧
        r.V k ≤ env.Vmax k + ε ∧ env.Vmin k - ε ≤ r.V k := by
  obtain ⟨rs, hrs⟩ := (ha.analysed_iff static).2 hs
  obtain ⟨r0, hr0⟩ := (ha.analysed_iff []).2 (by simp)
  obtain ⟨u, hu⟩ := ha.units
  obtain ⟨r, hr⟩ := ha.at_position hs v pos
  refine ⟨r, hr, fun ε hε => ?_⟩
  obtain ⟨δ, hδ, hd⟩ := shear_near A hsol hn b hb static v start stop rs r0 u hrs hr0 hu k pos hp0
    hp1 r hr ε hε
  refine ⟨δ, hδ, fun step h0 h1 => ?_⟩
  obtain ⟨⟨ps, l, env⟩, hrun⟩ := (C136_run A b ha static v step start stop).2
    ⟨h0.ne', le_trans (by norm_num) (div_nonneg (by linarith) h0.le), hs⟩
  exact ⟨ps, l, env, hrun, hd step h0 h1 ps l env hrun⟩

/-! ### Concrete cases -/

/-- The simple span of length 2 with unit forces at 1 and at 1/2. -/
def exRefA : Analyser ℚ :=
  ⟨fun _ => true, listSolver [fun _ => 0, fun p => [0, -1 / 24, 0, 1 / 24].getD p 0,
    fun p => [0, -7 / 192, 0, 5 / 192].getD p 0], 4⟩

/-- **C135** (refinement, violation): a unit force run from 0 to 3/5 on a span of 2.  With a step of
1 the run goes beyond its end, to midspan; with half that step it does not, and the largest moment
at midspan falls from 1/2 to 1/4. -/
theorem C135_refine_violation : ∃ (A : Analyser ℚ) (b : BeamB ℚ) (v : Vehicle ℚ) (stop : ℚ)
    (l l' : List (Result ℚ × List (MRes ℚ))) (env env' : Envelope ℚ), A.solve.Sound ∧
    Vehicle.new [] [1] = .ok v ∧
    runVehicle A b [] v 1 none (some stop) = .ok ([0, 1], l, env) ∧
    runVehicle A b [] v (1 / 2) none (some stop) = .ok ([0, 1 / 2], l', env') ∧
    env.Mmax 3 = 1 / 2 ∧ env'.Mmax 3 = 1 / 4 ∧ ¬ Wider env env' := by
  obtain ⟨q, hq, hv⟩ := ok_of_map
    (x := runVehicle exRefA exIL [] ⟨[], [1], 0, 1, 1, [0]⟩ 1 none (some (3 / 5)))
    (f := fun q => (q.1, q.2.2.Mmax 3)) (y := ([0, 1], 1 / 2)) (by decide +kernel)
  obtain ⟨q', hq', hv'⟩ := ok_of_map
    (x := runVehicle exRefA exIL [] ⟨[], [1], 0, 1, 1, [0]⟩ (1 / 2) none (some (3 / 5)))
    (f := fun q => (q.1, q.2.2.Mmax 3)) (y := ([0, 1 / 2], 1 / 4)) (by decide +kernel)
  obtain ⟨ps, l, env⟩ := q
  obtain ⟨ps', l', env'⟩ := q'
  simp only [Prod.mk.injEq] at hv hv'
  obtain ⟨rfl, h1⟩ := hv
  obtain ⟨rfl, h2⟩ := hv'
  refine ⟨exRefA, exIL, _, 3 / 5, l, l', env, env', listSolver_sound _, by decide +kernel, hq, hq',
    h1, h2, fun h => ?_⟩
  have := (h.M 3).1
  rw [h1, h2] at this
  norm_num at this

/-- The refinement to the end of the run: steps of 1 and 1/2 from 0 to 1. -/
example : ∃ (l l' : List (Result ℚ × List (MRes ℚ))) (env env' : Envelope ℚ),
    runVehicle exRefA exIL [] ⟨[], [1], 0, 1, 1, [0]⟩ 1 none (some 1) = .ok ([0, 1], l, env) ∧
    runVehicle exRefA exIL [] ⟨[], [1], 0, 1, 1, [0]⟩ (1 / (2 : ℕ)) none (some 1)
      = .ok ([0, 1 / 2, 1], l', env') ∧ Wider env env' := by
  obtain ⟨q, hq, hv⟩ := ok_of_map
    (x := runVehicle exRefA exIL [] ⟨[], [1], 0, 1, 1, [0]⟩ 1 none (some 1))
    (f := fun q => q.1) (y := [0, 1]) (by decide +kernel)
  obtain ⟨q', hq', hv'⟩ := ok_of_map
    (x := runVehicle exRefA exIL [] ⟨[], [1], 0, 1, 1, [0]⟩ (1 / (2 : ℕ)) none (some 1))
    (f := fun q => q.1) (y := [0, 1 / 2, 1]) (by decide +kernel)
  obtain ⟨ps, l, env⟩ := q
  obtain ⟨ps', l', env'⟩ := q'
  simp only at hv hv'
  subst hv hv'
  exact ⟨l, l', env, env', hq, hq', C135_refine_partial exRefA exIL [] _ 1 (by norm_num) 2 (by norm_num)
    none (some 1) _ _ l l' env env' hq hq' (by decide +kernel)⟩

theorem exMB_regular : exMB.Regular :=
  ⟨exMB_forIL, exMB_slender, by simp [exMB, BeamB.toDef, zipMembers], by simp [exMB], by simp [exMB],
    fun LM s hs => (exMB_analysable.nonsingular LM s hs).1⟩

/-- A vehicle of two axles on the clamped beam of two spans, with a static load. -/
example (k : ℕ) : ∃ δ > 0, ∀ step, 0 < step → step < δ → ∃ ps l env,
    runVehicle exMBA exMB [⟨1, 1, [4]⟩] ⟨[1], [1, 1], 1, 2, 2, [0, 1]⟩ step none none
      = .ok (ps, l, env) ∧
    ∀ pos, 0 ≤ pos → pos ≤ 6 → ∃ r, Analysed exMBA exMB
      (addLM [⟨1, 1, [4]⟩] (axleLM exMB ⟨[1], [1, 1], 1, 2, 2, [0, 1]⟩ pos)) r ∧
      r.M k ≤ env.Mmax k + 1 / 100 ∧ env.Mmin k - 1 / 100 ≤ r.M k := by
  have hs : ∀ r ∈ ([⟨1, 1, [4]⟩] : List (Row ℝ)), r.Accepted exMB.toDef.members := by
    simp only [List.mem_singleton, forall_eq]
    exact ⟨by simp [argsNeeded], fun h => by simp at h, fun h => by simp at h⟩
  have e : exMB.length + 1 = 6 := by norm_num [exMB]
  have := C135_moment_partial exMBA anySolver_sound (by norm_num [exMBA]) exMB exMB_regular
    exMB_analysable _ hs ⟨[1], [1, 1], 1, 2, 2, [0, 1]⟩ none none (by norm_num [exMB]) k (1 / 100)
    (by norm_num)
  simpa only [Option.getD_none, e] using this

end PyCBA
