import Verif.Bridge.Crit
import Verif.Bridge.Loads
import Verif.Envelope.Props

/-!
C88 (the critical shears reported at shear points), C89 (the scope of a request for shear
points) and C90 (ratios of envelopes): `src/pycba/bridge.py` 213-282, 698-793.
-/

set_option linter.unusedSectionVars false
set_option linter.unusedSimpArgs false

namespace PyCBA

variable {K : Type*} [Field K] [LinearOrder K]

/-! ## Model -/

/-- `idx[np.argmax(x[idx])]`: the first of the indices with the largest `x`. -/
def argMaxOf (x : ℕ → K) : List ℕ → Option ℕ
  | [] => none
  | i :: l => some (l.foldl (fun b j => if x b < x j then j else b) i)

/-- `idx[np.argmin(x[idx])]`. -/
def argMinOf (x : ℕ → K) : List ℕ → Option ℕ
  | [] => none
  | i :: l => some (l.foldl (fun b j => if x j < x b then j else b) i)

/-- `support_xs[np.argmin(np.abs(support_xs - xg))]`, `bridge.py` 722-724. -/
def nearestSupport (sx : List K) (xg : K) : Option K :=
  match sx with
  | [] => none
  | s :: l => some (l.foldl (fun b t => if |t - xg| < |b - xg| then t else b) s)

/-- One entry of `crit_values["shear_points"]`, `bridge.py` 713-726; the tag of the nearest
support says whether the section is left of it. -/
structure ShearEntry (K : Type*) where
  Vmax : K
  Vmin : K
  VmaxL : K
  VmaxR : K
  VminL : K
  VminR : K
  support : Option (K × Bool)

/-- The loop body of `bridge.py` 707-727; `none` is the `continue` of 711. -/
def shearEntry (sx : List K) (e : Envelope K) (xg : K) : Option (ShearEntry K) :=
  match argMaxOf e.x ((List.range e.npts).filter fun k => e.x k < xg),
    argMinOf e.x ((List.range e.npts).filter fun k => e.x k > xg) with
  | some il, some ir => some
      { Vmax := max (e.Vmax il) (e.Vmax ir)
        Vmin := min (e.Vmin il) (e.Vmin ir)
        VmaxL := e.Vmax il
        VmaxR := e.Vmax ir
        VminL := e.Vmin il
        VminR := e.Vmin ir
        support := (nearestSupport sx xg).map fun s => (s, decide (xg < s)) }
  | _, _ => none

/-- `crit_values["shear_points"]`, `bridge.py` 704-728, as an association list. -/
def shearBlock (sx pts : List K) (e : Envelope K) : List (K × ShearEntry K) :=
  pts.filterMap fun xg => (shearEntry sx e xg).map fun n => (xg, n)

/-- The argument `shear_points` with `dv`: absent, a dictionary of member-local coordinates,
or global coordinates, `bridge.py` 272-281. -/
inductive ShearReq (K : Type*) where
  | absent
  | dict (sp : ℤ → List K)
  | points (ps : Option (List K)) (dv : Option K)

/-- `_apply_shear_points`, `bridge.py` 272-282: the points per member given to the analysis and
the global coordinates kept for the report. -/
def applyShear (b : BeamB K) : ShearReq K → (ℤ → List K) × List K
  | .absent => (fun _ => [], [])
  | .dict sp => (sp, [])
  | .points ps dv => resolveShearPoints b ps dv

/-- What the requests leave behind: `ba.shear_points` (`none` as no points), the coordinates
`shear_points_x`, and the points that were given to the analyses of the last completed run,
which are the stations of its results. -/
structure ShearState (K : Type*) where
  baSp : ℤ → List K
  spx : List K
  runSp : ℤ → List K

/-- What may be called: `static_vehicle` (`bridge.py` 248-261), `run_vehicle` or
`run_load_model` with a step (412-447, 544-595), and `analyze` of the bridge's own analysis
object.  `ok` says whether the analyses succeed. -/
inductive ShearOp (K : Type*) where
  | static (r : ShearReq K) (ok : Bool)
  | run (r : ShearReq K) (step : K) (ok : Bool)
  | plain

/-- One call: the state afterwards and the points used, if anything was analysed.  A step of
zero raises at `bridge.py` 422 (555), after the points have been applied but before the `try`
whose `finally` removes them. -/
def ShearState.call (b : BeamB K) (s : ShearState K) :
    ShearOp K → ShearState K × Option (ℤ → List K)
  | .static r _ =>
    let a := applyShear b r
    ({ s with baSp := fun _ => [], spx := a.2 }, some a.1)
  | .run r step ok =>
    let a := applyShear b r
    if step = 0 then ({ s with baSp := a.1, spx := a.2 }, none)
    else ({ baSp := fun _ => [], spx := a.2, runSp := if ok then a.1 else s.runSp }, some a.1)
  | .plain => (s, some s.baSp)

/-- `get_ratio` of `envelopes_ratios`, `bridge.py` 766-777. -/
def getRatio (a b : K) : K := |if ¬ |b - 0| ≤ 1 / 10 ^ 3 + 0 * |(0 : K)| then a / b else 0|

/-- The dictionary of `envelopes_ratios`, `bridge.py` 779-793. -/
structure Ratios (K : Type*) where
  x : ℕ → K
  Mmax : ℕ → K
  Mmin : ℕ → K
  Vmax : ℕ → K
  Vmin : ℕ → K
  nsup : ℕ
  Rmax : ℕ → K
  Rmin : ℕ → K

/-- `envelopes_ratios`, `bridge.py` 763-793. -/
def envelopesRatios (t r : Envelope K) : Except PyErr (Ratios K) :=
  if r.npts ≠ t.npts ∨ r.nsup ≠ t.nsup then .error .valueError
  else .ok
    { x := r.x
      Mmax := fun i => getRatio (t.Mmax i) (r.Mmax i)
      Mmin := fun i => getRatio (t.Mmin i) (r.Mmin i)
      Vmax := fun i => getRatio (t.Vmax i) (r.Vmax i)
      Vmin := fun i => getRatio (t.Vmin i) (r.Vmin i)
      nsup := r.nsup
      Rmax := fun j => getRatio (t.Rmaxval j) (r.Rmaxval j)
      Rmin := fun j => getRatio (t.Rminval j) (r.Rminval j) }

/-! ## C90 -/

variable [IsStrictOrderedRing K]

/-- `q` is the ratio of the sizes of `a` and `b`, or zero when `b` is within 0.001 of zero. -/
def RatioOf (a b q : K) : Prop :=
  0 ≤ q ∧ (1 / 1000 < |b| → q * |b| = |a|) ∧ (|b| ≤ 1 / 1000 → q = 0)

theorem getRatio_spec (a b : K) : RatioOf a b (getRatio a b) := by
  unfold RatioOf getRatio
  refine ⟨abs_nonneg _, fun h => ?_, fun h => ?_⟩
  · rw [if_pos (by norm_num; exact_mod_cast h), abs_div, div_mul_cancel₀]
    intro h0
    rw [h0] at h
    norm_num at h
  · rw [if_neg (by norm_num; norm_num at h; exact h), abs_zero]

/-- **C90** — two envelopes are compared exactly when they have as many stations and supports
as each other; then every reported ratio is the ratio of the sizes of the two extremes, zero
where the reference is within 0.001 of zero.  In particular the ratios of an envelope to itself
are ones and zeros, and where the reference is not small, a ratio of at most one says exactly
that the trial does not exceed the reference in size. -/
theorem C90_ratios (t r : Envelope K) :
    ((∃ q, envelopesRatios t r = .ok q) ↔ t.npts = r.npts ∧ t.nsup = r.nsup) ∧
    ∀ q, envelopesRatios t r = .ok q →
      (∀ i, q.x i = r.x i ∧ RatioOf (t.Mmax i) (r.Mmax i) (q.Mmax i) ∧
        RatioOf (t.Mmin i) (r.Mmin i) (q.Mmin i) ∧ RatioOf (t.Vmax i) (r.Vmax i) (q.Vmax i) ∧
        RatioOf (t.Vmin i) (r.Vmin i) (q.Vmin i)) ∧
      q.nsup = r.nsup ∧
      ∀ j, RatioOf (t.Rmaxval j) (r.Rmaxval j) (q.Rmax j) ∧
        RatioOf (t.Rminval j) (r.Rminval j) (q.Rmin j) := by
  constructor
  · constructor
    · rintro ⟨q, h⟩
      unfold envelopesRatios at h
      split_ifs at h with h1
      push Not at h1
      exact ⟨h1.1.symm, h1.2.symm⟩
    · rintro ⟨h1, h2⟩
      unfold envelopesRatios
      rw [if_neg (by push Not; exact ⟨h1.symm, h2.symm⟩)]
      exact ⟨_, rfl⟩
  · intro q h
    unfold envelopesRatios at h
    split_ifs at h with h1
    cases h
    exact ⟨fun i => ⟨rfl, getRatio_spec _ _, getRatio_spec _ _, getRatio_spec _ _,
      getRatio_spec _ _⟩, rfl, fun j => ⟨getRatio_spec _ _, getRatio_spec _ _⟩⟩

/-- What the ratios say about two vehicles. -/
theorem C90_meaning (a b q : K) (h : RatioOf a b q) :
    (a = b → q = 0 ∨ q = 1) ∧ (1 / 1000 < |b| → (q ≤ 1 ↔ |a| ≤ |b|)) := by
  obtain ⟨h0, h1, h2⟩ := h
  constructor
  · rintro rfl
    rcases le_or_gt |a| (1 / 1000) with h | h
    · exact Or.inl (h2 h)
    · have h3 := h1 h
      have h4 : |a| ≠ 0 := by
        intro h5
        rw [h5] at h
        norm_num at h
      exact Or.inr (mul_right_cancel₀ h4 (by rw [h3, one_mul]))
  · intro h
    have h3 : 0 < |b| := lt_trans (by norm_num) h
    rw [← h1 h]
    constructor
    · intro h4
      nlinarith
    · intro h4
      by_contra h5
      push Not at h5
      nlinarith

/-- One result with its two stations at 0 and `a`, moment `m` at the second. -/
def exRatioRes (a m : ℚ) : EnvRes ℚ := ⟨2, fun k => k * a, fun _ => 0, fun k => k * m, 0, fun _ => 0, [2]⟩

/-- **C90 fails** in what it accepts and in what it shows: envelopes of different bridges are
compared although the documentation requires the same one (their stations are at different
coordinates), and a trial moment of 100 where the reference has none gives the ratio 0. -/
theorem C90_compatibility_violation : ∃ (e e' : Envelope ℚ) (q : Ratios ℚ),
    Envelope.new [exRatioRes 1 100] = .ok e ∧ Envelope.new [exRatioRes 7 0] = .ok e' ∧
    e.x 1 ≠ e'.x 1 ∧ envelopesRatios e e' = .ok q ∧ e.Mmax 1 = 100 ∧ q.Mmax 1 = 0 := by
  refine ⟨_, _, _, rfl, rfl, ?_, rfl, ?_, ?_⟩ <;> decide +kernel

example : ∃ (e e' : Envelope ℚ) (q : Ratios ℚ),
    Envelope.new [exRatioRes 1 100] = .ok e ∧ Envelope.new [exRatioRes 1 80] = .ok e' ∧
    envelopesRatios e e' = .ok q ∧ q.Mmax 1 = 5 / 4 ∧ q.Mmin 1 = 0 := by
  refine ⟨_, _, _, rfl, rfl, rfl, ?_, ?_⟩ <;> decide +kernel

/-! ## C89 -/

/-- A call that names its own shear points, or none. -/
def ShearOp.wants (b : BeamB K) : ShearOp K → ℤ → List K
  | .static r _ => (applyShear b r).1
  | .run r _ _ => (applyShear b r).1
  | .plain => fun _ => []

/-- The calls in order, with what each analysed. -/
def ShearState.calls (b : BeamB K) (s : ShearState K) :
    List (ShearOp K) → ShearState K × List (ShearOp K × Option (ℤ → List K))
  | [] => (s, [])
  | op :: ops =>
    let t := s.call b op
    let u := t.1.calls b ops
    (u.1, (op, t.2) :: u.2)

/-- The step of a run is not zero. -/
def ShearOp.proper : ShearOp K → Prop
  | .run _ step _ => step ≠ 0
  | _ => True

/-- **C89**, partial — as long as no run has a step of zero, every analysis uses exactly the shear
points requested in its own call, whatever was called before and whether or not it succeeded. -/
theorem C89_scope_partial (b : BeamB K) (s : ShearState K) (h0 : ∀ i, s.baSp i = [])
    (ops : List (ShearOp K)) (hops : ∀ op ∈ ops, op.proper) :
    (∀ i, (s.calls b ops).1.baSp i = []) ∧
    ∀ c ∈ (s.calls b ops).2, ∃ sp, c.2 = some sp ∧ ∀ i, sp i = c.1.wants b i := by
  induction ops generalizing s with
  | nil => exact ⟨h0, by simp [ShearState.calls]⟩
  | cons op ops ih =>
    have hstep : (∀ i, (s.call b op).1.baSp i = []) ∧
        ∃ sp, (s.call b op).2 = some sp ∧ ∀ i, sp i = op.wants b i := by
      cases op with
      | static r ok => exact ⟨fun _ => rfl, _, rfl, fun _ => rfl⟩
      | run r step ok =>
        have hs : step ≠ 0 := hops (.run r step ok) (by simp)
        rw [show s.call b (.run r step ok) = _ from if_neg hs]
        exact ⟨fun _ => rfl, _, rfl, fun _ => rfl⟩
      | plain => exact ⟨h0, _, rfl, h0⟩
    obtain ⟨i1, i2⟩ := ih (s.call b op).1 hstep.1 (fun o ho => hops o (by simp [ho]))
    refine ⟨i1, ?_⟩
    intro c hc
    rcases List.mem_cons.1 hc with rfl | hc
    · exact hstep.2
    · exact i2 c hc

/-- **C89 fails** after a run with a step of zero: the shear point at 1 stays with the analysis
object and is used by the next plain analysis. -/
theorem C89_leak_violation : ∃ s : ShearState ℚ,
    ((⟨fun _ => [], [], fun _ => []⟩ : ShearState ℚ).call exBridge
      (.run (.points (some [1]) none) 0 true)) = (s, none) ∧
    ∃ sp, (s.call exBridge .plain).2 = some sp ∧ sp 0 = [1] := by
  refine ⟨_, rfl, _, rfl, ?_⟩
  decide +kernel

/-- **C89**, report — directly after a run the coordinates kept for the report are those the run
sampled. -/
theorem C89_report_partial (b : BeamB K) (s : ShearState K) (ps : Option (List K)) (dv : Option K)
    (step : K) (hs : step ≠ 0) :
    (s.call b (.run (.points ps dv) step true)).1.spx = (resolveShearPoints b ps dv).2 ∧
    (s.call b (.run (.points ps dv) step true)).1.runSp = (resolveShearPoints b ps dv).1 := by
  rw [show s.call b (.run (.points ps dv) step true) = _ from if_neg hs]
  exact ⟨rfl, rfl⟩

/-- **C89 fails** for the report when `static_vehicle` is called between the run and
`critical_values`: a run without shear points followed by a static analysis with one at 1 leaves
the coordinate 1 to be reported for the run, whose results have no stations there. -/
theorem C89_report_violation : ∃ s : ShearState ℚ,
    s = (((⟨fun _ => [], [], fun _ => []⟩ : ShearState ℚ).calls exBridge
      [.run .absent 1 true, .static (.points (some [1]) none) true]).1) ∧
    s.spx = [1] ∧ ∀ i, s.runSp i = [] := by
  refine ⟨_, rfl, ?_, fun _ => rfl⟩
  decide +kernel

/-! ## C88 -/

theorem argMaxOf_spec (x : ℕ → K) (l : List ℕ) :
    (argMaxOf x l = none ↔ l = []) ∧ ∀ i, argMaxOf x l = some i → i ∈ l ∧ ∀ j ∈ l, x j ≤ x i := by
  cases l with
  | nil => simp [argMaxOf]
  | cons a l =>
    refine ⟨by simp [argMaxOf], ?_⟩
    intro i h
    simp only [argMaxOf, Option.some.injEq] at h
    subst h
    induction l using List.reverseRecOn with
    | nil => simp
    | append_singleton l c ih =>
      rw [List.foldl_append]
      simp only [List.foldl_cons, List.foldl_nil]
      obtain ⟨h1, h2⟩ := ih
      set i := l.foldl (fun b j => if x b < x j then j else b) a
      split_ifs with h
      · refine ⟨by simp, ?_⟩
        intro j hj
        simp only [List.mem_cons, List.mem_append, List.not_mem_nil, or_false] at hj
        rcases hj with rfl | hj | rfl
        · exact (h2 _ (by simp)).trans h.le
        · exact (h2 _ (by simp [hj])).trans h.le
        · exact le_rfl
      · refine ⟨?_, ?_⟩
        · simp only [List.mem_cons, List.mem_append, List.not_mem_nil, or_false] at h1 ⊢
          tauto
        · intro j hj
          simp only [List.mem_cons, List.mem_append, List.not_mem_nil, or_false] at hj
          rcases hj with rfl | hj | rfl
          · exact h2 _ (by simp)
          · exact h2 _ (by simp [hj])
          · exact not_lt.1 h

theorem argMinOf_eq (x : ℕ → K) (l : List ℕ) : argMinOf x l = argMaxOf (fun i => -x i) l := by
  cases l with
  | nil => rfl
  | cons a l => simp only [argMinOf, argMaxOf, neg_lt_neg_iff]

theorem nearestSupport_spec (sx : List K) (xg : K) :
    (nearestSupport sx xg = none ↔ sx = []) ∧
    ∀ s, nearestSupport sx xg = some s → s ∈ sx ∧ ∀ t ∈ sx, |s - xg| ≤ |t - xg| := by
  cases sx with
  | nil => simp [nearestSupport]
  | cons a l =>
    refine ⟨by simp [nearestSupport], ?_⟩
    intro i h
    simp only [nearestSupport, Option.some.injEq] at h
    subst h
    induction l using List.reverseRecOn with
    | nil => simp
    | append_singleton l c ih =>
      rw [List.foldl_append]
      simp only [List.foldl_cons, List.foldl_nil]
      obtain ⟨h1, h2⟩ := ih
      set i := l.foldl (fun b t => if |t - xg| < |b - xg| then t else b) a
      split_ifs with h
      · refine ⟨by simp, ?_⟩
        intro j hj
        simp only [List.mem_cons, List.mem_append, List.not_mem_nil, or_false] at hj
        rcases hj with rfl | hj | rfl
        · exact h.le.trans (h2 _ (by simp))
        · exact h.le.trans (h2 _ (by simp [hj]))
        · exact le_rfl
      · refine ⟨?_, ?_⟩
        · simp only [List.mem_cons, List.mem_append, List.not_mem_nil, or_false] at h1 ⊢
          tauto
        · intro j hj
          simp only [List.mem_cons, List.mem_append, List.not_mem_nil, or_false] at hj
          rcases hj with rfl | hj | rfl
          · exact h2 _ (by simp)
          · exact h2 _ (by simp [hj])
          · exact not_lt.1 h

/-- Every entry of a concatenated array is an entry of one member's. -/
theorem concat_index (rs : List (MRes K)) (k : ℕ) (hk : k < (concatResults rs MRes.x).length) :
    ∃ j, ∃ hj : j < rs.length, ∃ p < rs[j].n,
      ∀ a : MRes K → ℕ → K, (concatResults rs a).getD k 0 = a rs[j] p := by
  induction rs generalizing k with
  | nil => simp [concatResults] at hk
  | cons r rs ih =>
    by_cases h : k < r.n
    · refine ⟨0, by simp, k, by simpa using h, fun a => ?_⟩
      simp only [concatResults, List.flatMap_cons, MRes.list, List.getElem_cons_zero]
      rw [List.getD_append _ _ _ _ (by simpa using h), List.getD_eq_getElem?_getD]
      simp [h]
    · push Not at h
      have hk' : k - r.n < (concatResults rs MRes.x).length := by
        simp only [concatResults, List.flatMap_cons, List.length_append, MRes.list,
          List.length_map, List.length_range] at hk ⊢
        omega
      obtain ⟨j, hj, p, hp, e⟩ := ih (k - r.n) hk'
      refine ⟨j + 1, by simpa using hj, p, by simpa using hp, fun a => ?_⟩
      simp only [concatResults, List.flatMap_cons, MRes.list, List.getElem_cons_succ]
      rw [List.getD_append_right _ _ _ _ (by simpa using h)]
      simp only [List.length_map, List.length_range]
      exact e a

/-- Every entry of a member's array appears in the concatenated one. -/
theorem concat_mem (rs : List (MRes K)) (j : ℕ) (hj : j < rs.length) (p : ℕ) (hp : p < rs[j].n) :
    ∃ k < (concatResults rs MRes.x).length,
      ∀ a : MRes K → ℕ → K, (concatResults rs a).getD k 0 = a rs[j] p := by
  induction rs generalizing j with
  | nil => simp at hj
  | cons r rs ih =>
    cases j with
    | zero =>
      simp only [List.getElem_cons_zero] at hp
      refine ⟨p, ?_, fun a => ?_⟩
      · simp only [concatResults, List.flatMap_cons, List.length_append, MRes.list,
          List.length_map, List.length_range]
        omega
      · simp only [concatResults, List.flatMap_cons, MRes.list, List.getElem_cons_zero]
        rw [List.getD_append _ _ _ _ (by simpa using hp), List.getD_eq_getElem?_getD]
        simp [hp]
    | succ j =>
      simp only [List.getElem_cons_succ] at hp
      obtain ⟨k, hk, e⟩ := ih j (by simpa using hj) hp
      refine ⟨r.n + k, ?_, fun a => ?_⟩
      · simp only [concatResults, List.flatMap_cons, List.length_append, MRes.list,
          List.length_map, List.length_range] at hk ⊢
        omega
      · simp only [concatResults, List.flatMap_cons, MRes.list, List.getElem_cons_succ]
        rw [List.getD_append_right _ _ _ _ (by simp)]
        simp only [List.length_map, List.length_range, Nat.add_sub_cancel_left]
        exact e a

/-- The shear at distance `t` from the left end of member `i`: that of its end moments and of its
loads on a simple span. -/
def Result.shearAt (res : Result K) (ls : List (SpanLoad K)) (i : ℕ) (L t : K) : K :=
  (mambStn (res.fmbr i 1) (res.fmbr i 3) L t).V + ((ownLoads i ls).map fun l => l.ssV L t).sum

/-- A station strictly inside member `i` reports the shear there. -/
theorem interior_shear {b : BeamDef K} (hpos : ∀ m ∈ b.members, 0 < m.L) {res : Result K}
    {npts : ℕ} (hn : 0 < npts) {sp : ℕ → List K} {rs : List (MRes K)}
    (h : b.memberResults res npts sp = .ok rs) {ls : List (SpanLoad K)}
    (hls : b.setLoads = .ok ls) (i : ℕ) (hi : i < b.members.length)
    (k : ℕ) (hk : k < (concatResults rs MRes.x).length)
    (h1 : b.nodeX i < (concatResults rs MRes.x).getD k 0)
    (h2 : (concatResults rs MRes.x).getD k 0 < b.nodeX (i + 1)) :
    (concatResults rs MRes.V).getD k 0 = res.shearAt ls i b.members[i].L
      ((concatResults rs MRes.x).getD k 0 - b.nodeX i) := by
  obtain ⟨hlen, ls', hls', hc⟩ := BeamDef.memberResults_ok h
  rw [hls] at hls'
  cases hls'
  have key := BeamDef.stations hpos hn h
  obtain ⟨j, hj, p, hp, e⟩ := concat_index rs k hk
  rw [e] at h1 h2 ⊢
  rw [e]
  obtain ⟨k1, k2, k3, k4, k5, k6, k7, k8, k9, k10⟩ := key j (by omega) hj
  have hlo : b.nodeX j ≤ rs[j].x p := by
    rw [← k2]
    exact k10 0 p (by omega) hp
  have hhi : rs[j].x p ≤ b.nodeX (j + 1) := by
    rw [← k5]
    exact k10 p _ (by omega) (by omega)
  have hji : j = i := by
    rcases lt_trichotomy j i with hlt | heq | hgt
    · have := b.nodeX_mono hpos (j + 1) i (by omega) (by omega)
      linarith
    · exact heq
    · have := b.nodeX_mono hpos (i + 1) j (by omega) (by omega)
      linarith
  subst hji
  obtain ⟨c, hctx, hr⟩ := hc j hi hj
  obtain ⟨m1, m2, m3, m4, m5, m6, _⟩ := Member.ctx_ok hctx
  have hp0 : p ≠ 0 := by
    rintro rfl
    rw [k2] at h1
    exact lt_irrefl _ h1
  have hpn : p ≠ rs[j].n - 1 := by
    rintro rfl
    rw [k5] at h2
    exact lt_irrefl _ h2
  have hx : rs[j].x p - b.nodeX j = c.x p := by
    rw [hr]
    simp [MCtx.result]
  have hV : rs[j].V p = c.V p := by
    rw [hr]
    rfl
  have hcn : rs[j].n = c.n := by
    rw [hr]
    rfl
  have hend : ¬ c.IsEnd p := by
    unfold MCtx.IsEnd
    rw [← hcn]
    exact fun hh => hh.elim hp0 hpn
  rw [hV, hx]
  unfold MCtx.V Result.shearAt
  rw [if_neg hend, m1, m2, m3]

theorem mem_memberGrid_pairs (L : K) (npts : ℕ) (sp : List K) (xs : K) (hx : xs ∈ sp)
    (h1 : 1 / 10 ^ 9 * L < xs) (h2 : xs < L - 1 / 10 ^ 9 * L) :
    xs - 1 / 10 ^ 9 * L ∈ (memberGrid L npts sp).1 ∧
      xs + 1 / 10 ^ 9 * L ∈ (memberGrid L npts sp).1 := by
  have hm : ∀ y, y = xs - 1 / 10 ^ 9 * L ∨ y = xs + 1 / 10 ^ 9 * L → y ∈ shearPairs L sp := by
    intro y hy
    simp only [shearPairs, List.mem_flatMap, List.mem_filter, decide_eq_true_eq]
    refine ⟨xs, ⟨hx, h1, h2⟩, ?_⟩
    simp only [List.mem_cons, List.not_mem_nil, or_false]
    exact hy
  have hgen : ∀ y ∈ shearPairs L sp, y ∈ (memberGrid L npts sp).1 := by
    intro y hy
    unfold memberGrid
    split
    · rename_i h
      rw [h] at hy
      simp at hy
    · rename_i p ps h
      rw [h] at hy
      rw [List.mem_mergeSort]
      exact List.mem_append_right _ hy
  exact ⟨hgen _ (hm _ (Or.inl rfl)), hgen _ (hm _ (Or.inr rfl))⟩

theorem padded_mem (g : List K) (y : K) (hy : y ∈ g) : ∃ p < g.length + 2, padded g p = y := by
  obtain ⟨q, hq, rfl⟩ := List.getElem_of_mem hy
  refine ⟨q + 1, by omega, ?_⟩
  unfold padded
  rw [if_neg (by omega), if_pos (by omega)]
  simp [List.getD_eq_getElem?_getD, List.getElem?_eq_getElem hq]

/-- A result of a run: the results of a beam of the members `ms`, whatever its loads, with the
shear points `sp`. -/
def FromRun (ms : List (Member K)) (npts : ℕ) (sp : ℕ → List K) (r : EnvRes K) : Prop :=
  ∃ (b : BeamDef K) (res : Result K) (rs : List (MRes K)) (nsup : ℕ) (R : ℕ → K),
    b.members = ms ∧ b.memberResults res npts sp = .ok rs ∧ r = EnvRes.ofResults rs nsup R

/-- The two stations of a shear point are stations of every result. -/
theorem FromRun.pair {ms : List (Member K)} {npts : ℕ} {sp : ℕ → List K} {r : EnvRes K}
    (h : FromRun ms npts sp r) (i : ℕ) (hi : i < ms.length) (xs : K) (hx : xs ∈ sp i)
    (h1 : 1 / 10 ^ 9 * ms[i].L < xs) (h2 : xs < ms[i].L - 1 / 10 ^ 9 * ms[i].L) :
    (∃ k < r.npts, r.x k = ((ms.take i).map Member.L).sum + xs - 1 / 10 ^ 9 * ms[i].L) ∧
    ∃ k < r.npts, r.x k = ((ms.take i).map Member.L).sum + xs + 1 / 10 ^ 9 * ms[i].L := by
  obtain ⟨b, res, rs, nsup, R, rfl, hm, rfl⟩ := h
  obtain ⟨hlen, ls, hls, hc⟩ := BeamDef.memberResults_ok hm
  obtain ⟨c, hctx, hr⟩ := hc i hi (by omega)
  obtain ⟨m1, m2, m3, m4, m5, m6, _⟩ := Member.ctx_ok hctx
  obtain ⟨g1, g2⟩ := mem_memberGrid_pairs b.members[i].L npts (sp i) xs hx h1 h2
  have hgrid : c.grid = (memberGrid b.members[i].L npts (sp i)).1 := by
    unfold MCtx.grid
    rw [m1, m5, m6]
  have hex : ∀ y ∈ c.grid, ∃ k < (concatResults rs MRes.x).length,
      (concatResults rs MRes.x).getD k 0 = b.nodeX i + y := by
    intro y hy
    obtain ⟨p, hp, e⟩ := padded_mem c.grid y hy
    have hcn : rs[i].n = c.grid.length + 2 := by
      rw [hr]
      rfl
    obtain ⟨k, hk, ek⟩ := concat_mem rs i (by omega) p (by omega)
    refine ⟨k, hk, ?_⟩
    rw [ek]
    have : rs[i].x p = c.x p + b.nodeX i := by rw [hr]
    rw [this]
    unfold MCtx.x
    rw [e, add_comm]
  rw [← hgrid] at g1 g2
  obtain ⟨k1, hk1, e1⟩ := hex _ g1
  obtain ⟨k2, hk2, e2⟩ := hex _ g2
  refine ⟨⟨k1, hk1, ?_⟩, k2, hk2, ?_⟩
  · show (concatResults rs MRes.x).getD k1 0 = _
    rw [e1]
    unfold BeamDef.nodeX
    ring
  · show (concatResults rs MRes.x).getD k2 0 = _
    rw [e2]
    unfold BeamDef.nodeX
    ring

/-- The stations of a run do not depend on the loads. -/
theorem FromRun.x_eq {ms : List (Member K)} {npts : ℕ} {sp : ℕ → List K} {r r' : EnvRes K}
    (h : FromRun ms npts sp r) (h' : FromRun ms npts sp r') : r.x = r'.x := by
  obtain ⟨b, res, rs, nsup, R, hb, hm, rfl⟩ := h
  obtain ⟨b', res', rs', nsup', R', hb', hm', rfl⟩ := h'
  obtain ⟨hlen, ls, hls, hc⟩ := BeamDef.memberResults_ok hm
  obtain ⟨hlen', ls', hls', hc'⟩ := BeamDef.memberResults_ok hm'
  have hn : ∀ j, b.nodeX j = b'.nodeX j := by
    intro j
    unfold BeamDef.nodeX
    rw [hb, hb']
  subst hb
  have hll : rs.length = rs'.length := by rw [hlen, hlen', hb']
  have : rs.map (fun q => q.list MRes.x) = rs'.map (fun q => q.list MRes.x) := by
    apply List.ext_getElem
    · simpa using hll
    · intro i h1 h2
      simp only [List.length_map] at h1 h2
      simp only [List.getElem_map]
      obtain ⟨c, c1, c2⟩ := hc i (by omega) h1
      obtain ⟨c', c1', c2'⟩ := hc' i (by omega) h2
      obtain ⟨m1, m2, m3, m4, m5, m6, _⟩ := Member.ctx_ok c1
      obtain ⟨m1', m2', m3', m4', m5', m6', _⟩ := Member.ctx_ok c1'
      have hg : c.grid = c'.grid := by
        unfold MCtx.grid
        rw [m1, m5, m6, m1', m5', m6']
        simp only [hb']
      rw [c2, c2']
      simp only [MRes.list, MCtx.result, MCtx.n, MCtx.x, hg, hn]
  show (fun k => (concatResults rs MRes.x).getD k 0) = fun k => (concatResults rs' MRes.x).getD k 0
  unfold concatResults
  rw [List.flatMap_def, List.flatMap_def, this]

theorem Envelope.new_x {l : List (EnvRes K)} {e : Envelope K} (h : Envelope.new l = .ok e) :
    ∃ r ∈ l, e.x = r.x ∧ e.npts = r.npts := by
  cases l with
  | nil => cases h
  | cons r0 rs =>
    simp only [Envelope.new] at h
    split at h
    · cases h
      exact ⟨r0, by simp, rfl, rfl⟩
    · cases h

/-- **C88**, partial — for a shear point further than 1e-9 of the member from both its ends, the
report names two stations, at most that far to the left and to the right of the section and
strictly inside the member.  The left and right extremes it gives are the extremes, over the
positions of the run and the unloaded state, of the shear at these stations (which is the shear of
the member's end moments and loads there, not that of a padding station); the overall
extremes are the larger and smaller of the two sides; and the section is tagged with a nearest
vertical support and the side of it on which it lies. -/
theorem C88_shear_points_partial (ms : List (Member K)) (hpos : ∀ m ∈ ms, 0 < m.L) (npts : ℕ)
    (hn : 0 < npts) (sp : ℕ → List K) (l : List (EnvRes K))
    (hl : ∀ r ∈ l, FromRun ms npts sp r) (e : Envelope K) (he : Envelope.new l = .ok e)
    (sx : List K) (i : ℕ) (hi : i < ms.length) (xs : K) (hx : xs ∈ sp i)
    (h1 : 1 / 10 ^ 9 * ms[i].L < xs) (h2 : xs < ms[i].L - 1 / 10 ^ 9 * ms[i].L) :
    ∃ (en : ShearEntry K) (il ir : ℕ) (x0 : K), x0 = ((ms.take i).map Member.L).sum ∧
      shearEntry sx e (x0 + xs) = some en ∧ il < e.npts ∧ ir < e.npts ∧
      x0 + xs - 1 / 10 ^ 9 * ms[i].L ≤ e.x il ∧ e.x il < x0 + xs ∧
      x0 + xs < e.x ir ∧ e.x ir ≤ x0 + xs + 1 / 10 ^ 9 * ms[i].L ∧
      (∀ r ∈ l, r.x il = e.x il ∧ r.x ir = e.x ir ∧
        ∃ (b : BeamDef K) (res : Result K) (rs : List (MRes K)) (ls : List (SpanLoad K)),
          b.members = ms ∧ b.memberResults res npts sp = .ok rs ∧ b.setLoads = .ok ls ∧
          r.V il = res.shearAt ls i ms[i].L (e.x il - x0) ∧
          r.V ir = res.shearAt ls i ms[i].L (e.x ir - x0)) ∧
      IsGreatest ({0} ∪ {y | ∃ r ∈ l, r.V il = y}) en.VmaxL ∧
      IsLeast ({0} ∪ {y | ∃ r ∈ l, r.V il = y}) en.VminL ∧
      IsGreatest ({0} ∪ {y | ∃ r ∈ l, r.V ir = y}) en.VmaxR ∧
      IsLeast ({0} ∪ {y | ∃ r ∈ l, r.V ir = y}) en.VminR ∧
      en.Vmax = max en.VmaxL en.VmaxR ∧ en.Vmin = min en.VminL en.VminR ∧
      (en.support = none ↔ sx = []) ∧
      ∀ s left, en.support = some (s, left) → s ∈ sx ∧ (∀ t ∈ sx, |s - (x0 + xs)| ≤ |t - (x0 + xs)|) ∧
        (left = true ↔ x0 + xs < s) := by
  obtain ⟨r0, hr0, ex, en⟩ := Envelope.new_x he
  obtain ⟨⟨ka, hka, xa⟩, kb, hkb, xb⟩ := (hl r0 hr0).pair i hi xs hx h1 h2
  set x0 := ((ms.take i).map Member.L).sum with hx0
  have hoff : 0 < 1 / 10 ^ 9 * ms[i].L := by
    have := hpos _ (List.getElem_mem hi)
    positivity
  set off := 1 / 10 ^ 9 * ms[i].L
  rw [← en] at hka hkb
  rw [← ex] at xa xb
  have hleft : ka ∈ (List.range e.npts).filter fun k => e.x k < x0 + xs := by
    simp only [List.mem_filter, List.mem_range, decide_eq_true_eq]
    exact ⟨hka, by rw [xa]; linarith⟩
  have hright : kb ∈ (List.range e.npts).filter fun k => e.x k > x0 + xs := by
    simp only [List.mem_filter, List.mem_range, decide_eq_true_eq]
    exact ⟨hkb, by rw [xb]; linarith⟩
  obtain ⟨n1, s1⟩ := argMaxOf_spec e.x ((List.range e.npts).filter fun k => e.x k < x0 + xs)
  obtain ⟨n2, s2⟩ := argMaxOf_spec (fun k => -e.x k)
    ((List.range e.npts).filter fun k => e.x k > x0 + xs)
  obtain ⟨il, hil⟩ := Option.ne_none_iff_exists'.1 (fun hh => by
    rw [n1.1 hh] at hleft; simp at hleft :
    argMaxOf e.x ((List.range e.npts).filter fun k => e.x k < x0 + xs) ≠ none)
  obtain ⟨ir, hir⟩ := Option.ne_none_iff_exists'.1 (fun hh => by
    rw [n2.1 hh] at hright; simp at hright :
    argMaxOf (fun k => -e.x k) ((List.range e.npts).filter fun k => e.x k > x0 + xs) ≠ none)
  obtain ⟨l1, l2⟩ := s1 il hil
  obtain ⟨q1, q2⟩ := s2 ir hir
  simp only [List.mem_filter, List.mem_range, decide_eq_true_eq] at l1 q1
  have l3 := l2 ka hleft
  have q3 := q2 kb hright
  rw [xa] at l3
  simp only [neg_le_neg_iff] at q3
  rw [xb] at q3
  have hC := (C28_envelope_attained l e he).1
  obtain ⟨t1, t2⟩ := nearestSupport_spec sx (x0 + xs)
  refine ⟨_, il, ir, x0, rfl, by
      unfold shearEntry
      rw [argMinOf_eq, hil, hir], l1.1, q1.1, l3, l1.2, q1.2, q3, ?_,
    (hC il).2.2.1, (hC il).2.2.2, (hC ir).2.2.1, (hC ir).2.2.2, rfl, rfl, ?_, ?_⟩
  · intro r hr
    have hrx : r.x = e.x := by rw [ex]; exact (hl r hr).x_eq (hl r0 hr0)
    refine ⟨by rw [hrx], by rw [hrx], ?_⟩
    have hrn : r.npts = e.npts := ((Envelope.new_spec he).2.2.2 r hr).1
    obtain ⟨b, res, rs, nsup, R, hb, hm, hre⟩ := hl r hr
    obtain ⟨-, ls, hls, -⟩ := BeamDef.memberResults_ok hm
    have hpos' : ∀ m ∈ b.members, 0 < m.L := by rw [hb]; exact hpos
    have hnx : b.nodeX i = x0 := by
      rw [hx0]
      unfold BeamDef.nodeX
      rw [hb]
    have hnx1 : b.nodeX (i + 1) = x0 + ms[i].L := by
      rw [b.nodeX_succ i (by rw [hb]; exact hi), hnx]
      simp only [hb]
    have hxk : ∀ k, (concatResults rs MRes.x).getD k 0 = e.x k := by
      intro k
      rw [← hrx, hre]
      rfl
    have hlk : ∀ k, k < e.npts → k < (concatResults rs MRes.x).length := by
      intro k hk
      rw [← hrn, hre] at hk
      exact hk
    have hV : ∀ k, k < e.npts → x0 < e.x k → e.x k < x0 + ms[i].L →
        r.V k = res.shearAt ls i ms[i].L (e.x k - x0) := by
      intro k hk a1 a2
      have := interior_shear hpos' hn hm hls i (by rw [hb]; exact hi) k (hlk k hk)
        (by rw [hxk, hnx]; exact a1) (by rw [hxk, hnx1]; exact a2)
      rw [hxk, hnx] at this
      rw [hre]
      show (concatResults rs MRes.V).getD k 0 = _
      rw [this]
      simp only [hb]
    refine ⟨b, res, rs, ls, hb, hm, hls, hV il l1.1 ?_ ?_, hV ir q1.1 ?_ ?_⟩ <;> linarith [l1.2, q1.2]
  · simp only [Option.map_eq_none_iff]
    exact t1
  · intro s left hs
    simp only [Option.map_eq_some_iff, Prod.mk.injEq] at hs
    obtain ⟨s', hs', rfl, rfl⟩ := hs
    obtain ⟨a1, a2⟩ := t2 _ hs'
    exact ⟨a1, a2, by simp⟩

/-- `exTwoClamped` analysed with a shear point at the left end of each member, and its envelope. -/
def exShearRun : Except PyErr (Result ℚ × List (MRes ℚ) × Envelope ℚ × ShearEntry ℚ) :=
  match exTwoClamped.analyze (fun _ => true) (trySolver fun _ => 0) with
  | .error e => .error e
  | .ok res => match exTwoClamped.memberResults res 4 (fun _ => [0]) with
    | .error e => .error e
    | .ok rs => match Envelope.new [EnvRes.ofResults rs 0 fun _ => 0] with
      | .error e => .error e
      | .ok e => match shearEntry [0, 2, 4] e 2 with
        | none => .error .valueError
        | some en => .ok (res, rs, e, en)

/-- **C88 fails** for a section at a support: two clamped spans of 2 with a UDL of 12 on the
first.  The shear just left of the middle support is -12, but the report gives -6, the shear at
3/2, one station away. -/
theorem C88_support_violation :
    ∃ (b : BeamDef ℚ) (solve : Solver ℚ) (res : Result ℚ) (rs : List (MRes ℚ)) (e : Envelope ℚ)
      (en : ShearEntry ℚ), solve.Sound ∧
      b.analyze (fun _ => true) solve = .ok res ∧ b.memberResults res 4 (fun _ => [0]) = .ok rs ∧
      Envelope.new [EnvRes.ofResults rs 0 fun _ => 0] = .ok e ∧
      shearEntry [0, 2, 4] e 2 = some en ∧ en.VminL = -6 ∧ en.Vmin = -6 ∧
      rs.map (fun r => (r.x 5, r.V 5)) = [(2, -12), (4, 0)] := by
  obtain ⟨⟨res, rs, e, en⟩, h1, h2⟩ := ok_of_map (x := exShearRun)
    (f := fun r => (r.2.2.2.VminL, r.2.2.2.Vmin, r.2.1.map (fun r => (r.x 5, r.V 5))))
    (y := (-6, -6, [(2, -12), (4, 0)])) (by decide +kernel)
  simp only [Prod.ext_iff] at h2
  unfold exShearRun at h1
  split at h1
  · cases h1
  rename_i res' a1
  split at h1
  · cases h1
  rename_i rs' a2
  split at h1
  · cases h1
  rename_i e' a3
  split at h1
  · cases h1
  rename_i en' a4
  cases h1
  exact ⟨_, _, res, rs, e, en, trySolver_sound _, a1, a2, a3, a4, h2.1, h2.2.1, h2.2.2⟩

/-- C88 applies to the same beam with a shear point in the middle of each span. -/
example : ∃ (res : Result ℚ) (rs : List (MRes ℚ)) (e : Envelope ℚ),
    exTwoClamped.memberResults res 4 (fun _ => [1]) = .ok rs ∧
    Envelope.new [EnvRes.ofResults rs 0 fun _ => 0] = .ok e ∧
    FromRun exTwoClamped.members 4 (fun _ => [1]) (EnvRes.ofResults rs 0 fun _ => 0) ∧
    ∀ m ∈ exTwoClamped.members, 1 / 10 ^ 9 * m.L < 1 ∧ 1 < m.L - 1 / 10 ^ 9 * m.L := by
  obtain ⟨res, h1, -⟩ := ok_of_map
    (x := exTwoClamped.analyze (fun _ => true) (trySolver fun _ => 0)) (f := fun _ => ()) (y := ())
    (by decide +kernel)
  have h2 : ∃ rs, exTwoClamped.memberResults res 4 (fun _ => [1]) = .ok rs := ⟨_, rfl⟩
  obtain ⟨rs, h2⟩ := h2
  refine ⟨res, rs, _, h2, by simp only [Envelope.new, List.all_cons, List.all_nil]; simp; rfl, ?_, ?_⟩
  · exact ⟨_, _, _, _, _, rfl, h2, rfl⟩
  · decide +kernel

end PyCBA
