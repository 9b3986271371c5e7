import Verif.Analysis.Total
import Verif.Exact.Broken

/-!
C150: when `InfluenceLines.get_il` (`inf_lines.py` 93-195) returns an influence line.

The restraints index the reactions through `idx_mask = np.zeros_like(restraints)` (130-133).  The
mask has the type of the restraints as they were written: `zeros_like` of a list with one
floating-point number, such as a spring stiffness or `-1.0`, is an array of floating-point
numbers, and indexing with its entries raises `IndexError`.
-/

set_option linter.unusedSectionVars false
set_option linter.unusedSimpArgs false

namespace PyCBA

variable {K : Type*} [Field K] [LinearOrder K] [IsStrictOrderedRing K]

/-- The reaction index of `get_il` comes out of the mask, `inf_lines.py` 130-133, 170-173 and
189-192. -/
def ILEffect.indexed : ILEffect → Bool
  | .R => true
  | .MR => true
  | _ => false

/-- `InfluenceLines.get_il`, `inf_lines.py` 119-195, of a beam whose restraints were written as
floating-point numbers where `fl` is true.  The loops over the results (172-173, 191-192) run at
least once: `vResults[0]` was read before (120). -/
def ILState.getWritten [FloorRing K] (A : Analyser K) (s : ILState K) (fl : List Bool) (poi : K)
    (e : ILEffect) : ILState K × Except PyErr (List K × List K) :=
  match s.get A poi e with
  | (s', .error er) => (s', .error er)
  | (s', .ok v) => if fl.any id && e.indexed then (s', .error .indexError) else (s', .ok v)

/-! ### Specification -/

/-- The degree of freedom at a node whose reaction the effect is. -/
def ILEffect.dof : ILEffect → ℕ → ℕ
  | .MR, j => 2 * j + 1
  | _, j => 2 * j

/-- The beam has a rigid support with a reaction of that kind. -/
def BeamB.HasReaction (b : BeamB K) (e : ILEffect) : Prop :=
  ∃ j ≤ b.lens.length, b.restraints.getD (e.dof j) 0 = -1

/-! ### Proof -/

theorem nearestIdx_iff (x : K) (l : List K) : (∃ k, nearestIdx x l = .ok k) ↔ l ≠ [] := by
  cases l with
  | nil => simp [nearestIdx]
  | cons a l => simp [nearestIdx]

theorem ilReaction_iff {b : BeamB K} (hR : b.restraints.length = 2 * b.lens.length + 2) (off : ℕ)
    (poi : K) : (∃ q, ilReaction b off poi = .ok q) ↔
      ∃ j ≤ b.lens.length, b.restraints.getD (2 * j + off) 0 = -1 := by
  have hn : b.restraints.length / 2 = b.lens.length + 1 := by omega
  unfold ilReaction
  simp only [hn]
  set sup := (List.range (b.lens.length + 1)).filter fun j =>
    b.restraints.getD (2 * j + off) 0 = -1 with hsup
  have hmem : ∀ j, j ∈ sup ↔ j < b.lens.length + 1 ∧ b.restraints.getD (2 * j + off) 0 = -1 := by
    intro j; simp [hsup]
  have hloc : ∀ j < b.lens.length + 1, (nodeLocations b).getD j 0 ∈ nodeLocations b := by
    intro j hj
    rw [List.getD_eq_getElem?_getD, List.getElem?_eq_getElem (by simpa [nodeLocations] using hj)]
    exact List.getElem_mem _
  constructor
  · rintro ⟨q, hq⟩
    split at hq
    · cases hq
    rename_i k hk
    have hne := (nearestIdx_iff _ _).1 ⟨k, hk⟩
    obtain ⟨j, hj⟩ := List.exists_mem_of_ne_nil sup (fun h => hne (by rw [h]; rfl))
    have := (hmem j).1 hj
    exact ⟨j, by omega, this.2⟩
  · rintro ⟨j, hj, h1⟩
    have hjm : j ∈ sup := (hmem j).2 ⟨by omega, h1⟩
    obtain ⟨k, hk⟩ := (nearestIdx_iff poi (sup.map fun j => (nodeLocations b).getD j 0)).2
      (fun h => by rw [List.map_eq_nil_iff.1 h] at hjm; cases hjm)
    obtain ⟨h2, -, -⟩ := nearestIdx_ok hk
    rw [List.length_map] at h2
    have hin : (sup.map fun j => (nodeLocations b).getD j 0).getD k 0 ∈ nodeLocations b := by
      rw [List.getD_eq_getElem?_getD, List.getElem?_map, List.getElem?_eq_getElem h2]
      exact hloc _ ((hmem _).1 (List.getElem_mem h2)).1
    rw [hk]
    simp only
    have hex : ((nodeLocations b).findIdx? fun x => decide
        (x = (sup.map fun j => (nodeLocations b).getD j 0).getD k 0)).isSome := by
      rw [List.findIdx?_isSome, List.any_eq_true]
      exact ⟨_, hin, by simp⟩
    obtain ⟨node, hnode⟩ := Option.isSome_iff_exists.1 hex
    rw [hnode]
    simp only
    split
    · exact ⟨_, rfl⟩
    · exact ⟨_, rfl⟩

theorem ilStation_completes {A : Analyser ℝ} (hsol : A.solve.Sound) {b : BeamB ℝ} (hb : b.Proper)
    {LM : List (Row ℝ)} {r : Result ℝ × List (MRes ℝ)}
    (hr : runCase b.toDef A.stable A.solve A.npts LM = .ok r) (poi : ℝ) :
    ∃ q, ilStation b r poi = .ok q := by
  have hlen : r.2.length = b.lens.length := by
    rw [(BeamDef.memberResults_ok (runCase_ok hr).2).1]
    exact toDef_length hb.inStep
  have hpos : 0 < b.lens.length := List.length_pos_of_ne_nil hb.nonempty
  have hj : (if (b.localCoords poi).1 = -1 then b.noSpans - 1 else (b.localCoords poi).1.toNat)
      < r.2.length := by
    rw [hlen]
    have h := C43_local_coords b hb.inStep hb.nonempty hb.pos poi
    by_cases hoff : poi < 0 ∨ b.lens.sum < poi
    · rw [if_pos ((localCoords_off hb poi).2 hoff), hb.inStep.noSpans]
      omega
    · rw [if_neg fun e => hoff ((localCoords_off hb poi).1 e)]
      push Not at hoff
      obtain ⟨i, hi, a, e, -⟩ := h.1 hoff.1 hoff.2
      rw [e]
      simpa using hi
  unfold ilStation
  simp only
  generalize (if (b.localCoords poi).1 = -1 then b.noSpans - 1
    else (b.localCoords poi).1.toNat) = j at hj ⊢
  obtain ⟨-, hn, -⟩ := runCase_stations hsol hb.inStep hr _ _ (List.getElem?_eq_getElem hj)
  obtain ⟨k, hk⟩ := (nearestIdx_iff poi ((List.range (r.2[j].n - 2)).map fun k => r.2[j].x (k + 1))).2
    (fun h => by
      rw [List.map_eq_nil_iff, List.range_eq_nil, hn] at h
      omega)
  rw [List.getElem?_eq_getElem hj]
  simp only [hk]
  exact ⟨_, rfl⟩

/-- **C150**: exactly when an influence line is returned.  For every beam that can be analysed,
after any successful calls, every point of interest: the lines of shear and moment always; that
of a reaction exactly if the beam has a rigid support of that kind and every restraint was written
as an integer. -/
theorem C150_completes (A : Analyser ℝ) (hsol : A.solve.Sound) (b : BeamB ℝ) (hb : b.Analysable A)
    (hR : b.restraints.length = 2 * b.lens.length + 2) (s : ILState ℝ) (n : ℕ) (hs : Reach A b s n)
    (fl : List Bool) (poi : ℝ) (e : ILEffect) :
    (∃ s' v, s.getWritten A fl poi e = (s', .ok v)) ↔
      (e = .V ∨ e = .M ∨ b.HasReaction e ∧ ∀ f ∈ fl, f = false) := by
  obtain ⟨hbm, -, P, junk, good, -, hres, -⟩ := hs.inv hb.proper
  have hget : (∃ s' v, s.get A poi e = (s', .ok v)) ↔ (e = .V ∨ e = .M ∨ b.HasReaction e) := by
    -- the state whose results are read
    obtain ⟨s1, hc, hb1, hne, hres1⟩ : ∃ s1,
        (if s.res.isEmpty then s.create A none 1 else (s, .ok ())) = (s1, .ok ()) ∧ s1.beam = b ∧
        s1.res ≠ [] ∧ ∀ r ∈ s1.res, ∃ LM, runCase b.toDef A.stable A.solve A.npts LM = .ok r := by
      by_cases h0 : s.res = []
      · have hbs : s.beam.Analysable A := by rw [hbm]; exact hb
        have hL : s.beam.length ≠ 0 := by
          rw [hbs.proper.inStep.length]
          exact (List.sum_pos _ hbs.proper.pos hbs.proper.nonempty).ne'
        obtain ⟨q1, q2⟩ := C136_influence A s hbs none 1
        have hok := q1.2 (by simpa using hL)
        have hlen := q2 hok
        obtain ⟨hc1, -, hc3⟩ := create_ok A hbs.proper none 1
          (show s.create A none 1 = ((s.create A none 1).1, .ok ()) from Prod.ext rfl hok)
        refine ⟨(s.create A none 1).1, ?_, hc1.trans hbm, ?_, ?_⟩
        · rw [if_pos (by simp [h0])]
          exact Prod.ext rfl hok
        · intro h
          rw [h] at hlen
          simp only [Option.getD_none] at hlen
          rw [div_div_cancel₀ hL] at hlen
          have h100 := (pyRound_nonneg_iff (100 : ℝ)).2 (by norm_num)
          simp only [List.length_nil] at hlen
          omega
        · intro r hr
          rw [hbm] at hc3
          obtain ⟨i, hi, rfl⟩ := List.getElem_of_mem hr
          obtain ⟨row, h, -⟩ := (List.forall₂_iff_get.1 hc3).2 i (by
            rw [(List.forall₂_iff_get.1 hc3).1]; exact hi) hi
          exact ⟨_, h⟩
      · refine ⟨s, by rw [if_neg (by simpa using h0)], hbm, h0, fun r hr => ?_⟩
        obtain ⟨i, hi, rfl⟩ := List.getElem_of_mem hr
        obtain ⟨row, h, -⟩ := (List.forall₂_iff_get.1 hres).2 i (by
          rw [(List.forall₂_iff_get.1 hres).1]; exact hi) hi
        exact ⟨_, h⟩
    have hiff : (∃ s' v, s.get A poi e = (s', .ok v)) ↔ ∃ eta, ilOrdinates b s1.res poi e = .ok eta := by
      unfold ILState.get
      simp only [hc, hb1]
      constructor
      · rintro ⟨s', v, h⟩
        split at h
        · simp at h
        · rename_i eta he
          exact ⟨eta, he⟩
      · rintro ⟨eta, he⟩
        rw [he]
        exact ⟨_, _, rfl⟩
    rw [hiff]
    obtain ⟨r0, rs, hrs⟩ := List.exists_cons_of_ne_nil hne
    obtain ⟨LM, hr0⟩ := hres1 r0 (by rw [hrs]; exact List.mem_cons_self)
    obtain ⟨⟨j, k⟩, hst⟩ := ilStation_completes hsol hb.proper hr0 poi
    unfold ilOrdinates
    simp only [hrs, hst]
    cases e with
    | V => simp
    | M => simp
    | R =>
      have := ilReaction_iff hR 0 poi
      simp only [reduceCtorEq, false_or, BeamB.HasReaction, ILEffect.dof, add_zero] at this ⊢
      rw [← this]
      constructor
      · rintro ⟨eta, h⟩
        split at h
        · cases h
        · rename_i q hq; exact ⟨q, hq⟩
      · rintro ⟨q, hq⟩
        rw [hq]
        exact ⟨_, rfl⟩
    | MR =>
      have := ilReaction_iff hR 1 poi
      simp only [reduceCtorEq, false_or, BeamB.HasReaction, ILEffect.dof] at this ⊢
      rw [← this]
      constructor
      · rintro ⟨eta, h⟩
        split at h
        · cases h
        · rename_i q hq; exact ⟨q, hq⟩
      · rintro ⟨q, hq⟩
        rw [hq]
        exact ⟨_, rfl⟩
  have hfl : fl.any id = true ↔ ¬ ∀ f ∈ fl, f = false := by
    simp
  have hw : (∃ s' v, s.getWritten A fl poi e = (s', .ok v)) ↔
      (∃ s' v, s.get A poi e = (s', .ok v)) ∧ ¬ (fl.any id && e.indexed) = true := by
    unfold ILState.getWritten
    rcases s.get A poi e with ⟨s', _ | v⟩
    · simp
    · by_cases h : (fl.any id && e.indexed) = true
      · simp [h]
      · simp [h]
  rw [hw, hget, Bool.and_eq_true, hfl]
  cases e <;> simp [ILEffect.indexed]

/-- **C150**, violated: a beam with rigid supports, of which the lines of the reactions are not
available because a restraint was written as a floating-point number, such as `-1.0` or the
stiffness of a spring; the same beam with integers has them. -/
theorem C150_float_violation : ∃ (A : Analyser ℝ) (b : BeamB ℝ), A.solve.Sound ∧ b.Analysable A ∧
    b.HasReaction .R ∧
    (∃ s' v, (ILState.new b).getWritten A [false, false, false, false, false, false] 2 .R
      = (s', .ok v)) ∧
    ¬ ∃ s' v, (ILState.new b).getWritten A [true, false, false, false, false, false] 2 .R
      = (s', .ok v) := by
  have hR : exMB.HasReaction .R := ⟨0, by simp, by simp [exMB, ILEffect.dof]⟩
  refine ⟨exMBA, exMB, anySolver_sound, exMB_analysable, hR, ?_, ?_⟩
  · rw [C150_completes exMBA anySolver_sound exMB exMB_analysable exMB_forIL.restraints _ 0 .new]
    exact .inr (.inr ⟨hR, by simp⟩)
  · rw [C150_completes exMBA anySolver_sound exMB exMB_analysable exMB_forIL.restraints _ 0 .new]
    simp

end PyCBA
