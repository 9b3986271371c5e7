import Verif.Influence.Model
import Verif.Bridge.Loads
import Verif.Bridge.Crit
import Verif.LoadCases.Comb

/-!
C60 and C61: influence lines.
-/

set_option linter.unusedSectionVars false
set_option linter.unusedSimpArgs false

namespace PyCBA

variable {K : Type*} [Field K] [LinearOrder K] [IsStrictOrderedRing K]

/-! ### What the words mean -/

/-- The row of a point force `w` at distance `y` from the start of the beam; at an interior
node the force stands at the start of the span on the right. -/
def Row.PointIn (lens : List K) (r : Row K) (w y : K) : Prop :=
  ∃ i, ∃ hi : i < lens.length, ∃ a, r = ⟨(i : ℤ) + 1, 2, [w, a, 0]⟩ ∧
    (lens.take i).sum + a = y ∧ 0 ≤ a ∧ a ≤ lens[i] ∧ (y < lens.sum → a < lens[i])

/-- `r` is the analysis of the beam under the point force `P` at `x`, or under nothing (a row
naming no span) when `x` is off the beam. -/
def Carries (A : Analyser K) (b : BeamB K) (P x : K) (r : Result K × List (MRes K)) : Prop :=
  ∃ row, runCase b.toDef A.stable A.solve A.npts [row] = .ok r ∧
    (0 ≤ x → x ≤ b.lens.sum → row.PointIn b.lens P x) ∧
    (x < 0 ∨ b.lens.sum < x → row = ⟨0, 2, [0, 0, 0]⟩)

/-- The span of a point of interest; a point off the beam is read in the last span. -/
def SpanOf (lens : List K) (poi : K) (j : ℕ) : Prop :=
  j < lens.length ∧
    (0 ≤ poi → poi ≤ lens.sum → (lens.take j).sum ≤ poi ∧ poi ≤ (lens.take (j + 1)).sum ∧
      (poi < lens.sum → poi < (lens.take (j + 1)).sum)) ∧
    (poi < 0 ∨ lens.sum < poi → j + 1 = lens.length)

/-- Station `k` is the first of the stations of `m` (without the padding at both ends) that
lie nearest to `poi`. -/
def Nearest (m : MRes K) (poi : K) (k : ℕ) : Prop :=
  0 < k ∧ k + 1 < m.n ∧ (∀ k', 0 < k' → k' + 1 < m.n → |m.x k - poi| ≤ |m.x k' - poi|) ∧
    ∀ k', 0 < k' → k' < k → |m.x k - poi| < |m.x k' - poi|

/-- Node `j` is the first of the nodes nearest to `poi` among those whose degree of freedom
`2 j + off` is fixed. -/
def NearestSupport (b : BeamB K) (off : ℕ) (poi : K) (j : ℕ) : Prop :=
  j < b.lens.length + 1 ∧ b.restraints.getD (2 * j + off) 0 = -1 ∧
    (∀ j' < b.lens.length + 1, b.restraints.getD (2 * j' + off) 0 = -1 →
      |(b.lens.take j).sum - poi| ≤ |(b.lens.take j').sum - poi|) ∧
    ∀ j' < j, b.restraints.getD (2 * j' + off) 0 = -1 →
      |(b.lens.take j).sum - poi| < |(b.lens.take j').sum - poi|

/-- The value of a load effect at a point of interest in the results of an analysis. -/
def Reads (b : BeamB K) (poi : K) (e : ILEffect) (r : Result K × List (MRes K)) (v : K) : Prop :=
  match e with
  | .V => ∃ (j : ℕ) (m : MRes K) (k : ℕ), SpanOf b.lens poi j ∧ r.2[j]? = some m ∧
      Nearest m poi k ∧ v = m.V k
  | .M => ∃ (j : ℕ) (m : MRes K) (k : ℕ), SpanOf b.lens poi j ∧ r.2[j]? = some m ∧
      Nearest m poi k ∧ v = m.M k
  | .R => ∃ j, NearestSupport b 0 poi j ∧ (2 * j, v) ∈ b.toDef.reported r.1
  | .MR => ∃ j, NearestSupport b 1 poi j ∧ (2 * j + 1, v) ∈ b.toDef.reported r.1

/-! ### Creation -/

theorem localCoords_off {b : BeamB K} (hb : b.Proper) (x : K) :
    (b.localCoords x).1 = -1 ↔ (x < 0 ∨ b.lens.sum < x) := by
  have h := C43_local_coords b hb.inStep hb.nonempty hb.pos x
  constructor
  · intro h1
    by_contra h2
    push Not at h2
    obtain ⟨i, hi, a, e, _⟩ := h.1 h2.1 h2.2
    rw [e] at h1
    simp only at h1
    omega
  · intro h1
    rw [h.2 h1]

theorem ilRow_spec {b : BeamB K} (hb : b.Proper) (P x : K) :
    (0 ≤ x → x ≤ b.lens.sum → (ilRow b P x).PointIn b.lens P x) ∧
    (x < 0 ∨ b.lens.sum < x → ilRow b P x = ⟨0, 2, [P, 0, 0]⟩) := by
  have h := C43_local_coords b hb.inStep hb.nonempty hb.pos x
  constructor
  · intro h0 h1
    obtain ⟨i, hi, a, e, h2, h3, h4, h5⟩ := h.1 h0 h1
    exact ⟨i, hi, a, by simp [ilRow, e], h2, h3, h4, h5⟩
  · intro h1
    simp [ilRow, h.2 h1]

theorem ilLoop_ok (A : Analyser K) {b : BeamB K} (hb : b.Proper) (step P0 : K) (is : List ℕ)
    (his : is.Pairwise fun i j : ℕ => ((i : K) * step < 0 ∨ b.lens.sum < (i : K) * step) →
      ((j : K) * step < 0 ∨ b.lens.sum < (j : K) * step)) (P : K) (s s' : ILState K)
    (hs : s.beam = b)
    (hP : P = P0 ∨ P = 0 ∧ ∀ i ∈ is, (i : K) * step < 0 ∨ b.lens.sum < (i : K) * step)
    (h : ilLoop A step is P s = (s', .ok ())) :
    s'.beam = b ∧ s'.pos = s.pos ++ is.map (fun i : ℕ => (i : K) * step) ∧
      ∃ rs, s'.res = s.res ++ rs ∧
        List.Forall₂ (Carries A b P0) (is.map fun i : ℕ => (i : K) * step) rs := by
  induction is generalizing P s with
  | nil =>
    simp only [ilLoop, Prod.mk.injEq, and_true] at h
    subst h
    exact ⟨hs, by simp, [], by simp, .nil⟩
  | cons i is ih =>
    rw [List.pairwise_cons] at his
    unfold ilLoop at h
    simp only [hs] at h
    split at h
    · simp at h
    · rename_i r hr
      have hP1 : (if (b.localCoords ((i : K) * step)).1 = -1 then 0 else P) = P0 ∨
          (if (b.localCoords ((i : K) * step)).1 = -1 then 0 else P) = 0 ∧
            ∀ i ∈ is, (i : K) * step < 0 ∨ b.lens.sum < (i : K) * step := by
        by_cases hoff : (b.localCoords ((i : K) * step)).1 = -1
        · rw [if_pos hoff]
          exact .inr ⟨rfl, fun j hj => his.1 j hj ((localCoords_off hb _).1 hoff)⟩
        · rw [if_neg hoff]
          rcases hP with hP | ⟨hP, hP'⟩
          · exact .inl hP
          · exact .inr ⟨hP, fun j hj => hP' j (List.mem_cons_of_mem _ hj)⟩
      obtain ⟨h1, h2, rs, h3, h4⟩ := ih his.2 _ _ (by simp) hP1 h
      refine ⟨h1, by simp [h2], r :: rs, by simp [h3], ?_⟩
      refine .cons ⟨_, hr, ?_, ?_⟩ h4
      · intro h0 h5
        have hoff : ¬ (b.localCoords ((i : K) * step)).1 = -1 := by
          rw [localCoords_off hb]
          push Not
          exact ⟨h0, h5⟩
        rw [if_neg hoff]
        rcases hP with rfl | ⟨_, hP⟩
        · exact (ilRow_spec hb _ _).1 h0 h5
        · rcases hP i List.mem_cons_self with h6 | h6
          · exact absurd h6 (not_lt.2 h0)
          · exact absurd h6 (not_lt.2 h5)
      · intro h5
        rw [if_pos ((localCoords_off hb _).2 h5), (ilRow_spec hb _ _).2 h5]

/-- The positions of one creation. -/
def ilPositions [FloorRing K] (b : BeamB K) (step : Option K) : List K :=
  (List.range (pyRound (b.lens.sum / step.getD (b.lens.sum / 100)) + 1).toNat).map
    fun i : ℕ => (i : K) * step.getD (b.lens.sum / 100)

theorem create_ok [FloorRing K] (A : Analyser K) {s s' : ILState K} (hb : s.beam.Proper)
    (step : Option K) (P : K) (h : s.create A step P = (s', .ok ())) :
    s'.beam = s.beam ∧ s'.pos = s.pos ++ ilPositions s.beam step ∧
      List.Forall₂ (Carries A s.beam P) (ilPositions s.beam step) s'.res := by
  have hL : s.beam.length = s.beam.lens.sum := hb.inStep.length
  unfold ILState.create at h
  simp only [hL] at h
  split at h
  · simp at h
  · rename_i hst
    unfold ilPositions
    generalize step.getD (s.beam.lens.sum / 100) = st at h hst ⊢
    have hLpos : 0 < s.beam.lens.sum := by
      apply List.sum_pos _ hb.pos hb.nonempty
    have hpw : (List.range (pyRound (s.beam.lens.sum / st) + 1).toNat).Pairwise
        fun i j : ℕ => ((i : K) * st < 0 ∨ s.beam.lens.sum < (i : K) * st) →
          ((j : K) * st < 0 ∨ s.beam.lens.sum < (j : K) * st) := by
      rcases lt_or_gt_of_ne hst with hneg | hpos
      · have hle : (pyRound (s.beam.lens.sum / st) + 1).toNat ≤ 1 := by
          have hq : s.beam.lens.sum / st < 0 := div_neg_of_pos_of_neg hLpos hneg
          have hf : ⌊s.beam.lens.sum / st⌋ ≤ -1 := by
            have : ⌊s.beam.lens.sum / st⌋ < 0 := Int.floor_lt.2 (by simpa using hq)
            omega
          have : pyRound (s.beam.lens.sum / st) ≤ 0 := by
            unfold pyRound
            split_ifs <;> omega
          omega
        generalize (pyRound (s.beam.lens.sum / st) + 1).toNat = n at hle
        interval_cases n <;> simp [List.range_succ]
      · refine List.pairwise_lt_range.imp fun {i j} hij h => ?_
        rcases h with h | h
        · exact absurd h (not_lt.2 (mul_nonneg (Nat.cast_nonneg i) hpos.le))
        · have : (i : K) * st ≤ j * st :=
            mul_le_mul_of_nonneg_right (by exact_mod_cast hij.le) hpos.le
          exact .inr (h.trans_le this)
    obtain ⟨h1, h2, rs, h3, h4⟩ := ilLoop_ok A hb st P _ hpw P { s with res := [] } s' rfl
      (.inl rfl) h
    refine ⟨h1, h2, ?_⟩
    rw [h3]
    exact h4

/-! ### Stations and supports -/

theorem rowMin_le' (n : ℕ) (a : ℕ → K) (i : ℕ) (hi : i ≤ n) : rowMin n a ≤ a i :=
  (rowMin_isLeast n a).2 ⟨i, hi, rfl⟩

theorem nearestIdx_ok {x : K} {l : List K} {k : ℕ} (h : nearestIdx x l = .ok k) :
    k < l.length ∧ (∀ i < l.length, |l.getD k 0 - x| ≤ |l.getD i 0 - x|) ∧
      ∀ i < k, |l.getD k 0 - x| < |l.getD i 0 - x| := by
  unfold nearestIdx at h
  split at h
  · cases h
  · rename_i hne
    have hl : 0 < l.length := List.length_pos_of_ne_nil (fun e => hne e)
    obtain ⟨h1, h2, h3⟩ := argMin_spec (l.length - 1) fun i => |l.getD i 0 - x|
    cases h
    refine ⟨by omega, fun i hi => ?_, fun i hi => ?_⟩
    · rw [h2]
      exact rowMin_le' _ (fun i => |l.getD i 0 - x|) i (by omega)
    · rw [h2]
      exact h3 i hi

theorem ilStation_ok {b : BeamB K} (hb : b.Proper) {r0 : Result K × List (MRes K)} {poi : K}
    {j k : ℕ} (h : ilStation b r0 poi = .ok (j, k)) :
    SpanOf b.lens poi j ∧ ∃ m, r0.2[j]? = some m ∧ Nearest m poi k := by
  unfold ilStation at h
  simp only at h
  have hspan : SpanOf b.lens poi
      (if (b.localCoords poi).1 = -1 then b.noSpans - 1 else (b.localCoords poi).1.toNat) := by
    have h := C43_local_coords b hb.inStep hb.nonempty hb.pos poi
    have hlen : 0 < b.lens.length := List.length_pos_of_ne_nil hb.nonempty
    by_cases hoff : poi < 0 ∨ b.lens.sum < poi
    · rw [if_pos ((localCoords_off hb poi).2 hoff), hb.inStep.noSpans]
      refine ⟨by omega, fun h0 h1 => ?_, fun _ => by omega⟩
      rcases hoff with h2 | h2
      · exact absurd h2 (not_lt.2 h0)
      · exact absurd h2 (not_lt.2 h1)
    · rw [if_neg fun e => hoff ((localCoords_off hb poi).1 e)]
      push Not at hoff
      obtain ⟨i, hi, a, e, h2, h3, h4, h5⟩ := h.1 hoff.1 hoff.2
      have hs := boundary_succ b.lens i hi
      unfold boundary at hs
      rw [e]
      refine ⟨by simpa using hi, fun _ _ => ?_, fun h6 => ?_⟩
      · simp only [Int.toNat_natCast, hs]
        exact ⟨by linarith, by linarith, fun h6 => by linarith [h5 h6]⟩
      · rcases h6 with h6 | h6
        · exact absurd h6 (not_lt.2 hoff.1)
        · exact absurd h6 (not_lt.2 hoff.2)
  generalize (if (b.localCoords poi).1 = -1 then b.noSpans - 1
    else (b.localCoords poi).1.toNat) = j0 at h hspan
  split at h
  · cases h
  · rename_i m hm
    split at h
    · cases h
    · rename_i k0 hk0
      cases h
      obtain ⟨h1, h2, h3⟩ := nearestIdx_ok hk0
      have hget : ∀ i < m.n - 2, ((List.range (m.n - 2)).map fun k => m.x (k + 1)).getD i 0 =
          m.x (i + 1) := by
        intro i hi
        rw [List.getD_eq_getElem?_getD, List.getElem?_map, List.getElem?_range hi]
        rfl
      simp only [List.length_map, List.length_range] at h1 h2
      rw [hget _ h1] at h2 h3
      refine ⟨hspan, m, hm, by omega, by omega, fun k' h4 h5 => ?_, fun k' h4 h5 => ?_⟩
      · obtain ⟨q, rfl⟩ : ∃ q, k' = q + 1 := ⟨k' - 1, by omega⟩
        have := h2 q (by omega)
        rwa [hget q (by omega)] at this
      · obtain ⟨q, rfl⟩ : ∃ q, k' = q + 1 := ⟨k' - 1, by omega⟩
        have := h3 q (by omega)
        rwa [hget q (by omega)] at this

theorem take_sum_strict {l : List K} (hpos : ∀ x ∈ l, 0 < x) {i j : ℕ} (hij : i < j)
    (hj : j ≤ l.length) : (l.take i).sum < (l.take j).sum := by
  induction j with
  | zero => omega
  | succ j ih =>
    have hs := boundary_succ l j (by omega)
    unfold boundary at hs
    have h1 := hpos _ (List.getElem_mem (show j < l.length by omega))
    rcases Nat.lt_succ_iff_lt_or_eq.1 hij with h | rfl
    · linarith [ih h (by omega)]
    · linarith

theorem filter_range_getElem? (p : ℕ → Bool) {d N : ℕ} (hd : d < N) (hp : p d = true) :
    ((List.range N).filter p)[((List.range d).filter p).length]? = some d := by
  obtain ⟨m, rfl⟩ : ∃ m, N = d + (m + 1) := ⟨N - d - 1, by omega⟩
  rw [List.range_add, List.filter_append, List.getElem?_append_right le_rfl, Nat.sub_self,
    List.range_succ_eq_map]
  simp [hp]

theorem filter_congr_range {p q : ℕ → Bool} {N : ℕ} (h : ∀ i < N, p i = q i) :
    (List.range N).filter p = (List.range N).filter q :=
  List.filter_congr fun i hi => h i (List.mem_range.1 hi)

/-- The reactions of an analysis belong to the negative restraints. -/
theorem runCase_reactions {b : BeamDef K} {stable : System K → Bool} {solve : Solver K}
    (hsol : solve.Sound) {npts : ℕ} {LM : List (Row K)} {r : Result K × List (MRes K)}
    (h : runCase b stable solve npts LM = .ok r) :
    ∃ s, ({ b with LM := LM } : BeamDef K).system = .ok s ∧
      r.1.r = ((List.range (2 * b.members.length + 2)).filter fun i =>
        b.restraints.getD i 0 < 0).map (s.residual r.1.d) := by
  obtain ⟨s, hs, han⟩ := BeamDef.analyze_ok (runCase_ok h).1
  obtain ⟨_, h2, _⟩ := System.analyze_ok hsol han
  obtain ⟨hn, _, _, hr, _⟩ := BeamDef.system_ok hs
  refine ⟨s, hs, ?_⟩
  rw [h2]
  simp only [System.reactions, System.N, hn, hr]

theorem ilReaction_ok {b : BeamB K} (hb : b.Proper)
    (hR : b.restraints.length = 2 * b.lens.length + 2)
    (hneg : ∀ x ∈ b.restraints, x < 0 → x = -1) (hmem : b.toDef.members.length = b.lens.length)
    {off : ℕ} (hoff : off < 2) {poi : K} {q : ℕ} (h : ilReaction b off poi = .ok q)
    {A : Analyser K} (hsol : A.solve.Sound) {LM : List (Row K)} {r : Result K × List (MRes K)}
    (hr : runCase b.toDef A.stable A.solve A.npts LM = .ok r) :
    ∃ j, NearestSupport b off poi j ∧ (2 * j + off, r.1.r.getD q 0) ∈ b.toDef.reported r.1 := by
  have hn : b.restraints.length / 2 = b.lens.length + 1 := by omega
  unfold ilReaction at h
  simp only [hn] at h
  set p : ℕ → Bool := fun j => decide (b.restraints.getD (2 * j + off) 0 = -1) with hp
  set sup := (List.range (b.lens.length + 1)).filter p with hsup
  have hloc : ∀ j < b.lens.length + 1, (nodeLocations b).getD j 0 = (b.lens.take j).sum := by
    intro j hj
    rw [nodeLocations, List.getD_eq_getElem?_getD, List.getElem?_map, List.getElem?_range hj]
    rfl
  have hsupmem : ∀ j, j ∈ sup ↔ j < b.lens.length + 1 ∧ b.restraints.getD (2 * j + off) 0 = -1 := by
    intro j
    simp [hsup, hp]
  have hget : ∀ i (hi : i < sup.length), (sup.map fun j => (nodeLocations b).getD j 0).getD i 0 =
      (b.lens.take sup[i]).sum := by
    intro i hi
    rw [List.getD_eq_getElem?_getD, List.getElem?_map, List.getElem?_eq_getElem hi]
    exact hloc _ ((hsupmem _).1 (List.getElem_mem hi)).1
  split at h
  · cases h
  · rename_i k hk
    obtain ⟨h1, h2, h3⟩ := nearestIdx_ok hk
    rw [List.length_map] at h1 h2
    rw [hget k h1] at h2 h3
    have hj := (hsupmem _).1 (List.getElem_mem h1)
    have hnear : NearestSupport b off poi sup[k] := by
      refine ⟨hj.1, hj.2, fun j' hj' hr' => ?_, fun j' hj' hr' => ?_⟩
      · obtain ⟨i, hi, e⟩ := List.getElem_of_mem ((hsupmem j').2 ⟨hj', hr'⟩)
        have := h2 i hi
        rwa [hget i hi, e] at this
      · obtain ⟨i, hi, e⟩ := List.getElem_of_mem ((hsupmem j').2 ⟨by omega, hr'⟩)
        have hik : i < k := by
          by_contra hc
          have hsorted : sup.Pairwise (· < ·) := List.pairwise_lt_range.filter _
          rcases Nat.lt_or_ge k i with hlt | hge
          · have := List.pairwise_iff_getElem.1 hsorted k i h1 hi hlt
            omega
          · obtain rfl : i = k := by omega
            omega
        have := h3 i hik
        rwa [hget i hi, e] at this
    rw [hget k h1] at h
    refine ⟨sup[k], hnear, ?_⟩
    generalize sup[k] = j at hj hnear h
    split at h
    · cases h
    · rename_i node hnode
      obtain ⟨hn1, hn2, _⟩ := List.findIdx?_eq_some_iff_getElem.1 hnode
      have hn1' : node < b.lens.length + 1 := by simpa [nodeLocations] using hn1
      have hnj : node = j := by
        have e : (b.lens.take node).sum = (b.lens.take j).sum := by
          have := of_decide_eq_true hn2
          rw [← hloc node hn1', ← this, List.getD_eq_getElem?_getD, List.getElem?_eq_getElem hn1]
          rfl
        rcases lt_trichotomy node j with h4 | h4 | h4
        · exact absurd e (take_sum_strict hb.pos h4 (by omega)).ne
        · exact h4
        · exact absurd e (take_sum_strict hb.pos h4 (by omega)).ne'
      subst hnj
      rw [if_pos hj.2] at h
      cases h
      obtain ⟨s, hs, hrr⟩ := runCase_reactions hsol hr
      have hd : 2 * node + off < 2 * b.toDef.members.length + 2 := by omega
      have hcongr : ∀ i, decide (b.restraints.getD i 0 = -1) =
          decide (b.restraints.getD i 0 < 0) := by
        intro i
        rw [decide_eq_decide]
        constructor
        · intro e
          rw [e]
          norm_num
        · intro e
          by_cases hi : i < b.restraints.length
          · refine hneg _ ?_ e
            rw [List.getD_eq_getElem?_getD, List.getElem?_eq_getElem hi]
            exact List.getElem_mem hi
          · rw [List.getD_eq_getElem?_getD, List.getElem?_eq_none (by omega)] at e
            simp at e
      have hlt : decide (b.restraints.getD (2 * node + off) 0 < 0) = true := by
        rw [← hcongr, hj.2]
        simp
      have hidx := filter_range_getElem? (fun i => decide (b.restraints.getD i 0 < 0)) hd hlt
      simp only [hcongr]
      generalize ((List.range (2 * node + off)).filter fun i =>
        decide (b.restraints.getD i 0 < 0)).length = q at hidx ⊢
      unfold BeamDef.reported
      refine List.mem_append_left _ ?_
      rw [hrr]
      have hres : ∀ i, b.toDef.restraints.getD i 0 = b.restraints.getD i 0 := fun _ => rfl
      simp only [hres]
      refine List.mem_of_getElem? (i := q) ?_
      rw [List.getElem?_zip_eq_some]
      refine ⟨hidx, ?_⟩
      rw [List.getD_eq_getElem?_getD, List.getElem?_map, hidx]
      rfl

/-! ### Superposition -/

/-- Reactions superpose like member results. -/
theorem comb_reactions (b : BeamDef K) (stable : System K → Bool) (solve : Solver K)
    (hsol : solve.Sound) (npts : ℕ) {α : Type*} (L : List α) (w : α → K) (c : α → LCase K)
    (run : α → Result K × List (MRes K))
    (hrun : ∀ a ∈ L, runCase b stable solve npts (c a).loads = .ok (run a))
    (keep : α → Bool) (hk : ∀ a ∈ L, keep a = false → w a = 0)
    (LM : List (Row K)) (hLM : CombOf b L w c keep LM)
    (r : Result K × List (MRes K)) (hr : runCase b stable solve npts LM = .ok r)
    (hpr : ∀ v, some v ∈ b.presc → v = 0 ∨ (L.map w).sum = 1)
    (hns : ∀ s, ({ b with LM := LM } : BeamDef K).system = .ok s → s.Nonsingular) (q : ℕ) :
    r.1.r.getD q 0 = lsum L w fun a => (run a).1.r.getD q 0 := by
  obtain ⟨s, hs, han⟩ := BeamDef.analyze_ok (runCase_ok hr).1
  have h1 : ∀ a ∈ L, ∃ sa, ({ b with LM := (c a).loads } : BeamDef K).system = .ok sa ∧
      sa.analyze solve = .ok (run a).1 := fun a ha => BeamDef.analyze_ok (runCase_ok (hrun a ha)).1
  have : Nonempty (System K) := ⟨s⟩
  choose! sy hsy hrs using h1
  have hlin := comb_system hk hLM hsy hs hpr
  obtain ⟨hd, _⟩ := hlin.superpose (hns s hs) hsol han (fun a => (run a).1) hrs
  obtain ⟨_, e0, _⟩ := System.analyze_ok hsol han
  have hfil : ∀ a ∈ L, (run a).1.r = ((List.range s.N).filter fun i => s.r i < 0).map
      ((sy a).residual (run a).1.d) := by
    intro a ha
    obtain ⟨_, e1, _⟩ := System.analyze_ok hsol (hrs a ha)
    rw [e1]
    simp only [System.reactions, System.N, hlin.n a ha, hlin.r a ha]
  rw [e0, System.reactions]
  cases hq : ((List.range s.N).filter fun i => s.r i < 0)[q]? with
  | none =>
    rw [List.getD_eq_getElem?_getD, List.getElem?_map, hq]
    symm
    apply lsum_zero
    intro a ha
    rw [hfil a ha, List.getD_eq_getElem?_getD, List.getElem?_map, hq]
    rfl
  | some p =>
    have hp : p < s.N := by
      have := List.mem_of_getElem? hq
      simpa using (List.mem_filter.1 this).1
    rw [List.getD_eq_getElem?_getD, List.getElem?_map, hq]
    have e2 : ∀ a ∈ L, (run a).1.r.getD q 0 = mulN s.N s.assemble (run a).1.d p +
        ∑ i ∈ Finset.range s.n, blockVec (2 * i) ((sy a).ref i) p := by
      intro a ha
      rw [hfil a ha, List.getD_eq_getElem?_getD, List.getElem?_map, hq]
      have hN : (sy a).N = s.N := by simp [System.N, hlin.n a ha]
      show (sy a).residual (run a).1.d p = _
      simp only [System.residual, System.forces_eq, hN, hlin.n a ha,
        System.assemble_congr (hlin.n a ha) (hlin.kb a ha) (hlin.r a ha)]
      ring
    rw [lsum_congr e2, lsum_add, ← mulN_lsum, lsum_finset]
    show s.residual r.1.d p = _
    have e3 : mulN s.N s.assemble r.1.d p =
        mulN s.N s.assemble (fun q => lsum L w fun a => (run a).1.d q) p := by
      unfold mulN
      exact Finset.sum_congr rfl fun q hq => by rw [hd q (Finset.mem_range.1 hq)]
    have e4 : ∀ i ∈ Finset.range s.n, blockVec (2 * i) (s.ref i) p =
        lsum L w fun a => blockVec (2 * i) ((sy a).ref i) p := by
      intro i hi
      unfold blockVec
      split
      · exact hlin.ref i (Finset.mem_range.1 hi) _
      · rw [lsum_zero]
        simp
    rw [System.residual, System.forces_eq, e3, Finset.sum_congr rfl e4]
    ring

/-- The ways `get_il` reads a number off the results of an analysis. -/
inductive IsReading : (Result K × List (MRes K) → K) → Prop
  | V (j k : ℕ) : IsReading fun r => (r.2.getD j ⟨0, 0, 0, 0, 0, 0⟩).V k
  | M (j k : ℕ) : IsReading fun r => (r.2.getD j ⟨0, 0, 0, 0, 0, 0⟩).M k
  | R (q : ℕ) : IsReading fun r => r.1.r.getD q 0

theorem IsReading.comb {rd : Result K × List (MRes K) → K} (hrd : IsReading rd)
    {b : BeamDef K} {stable : System K → Bool} {solve : Solver K}
    (hsol : solve.Sound) {npts : ℕ} {α : Type*} (L : List α) (w : α → K) (c : α → LCase K)
    (run : α → Result K × List (MRes K))
    (hrun : ∀ a ∈ L, runCase b stable solve npts (c a).loads = .ok (run a))
    (LM : List (Row K)) (hLM : CombOf b L w c (fun _ => true) LM)
    (r : Result K × List (MRes K)) (hr : runCase b stable solve npts LM = .ok r)
    (hpr : ∀ v, some v ∈ b.presc → v = 0)
    (hns : ∀ s, ({ b with LM := LM } : BeamDef K).system = .ok s → s.Nonsingular) :
    rd r = lsum L w fun a => rd (run a) := by
  have hk : ∀ a ∈ L, (fun _ : α => true) a = false → w a = 0 := fun _ _ h => by cases h
  have key : ∀ rp : Resp, rp = .M ∨ rp = .V → ∀ j k, rp.get (r.2.getD j ⟨0, 0, 0, 0, 0, 0⟩) k =
      lsum L w fun a => rp.get ((run a).2.getD j ⟨0, 0, 0, 0, 0, 0⟩) k := by
    intro rp hrp j k
    obtain ⟨h1, h2, h3⟩ := comb_results' b stable solve hsol npts L w c run hrun _ hk LM hLM r hr
      (fun v hv => .inl (hpr v hv)) hns rp (by tauto)
    by_cases hj : j < b.members.length
    · have := (h3 j (by omega) (fun a ha => by rw [h2 a ha]; exact hj)).2 k
      rw [← this, List.getD_eq_getElem?_getD, List.getElem?_eq_getElem (by omega)]
      rfl
    · rw [List.getD_eq_getElem?_getD, List.getElem?_eq_none (by omega), lsum_zero]
      · rcases hrp with rfl | rfl <;> rfl
      · intro a ha
        rw [List.getD_eq_getElem?_getD, List.getElem?_eq_none (by rw [h2 a ha]; omega)]
        rcases hrp with rfl | rfl <;> rfl
  cases hrd with
  | V j k => exact key .V (.inr rfl) j k
  | M j k => exact key .M (.inl rfl) j k
  | R q =>
    exact comb_reactions b stable solve hsol npts L w c run hrun _ hk LM hLM r hr
      (fun v hv => .inl (hpr v hv)) hns q

/-- Every analysis of a beam has the same stations. -/
theorem runCase_grid {b : BeamDef K} {stable : System K → Bool} {solve : Solver K} {npts : ℕ}
    {LM LM' : List (Row K)} {r r' : Result K × List (MRes K)}
    (h : runCase b stable solve npts LM = .ok r) (h' : runCase b stable solve npts LM' = .ok r')
    {j : ℕ} {m : MRes K} (hm : r.2[j]? = some m) :
    ∃ m', r'.2[j]? = some m' ∧ m'.n = m.n ∧ m'.x = m.x := by
  obtain ⟨hl, l, _, hc⟩ := BeamDef.memberResults_ok (runCase_ok h).2
  obtain ⟨hl', l', _, hc'⟩ := BeamDef.memberResults_ok (runCase_ok h').2
  simp only at hl hl' hc hc'
  have hj : j < r.2.length := by
    by_contra hn
    rw [List.getElem?_eq_none (by omega)] at hm
    cases hm
  obtain ⟨c, e1, e2⟩ := hc j (by omega) hj
  obtain ⟨c', e1', e2'⟩ := hc' j (by omega) (by omega)
  obtain ⟨a1, _, _, _, a5, a6, _⟩ := Member.ctx_ok e1
  obtain ⟨b1, _, _, _, b5, b6, _⟩ := Member.ctx_ok e1'
  rw [List.getElem?_eq_getElem hj] at hm
  cases hm
  refine ⟨_, List.getElem?_eq_getElem (by omega), ?_, ?_⟩
  · rw [e2, e2']
    show c'.n = c.n
    simp only [MCtx.n, MCtx.grid, a1, a5, a6, b1, b5, b6]
  · rw [e2, e2']
    show (fun k => c'.x k + _) = fun k => c.x k + _
    simp only [MCtx.x, MCtx.grid, a1, a5, a6, b1, b5, b6]
    rfl

theorem Nearest.congr {m m' : MRes K} (hn : m'.n = m.n) (hx : m'.x = m.x) {poi : K} {k : ℕ}
    (h : Nearest m poi k) : Nearest m' poi k := by
  unfold Nearest at *
  rw [hn, hx]
  exact h

theorem toDef_length {b : BeamB K} (hb : b.InStep) : b.toDef.members.length = b.lens.length := by
  have h1 := hb.EIs
  have h2 := hb.GAvs
  have h3 := hb.types
  have key : ∀ (l : List K) (e : List (Rigidity K)) (t : List EType) (g : List (Option (Rigidity K))),
      e.length = l.length → g.length = l.length → t.length = l.length →
      (zipMembers l e t g).length = l.length := by
    intro l
    induction l with
    | nil => intros; simp [zipMembers]
    | cons a l ih =>
      intro e t g he hg ht
      cases e <;> cases t <;> cases g <;> simp at he hg ht
      simp [zipMembers, ih _ _ _ he hg ht]
  exact key _ _ _ _ h1 h2 h3

theorem ilOrdinates_ok {b : BeamB K} (hb : b.Proper)
    (hR : b.restraints.length = 2 * b.lens.length + 2)
    (hneg : ∀ x ∈ b.restraints, x < 0 → x = -1) {A : Analyser K} (hsol : A.solve.Sound)
    {res : List (Result K × List (MRes K))}
    (hres : ∀ r ∈ res, ∃ LM, runCase b.toDef A.stable A.solve A.npts LM = .ok r)
    {poi : K} {e : ILEffect} {eta : List K} (h : ilOrdinates b res poi e = .ok eta) :
    ∃ rd, IsReading rd ∧ eta = res.map rd ∧
      ∀ LM r, runCase b.toDef A.stable A.solve A.npts LM = .ok r → Reads b poi e r (rd r) := by
  have hmem := toDef_length hb.inStep
  unfold ilOrdinates at h
  split at h
  · cases h
  rename_i r0 rs
  split at h
  · cases h
  rename_i j k hst
  obtain ⟨hspan, m, hm, hnear⟩ := ilStation_ok hb hst
  obtain ⟨LM0, hLM0⟩ := hres r0 List.mem_cons_self
  have hread : ∀ LM r, runCase b.toDef A.stable A.solve A.npts LM = .ok r →
      ∃ m', r.2[j]? = some m' ∧ Nearest m' poi k := by
    intro LM r hr
    obtain ⟨m', e1, e2, e3⟩ := runCase_grid hLM0 hr hm
    exact ⟨m', e1, hnear.congr e2 e3⟩
  cases e with
  | V =>
    cases h
    refine ⟨_, .V j k, rfl, fun LM r hr => ?_⟩
    obtain ⟨m', e1, e2⟩ := hread LM r hr
    exact ⟨j, m', k, hspan, e1, e2, by rw [List.getD_eq_getElem?_getD, e1]; rfl⟩
  | M =>
    cases h
    refine ⟨_, .M j k, rfl, fun LM r hr => ?_⟩
    obtain ⟨m', e1, e2⟩ := hread LM r hr
    exact ⟨j, m', k, hspan, e1, e2, by rw [List.getD_eq_getElem?_getD, e1]; rfl⟩
  | R =>
    simp only at h
    split at h
    · cases h
    · rename_i q hq
      cases h
      exact ⟨_, .R q, rfl, fun LM r hr => ilReaction_ok hb hR hneg hmem (by norm_num) hq hsol hr⟩
  | MR =>
    simp only at h
    split at h
    · cases h
    · rename_i q hq
      cases h
      exact ⟨_, .R q, rfl, fun LM r hr => ilReaction_ok hb hR hneg hmem (by norm_num) hq hsol hr⟩

/-! ### The properties -/

/-- What the constructor guarantees of the beam of an `InfluenceLines` object (`R` of the right
length, no prescribed displacements), and `-1` as the only negative restraint. -/
structure BeamB.ForIL (b : BeamB K) : Prop where
  proper : b.Proper
  restraints : b.restraints.length = 2 * b.lens.length + 2
  neg : ∀ x ∈ b.restraints, x < 0 → x = -1
  presc : ∀ v, some v ∈ b.presc → v = 0

theorem get_ok [FloorRing K] {A : Analyser K} {s s' : ILState K} {poi : K} {e : ILEffect}
    {x eta : List K} (h : s.get A poi e = (s', .ok (x, eta))) :
    ∃ s1, (s.res ≠ [] ∧ s1 = s ∨ s.res = [] ∧ s.create A none 1 = (s1, .ok ())) ∧ s' = s1 ∧
      x = s1.pos ∧ ilOrdinates s1.beam s1.res poi e = .ok eta := by
  unfold ILState.get at h
  simp only at h
  by_cases hr : s.res = []
  · rw [if_pos (by simp [hr])] at h
    split at h
    · simp at h
    · rename_i u hu
      split at h
      · simp at h
      · rename_i eta' he
        simp only [Prod.mk.injEq, Except.ok.injEq] at h
        obtain ⟨rfl, rfl, rfl⟩ := h
        refine ⟨_, .inr ⟨hr, ?_⟩, rfl, rfl, he⟩
        rw [Prod.ext_iff]
        exact ⟨rfl, hu⟩
  · rw [if_neg (by simp [hr])] at h
    simp only at h
    split at h
    · simp at h
    · rename_i eta' he
      simp only [Prod.mk.injEq, Except.ok.injEq] at h
      obtain ⟨rfl, rfl, rfl⟩ := h
      exact ⟨s, .inl ⟨hr, rfl⟩, rfl, rfl, he⟩

theorem carries_run {A : Analyser K} {b : BeamB K} {P : K} {xs : List K}
    {rs : List (Result K × List (MRes K))} (h : List.Forall₂ (Carries A b P) xs rs) :
    ∀ r ∈ rs, ∃ LM, runCase b.toDef A.stable A.solve A.npts LM = .ok r := by
  induction h with
  | nil => simp
  | cons h _ ih =>
    intro r hr
    rcases List.mem_cons.1 hr with rfl | hr
    · obtain ⟨row, h1, _⟩ := h
      exact ⟨[row], h1⟩
    · exact ih r hr

/-- The result of a creation followed by a reading. -/
theorem ordinates_spec {A : Analyser K} (hsol : A.solve.Sound) {b : BeamB K} (hb : b.ForIL)
    {P : K} {xs : List K} {rs : List (Result K × List (MRes K))}
    (hc : List.Forall₂ (Carries A b P) xs rs) {poi : K} {e : ILEffect} {eta : List K}
    (h : ilOrdinates b rs poi e = .ok eta) :
    List.Forall₂ (fun x y => ∃ r, Carries A b P x r ∧ Reads b poi e r y) xs eta := by
  obtain ⟨rd, _, rfl, hread⟩ := ilOrdinates_ok hb.proper hb.restraints hb.neg hsol
    (carries_run hc) h
  rw [List.forall₂_map_right_iff]
  refine hc.imp fun x r hxr => ⟨r, hxr, ?_⟩
  obtain ⟨row, h1, _⟩ := hxr
  exact hread _ r h1

/-- The states of an object after successful calls, with the number of creations (a reading
creates the influence lines when there are none). -/
inductive Reach [FloorRing K] (A : Analyser K) (b : BeamB K) : ILState K → ℕ → Prop
  | new : Reach A b (ILState.new b) 0
  | create {s s' : ILState K} {n : ℕ} (step : Option K) (P : K) : Reach A b s n →
      s.create A step P = (s', .ok ()) → Reach A b s' (n + 1)
  | get {s s' : ILState K} {n : ℕ} (poi : K) (e : ILEffect) (v : List K × List K) :
      Reach A b s n → s.get A poi e = (s', .ok v) →
      Reach A b s' (if s.res = [] then n + 1 else n)

theorem create_inv [FloorRing K] {A : Analyser K} {b : BeamB K} (hb : b.Proper) {s s' : ILState K}
    {n : ℕ} (hs : s.beam = b) (hj : n = 0 → s.pos = []) {step : Option K} {P : K}
    (h : s.create A step P = (s', .ok ())) :
    s'.beam = b ∧ ∃ junk good : List K, s'.pos = junk ++ good ∧
      List.Forall₂ (Carries A b P) good s'.res ∧ (n = 0 → junk = []) := by
  subst hs
  obtain ⟨h1, h2, h3⟩ := create_ok A hb step P h
  exact ⟨h1, s.pos, _, h2, h3, hj⟩

theorem Reach.inv [FloorRing K] {A : Analyser K} {b : BeamB K} (hb : b.Proper) {s : ILState K}
    {n : ℕ} (h : Reach A b s n) :
    s.beam = b ∧ (n = 0 → s.pos = []) ∧ ∃ (P : K) (junk good : List K), s.pos = junk ++ good ∧
      List.Forall₂ (Carries A b P) good s.res ∧ (n ≤ 1 → junk = []) := by
  induction h with
  | new => exact ⟨rfl, fun _ => rfl, 0, [], [], rfl, .nil, fun _ => rfl⟩
  | create step P _ hc ih =>
    obtain ⟨h1, junk, good, h2, h3, h4⟩ := create_inv hb ih.1 ih.2.1 hc
    exact ⟨h1, fun h => by omega, P, junk, good, h2, h3, fun h => h4 (by omega)⟩
  | @get s s' n poi e v _ hg ih =>
    obtain ⟨x, eta⟩ := v
    obtain ⟨s1, h1, rfl, _⟩ := get_ok hg
    rcases h1 with ⟨hr, rfl⟩ | ⟨hr, hc⟩
    · rw [if_neg hr]
      exact ih
    · rw [if_pos hr]
      obtain ⟨h1, junk, good, h2, h3, h4⟩ := create_inv hb ih.1 ih.2.1 hc
      exact ⟨h1, fun h => by omega, 1, junk, good, h2, h3, fun h => h4 (by omega)⟩

/-- **C61, partial** — after any sequence of successful calls, what `get_il` returns ends with
one position per ordinate, each ordinate the effect read from the analysis of the beam under
the load at its position; and the positions are just these while the influence lines have been
created at most once.  Missing: with more than one creation (see `C61_recreate_violation`) the
returned positions begin with those of the earlier creations. -/
theorem C61_history_partial [FloorRing K] (A : Analyser K) (hsol : A.solve.Sound) (b : BeamB K)
    (hb : b.ForIL) (s s' : ILState K) (n : ℕ) (hs : Reach A b s n) (poi : K) (e : ILEffect)
    (x eta : List K) (h : s.get A poi e = (s', .ok (x, eta))) :
    ∃ (P : K) (junk good : List K), x = junk ++ good ∧
      List.Forall₂ (fun x y => ∃ r, Carries A b P x r ∧ Reads b poi e r y) good eta ∧
      ((if s.res = [] then n + 1 else n) ≤ 1 → junk = []) := by
  obtain ⟨h1, _, P, junk, good, h2, h3, h4⟩ := (Reach.get poi e _ hs h).inv hb.proper
  obtain ⟨s1, _, rfl, rfl, h5⟩ := get_ok h
  rw [h1] at h5
  exact ⟨P, junk, good, h2, ordinates_spec hsol hb h3 h5, h4⟩

/-! ### C60 -/

theorem PointIn.eq {b : BeamB K} (hb : b.Proper) {row : Row K} {w y : K}
    (h : row.PointIn b.lens w y) : row = ilRow b w y := by
  obtain ⟨i, hi, a, rfl, h2, h3, h4, h5⟩ := h
  have hs := boundary_succ b.lens i hi
  have hle : ∀ q ≤ b.lens.length, (b.lens.take q).sum ≤ b.lens.sum := by
    intro q hq
    rcases hq.lt_or_eq with hq | rfl
    · have := take_sum_strict hb.pos hq le_rfl
      rw [List.take_length] at this
      exact this.le
    · rw [List.take_length]
  have h0 : 0 ≤ (b.lens.take i).sum :=
    List.sum_nonneg fun x hx => (hb.pos x (List.mem_of_mem_take hx)).le
  unfold boundary at hs
  obtain ⟨j, hj, c, e1, e2, e3, e4, e5⟩ := (ilRow_spec hb w y).1 (by linarith)
    (by linarith [hle (i + 1) (by omega)])
  have hs' := boundary_succ b.lens j hj
  unfold boundary at hs'
  have hij : i = j := by
    have key : ∀ (p q : ℕ) (hp : p < b.lens.length) (hq : q < b.lens.length) (u v : K),
        (b.lens.take p).sum + u = y → (b.lens.take q).sum + v = y → u ≤ b.lens[p] → 0 ≤ v →
        (y < b.lens.sum → u < b.lens[p]) → ¬ p < q := by
      intro p q hp hq u v k1 k2 k3 k4 k5 hlt
      have hsp := boundary_succ b.lens p hp
      unfold boundary at hsp
      have hle2 : (b.lens.take (p + 1)).sum ≤ (b.lens.take q).sum := by
        rcases Nat.eq_or_lt_of_le (show p + 1 ≤ q from hlt) with e | e
        · rw [e]
        · exact (take_sum_strict hb.pos e (by omega)).le
      have hlt2 : (b.lens.take q).sum < b.lens.sum := by
        have := take_sum_strict hb.pos hq le_rfl
        rwa [List.take_length] at this
      by_cases hy : y < b.lens.sum
      · linarith [k5 hy]
      · linarith
    rcases lt_trichotomy i j with h | h | h
    · exact absurd h (key i j hi hj a c h2 e2 h4 e3 h5)
    · exact h
    · exact absurd h (key j i hj hi c a e2 h2 e4 h3 e5)
  subst hij
  rw [e1, show a = c by linarith]

theorem setLoads_points (d : BeamDef K) (b : BeamB K) {α : Type*} (L : List α) (w y : α → K) :
    ({ d with LM := L.map fun q => ilRow b (w q) (y q) } : BeamDef K).setLoads =
      .ok (L.map fun q => ⟨(b.localCoords (y q)).1, .pl (w q) (b.localCoords (y q)).2⟩) := by
  have hp : parseLM (L.map fun q => ilRow b (w q) (y q)) =
      .ok (L.map fun q => ⟨(b.localCoords (y q)).1, .pl (w q) (b.localCoords (y q)).2⟩) := by
    induction L with
    | nil => rfl
    | cons q L ih =>
      simp only [List.map_cons, parseLM, ih]
      simp [parseRow, ilRow]
  unfold BeamDef.setLoads
  simp only [hp]
  rw [if_pos]
  rw [List.all_eq_true]
  intro l hl
  obtain ⟨q, _, rfl⟩ := List.mem_map.1 hl
  rfl

/-- A load off the beam has no effect. -/
theorem IsReading.off {rd : Result K × List (MRes K) → K} (hrd : IsReading rd) {A : Analyser K}
    (hsol : A.solve.Sound) {b : BeamDef K} (hpr : ∀ v, some v ∈ b.presc → v = 0)
    (hns : ∀ LM s, ({ b with LM := LM } : BeamDef K).system = .ok s → s.Nonsingular)
    {r : Result K × List (MRes K)}
    (h : runCase b A.stable A.solve A.npts [⟨0, 2, [0, 0, 0]⟩] = .ok r) : rd r = 0 := by
  have := hrd.comb hsol [()] (fun _ => 2) (fun _ => ⟨"", [⟨0, 2, [0, 0, 0]⟩], [], none⟩)
    (fun _ => r) (fun _ _ => h) [⟨0, 2, [0, 0, 0]⟩] ?_ r h hpr (hns _)
  · simp only [lsum, List.map_cons, List.map_nil, List.sum_cons, List.sum_nil, add_zero] at this
    linarith
  · intro ls hls
    have h1 := hls () (by simp)
    have h2 : ({ b with LM := [⟨0, 2, [0, 0, 0]⟩] } : BeamDef K).setLoads =
        .ok [⟨-1, .pl 0 0⟩] := by
      simp [BeamDef.setLoads, parseLM, parseRow]
    rw [h2]
    simp only at h1
    rw [h2] at h1
    have h1 := (Except.ok.inj h1).symm
    simp [h1, combLoads, SpanLoad.scale, Load.scale]

theorem forall₂_getD {α β : Type*} {R : α → β → Prop} {l : List α} {l' : List β}
    (h : List.Forall₂ R l l') (i : ℕ) (hi : i < l.length) (a : α) (c : β) :
    R (l.getD i a) (l'.getD i c) := by
  induction h generalizing i with
  | nil => simp at hi
  | cons h _ ih =>
    cases i with
    | zero => exact h
    | succ i => exact ih i (by simpa using hi)

/-- **C60** — let the influence lines of a beam be created with load `P` and read at a point of
interest.  Then for any set `Q` of point loads (position index and size), in any analysis of
the beam under these loads (those at positions off the beam left out) the effect at the point
of interest is the sum of load times ordinate over `P`. -/
theorem C60_superposition [FloorRing K] (A : Analyser K) (hsol : A.solve.Sound) (b : BeamB K)
    (hb : b.ForIL)
    (hns : ∀ LM s, ({ b.toDef with LM := LM } : BeamDef K).system = .ok s → s.Nonsingular)
    (step : Option K) (P : K) (hP : P ≠ 0) (s s' : ILState K)
    (hc : (ILState.new b).create A step P = (s, .ok ())) (hne : s.pos ≠ [])
    (poi : K) (e : ILEffect) (x eta : List K) (hg : s.get A poi e = (s', .ok (x, eta)))
    (Q : List (ℕ × K)) (hQ : ∀ q ∈ Q, q.1 < x.length) (LM : List (Row K))
    (hLM : List.Forall₂ (fun q row => row.PointIn b.lens q.2 (x.getD q.1 0))
      (Q.filter fun q => 0 ≤ x.getD q.1 0 ∧ x.getD q.1 0 ≤ b.lens.sum) LM)
    (r : Result K × List (MRes K)) (hr : runCase b.toDef A.stable A.solve A.npts LM = .ok r) :
    Reads b poi e r (Q.map fun q => q.2 * (eta.getD q.1 0 / P)).sum := by
  obtain ⟨c1, c2, c3⟩ := create_ok A (s := ILState.new b) hb.proper step P hc
  change s.beam = b at c1
  change s.pos = [] ++ ilPositions b step at c2
  change List.Forall₂ (Carries A b P) (ilPositions b step) s.res at c3
  rw [List.nil_append] at c2
  rw [← c2] at c3
  have hres : s.res ≠ [] := by
    intro h
    rw [h] at c3
    cases h2 : s.pos with
    | nil => exact hne h2
    | cons a l => rw [h2] at c3; cases c3
  obtain ⟨s1, h1, _, hx, ho⟩ := get_ok hg
  rcases h1 with ⟨_, hs1⟩ | ⟨h1, _⟩
  swap
  · exact absurd h1 hres
  rw [hs1] at hx ho
  subst hx
  rw [c1] at ho
  obtain ⟨rd, hrd, rfl, hread⟩ := ilOrdinates_ok hb.proper hb.restraints hb.neg hsol
    (carries_run c3) ho
  have key : rd r = (Q.map fun q => q.2 * ((s.res.map rd).getD q.1 0 / P)).sum := by
    set f : ℕ × K → Bool := fun q =>
      decide (0 ≤ s.pos.getD q.1 0 ∧ s.pos.getD q.1 0 ≤ b.lens.sum) with hf
    set r0 : Result K × List (MRes K) := ⟨⟨0, [], [], fun _ => 0⟩, []⟩
    have hlen : s.pos.length = s.res.length := c3.length_eq
    have heta : ∀ q ∈ Q, (s.res.map rd).getD q.1 0 = rd (s.res.getD q.1 r0) := by
      intro q hq
      have := hQ q hq
      rw [List.getD_eq_getElem?_getD, List.getD_eq_getElem?_getD, List.getElem?_map,
        List.getElem?_eq_getElem (by omega)]
      rfl
    have hcar : ∀ q ∈ Q, Carries A b P (s.pos.getD q.1 0) (s.res.getD q.1 r0) :=
      fun q hq => forall₂_getD c3 q.1 (hQ q hq) 0 r0
    have hLM' : LM = (Q.filter f).map fun q => ilRow b q.2 (s.pos.getD q.1 0) := by
      have : ∀ (L : List (ℕ × K)) (M : List (Row K)), List.Forall₂ (fun q row =>
          row.PointIn b.lens q.2 (s.pos.getD q.1 0)) L M →
          M = L.map fun q => ilRow b q.2 (s.pos.getD q.1 0) := by
        intro L M h
        induction h with
        | nil => rfl
        | cons h _ ih => rw [List.map_cons, ← ih, PointIn.eq hb.proper h]
      exact this _ _ hLM
    have hon : ∀ q ∈ Q.filter f, runCase b.toDef A.stable A.solve A.npts
        [ilRow b P (s.pos.getD q.1 0)] = .ok (s.res.getD q.1 r0) := by
      intro q hq
      obtain ⟨hq1, hq2⟩ := List.mem_filter.1 hq
      obtain ⟨hq2, hq3⟩ := of_decide_eq_true hq2
      obtain ⟨row, k1, k2, _⟩ := hcar q hq1
      rwa [PointIn.eq hb.proper (k2 hq2 hq3)] at k1
    have hsum := hrd.comb hsol (Q.filter f) (fun q => q.2 / P)
      (fun q => ⟨"", [ilRow b P (s.pos.getD q.1 0)], [], none⟩) (fun q => s.res.getD q.1 r0)
      hon LM ?_ r hr hb.presc (hns _)
    · rw [hsum, lsum]
      have hoff : ∀ q ∈ Q, f q = false → rd (s.res.getD q.1 r0) = 0 := by
        intro q hq hfq
        obtain ⟨row, k1, _, k3⟩ := hcar q hq
        have := of_decide_eq_false hfq
        rw [not_and_or, not_le, not_le] at this
        rw [k3 this] at k1
        exact hrd.off hsol hb.presc hns k1
      clear hsum hon hLM' hcar hLM hr
      induction Q with
      | nil => rfl
      | cons q Q ih =>
        have ih' := ih (fun a ha => hQ a (List.mem_cons_of_mem _ ha))
          (fun a ha => heta a (List.mem_cons_of_mem _ ha))
          (fun a ha => hoff a (List.mem_cons_of_mem _ ha))
        rw [List.map_cons, List.sum_cons, ← ih', heta q List.mem_cons_self]
        cases hfq : f q with
        | true =>
          rw [List.filter_cons_of_pos hfq, List.map_cons, List.sum_cons]
          ring
        | false =>
          rw [List.filter_cons_of_neg (by simp [hfq]), hoff q List.mem_cons_self hfq]
          simp
    · intro ls hls
      have h2 : ∀ q ∈ Q.filter f, ls q = [⟨(b.localCoords (s.pos.getD q.1 0)).1,
          .pl P (b.localCoords (s.pos.getD q.1 0)).2⟩] := by
        intro q hq
        have h3 := hls q hq
        have h4 := setLoads_points b.toDef b [()] (fun _ => P) (fun _ => s.pos.getD q.1 0)
        simp only [List.map_cons, List.map_nil] at h3 h4
        rw [h4] at h3
        exact (Except.ok.inj h3).symm
      rw [hLM', setLoads_points b.toDef b (Q.filter f)
        (fun q : ℕ × K => q.2) fun q : ℕ × K => s.pos.getD q.1 0]
      congr 1
      unfold combLoads
      clear hls hon hLM' hLM
      generalize Q.filter f = L at h2
      induction L with
      | nil => rfl
      | cons q L ih =>
        rw [List.map_cons, List.flatMap_cons,
          ← ih fun a ha => h2 a (List.mem_cons_of_mem _ ha), h2 q List.mem_cons_self]
        simp only [if_true, List.map_cons, List.map_nil, SpanLoad.scale, Load.scale,
          List.singleton_append]
        rw [div_mul_cancel₀ _ hP]
  rw [← key]
  exact hread LM r hr

/-! ### Examples -/

/-- A simple span of length 2. -/
def exIL : BeamB ℚ :=
  ⟨[2], [.const 6], [none], [none], [.FF], [-1, 0, -1, 0], [none, none, none, none], [], 1, 2,
    [0, 2], 1⟩

theorem exIL_forIL : exIL.ForIL := by
  refine ⟨⟨⟨rfl, rfl, rfl, rfl, rfl, by decide +kernel, by decide +kernel⟩, by decide +kernel, ?_⟩,
    rfl, ?_, ?_⟩
  · intro L hL
    simp [exIL] at hL
    rw [hL]
    norm_num
  · intro x hx h
    simp [exIL] at hx
    rcases hx with rfl | rfl | rfl | rfl <;> simp at h ⊢
  · intro v hv
    simp [exIL] at hv

theorem exIL_nonsingular (LM : List (Row ℚ)) (s : System ℚ)
    (h : ({ exIL.toDef with LM := LM } : BeamDef ℚ).system = .ok s) : s.Nonsingular :=
  exSimple_nonsingular none none LM s h

/-- An analyser for that span: the displacements under loads at 0, 1 and 2. -/
def exILA : Analyser ℚ :=
  ⟨fun _ => true, listSolver [fun _ => 0, fun p => [0, -1 / 24, 0, 1 / 24].getD p 0,
    fun p => [0, -1 / 8, 0, 1 / 8].getD p 0], 4⟩

theorem exILA_sound : exILA.solve.Sound := listSolver_sound _

theorem pair_of_map {α β γ : Type*} {x : α × Except PyErr β} {f : α → β → γ} {y : γ}
    (h : x.2.toOption.map (f x.1) = some y) : ∃ s v, x = (s, .ok v) ∧ f s v = y := by
  obtain ⟨s, v⟩ := x
  cases v with
  | error e => cases h
  | ok v => exact ⟨s, v, rfl, Option.some.inj h⟩

/-- C60 at the simple span: influence lines at 0, 1, 2 for the moment at midspan and the
reaction on the left, and the analysis of a load of 3 at midspan (position 1). -/
example : ∃ (s s1 s2 : ILState ℚ) (x eta eta' : List ℚ) (r : Result ℚ × List (MRes ℚ)),
    (ILState.new exIL).create exILA (some 1) 1 = (s, .ok ()) ∧ s.pos ≠ [] ∧
    s.get exILA 1 .M = (s1, .ok (x, eta)) ∧ s.get exILA 0 .R = (s2, .ok (x, eta')) ∧
    x = [0, 1, 2] ∧ eta = [0, 1 / 2, 0] ∧ eta' = [1, 1 / 2, 0] ∧
    runCase exIL.toDef exILA.stable exILA.solve exILA.npts [⟨1, 2, [3, 1, 0]⟩] = .ok r ∧
    List.Forall₂ (fun (q : ℕ × ℚ) (row : Row ℚ) => row.PointIn exIL.lens q.2 (x.getD q.1 0))
      (([(1, 3)] : List (ℕ × ℚ)).filter fun q => 0 ≤ x.getD q.1 0 ∧
        x.getD q.1 0 ≤ exIL.lens.sum) [⟨1, 2, [3, 1, 0]⟩] ∧
    (r.2.getD 0 ⟨0, 0, 0, 0, 0, 0⟩).M 3 = 3 * (eta.getD 1 0 / 1) ∧
    r.1.r = [3 * (eta'.getD 1 0 / 1), 3 / 2] := by
  obtain ⟨s, u, hs, h1, h2, h3⟩ : ∃ s u,
      (ILState.new exIL).create exILA (some 1) 1 = (s, .ok u) ∧ s.pos ≠ [] ∧
      (s.get exILA 1 .M).2.toOption = some ([0, 1, 2], [0, 1 / 2, 0]) ∧
      (s.get exILA 0 .R).2.toOption = some ([0, 1, 2], [1, 1 / 2, 0]) := by
    obtain ⟨s, u, h, hh⟩ := pair_of_map (x := (ILState.new exIL).create exILA (some 1) 1)
      (f := fun s _ => (s.pos, (s.get exILA 1 .M).2.toOption, (s.get exILA 0 .R).2.toOption))
      (y := ([0, 1, 2], some ([0, 1, 2], [0, 1 / 2, 0]), some ([0, 1, 2], [1, 1 / 2, 0])))
      (by decide +kernel)
    simp only [Prod.mk.injEq] at hh
    exact ⟨s, u, h, by rw [hh.1]; simp, hh.2.1, hh.2.2⟩
  obtain ⟨r, hr, hv⟩ := ok_of_map
    (x := runCase exIL.toDef exILA.stable exILA.solve exILA.npts [⟨1, 2, [3, 1, 0]⟩])
    (f := fun r => ((r.2.getD 0 ⟨0, 0, 0, 0, 0, 0⟩).M 3, r.1.r))
    (y := (3 / 2, [3 / 2, 3 / 2])) (by decide +kernel)
  simp only [Prod.mk.injEq] at hv
  refine ⟨s, (s.get exILA 1 .M).1, (s.get exILA 0 .R).1, _, _, _, r, hs, h1,
    Prod.ext rfl (ok_of_toOption h2), Prod.ext rfl (ok_of_toOption h3), rfl, rfl, rfl, hr, ?_, ?_, ?_⟩
  · have e : ([(1, 3)] : List (ℕ × ℚ)).filter (fun q => 0 ≤ ([0, 1, 2] : List ℚ).getD q.1 0 ∧
        ([0, 1, 2] : List ℚ).getD q.1 0 ≤ exIL.lens.sum) = [(1, 3)] := by decide +kernel
    rw [e]
    refine .cons ⟨0, by simp [exIL], 1, rfl, ?_⟩ .nil
    simp [exIL]
  · rw [hv.1]
    norm_num
  · rw [hv.2]
    norm_num

/-- **C61 fails** when the influence lines are created a second time: the positions are added
to those of the first creation, and four positions come with two ordinates. -/
theorem C61_recreate_violation :
    ∃ (A : Analyser ℚ) (b : BeamB ℚ) (s s' : ILState ℚ) (x eta : List ℚ), A.solve.Sound ∧
      b.ForIL ∧ Reach A b s 2 ∧ s.get A 1 .M = (s', .ok (x, eta)) ∧ x = [0, 2, 0, 2] ∧
      eta = [0, 0] := by
  obtain ⟨s, u, hs, s1, u1, hs1, h2⟩ : ∃ s u,
      (ILState.new exIL).create exILA (some 2) 1 = (s, .ok u) ∧ ∃ s1 u1,
      s.create exILA (some 2) 1 = (s1, .ok u1) ∧
      (s1.get exILA 1 .M).2.toOption = some ([0, 2, 0, 2], [0, 0]) := by
    obtain ⟨s, u, h, hh⟩ := pair_of_map (x := (ILState.new exIL).create exILA (some 2) 1)
      (f := fun s _ => (s.create exILA (some 2) 1).2.toOption.map fun _ =>
        ((s.create exILA (some 2) 1).1.get exILA 1 .M).2.toOption)
      (y := some (some ([0, 2, 0, 2], [0, 0])))
      (by decide +kernel)
    obtain ⟨s1, u1, h1, hh1⟩ := pair_of_map (x := s.create exILA (some 2) 1)
      (f := fun s1 _ => (s1.get exILA 1 .M).2.toOption) (y := some ([0, 2, 0, 2], [0, 0])) hh
    exact ⟨s, u, h, s1, u1, h1, hh1⟩
  exact ⟨exILA, exIL, s1, (s1.get exILA 1 .M).1, _, _, exILA_sound, exIL_forIL,
    .create _ _ (.create _ _ .new hs) hs1, Prod.ext rfl (ok_of_toOption h2), rfl, rfl⟩

end PyCBA
