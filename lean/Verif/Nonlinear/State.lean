import Verif.Nonlinear.Model
import Mathlib.Tactic.Linarith
import Mathlib.Tactic.FieldSimp
import Mathlib.Tactic.Ring

/-!
C65, C66: stiffness factors and hinge events of the nonlinear analyses.
-/

set_option linter.unusedSectionVars false
set_option linter.unusedSimpArgs false

namespace PyCBA

open Matrix

variable {K : Type*} [Field K] [LinearOrder K] [IsStrictOrderedRing K]

namespace NL

/-- The factor of a section lies between the residual value and one. -/
theorem factor_mem (c : NL K) (hq : c.q ≤ 1) (g : K) (j : ℕ) :
    c.q ≤ c.factor g j ∧ c.factor g j ≤ 1 := by
  unfold factor
  split
  · exact ⟨hq, le_rfl⟩
  · rename_i h1
    split
    · exact ⟨le_rfl, hq⟩
    · rename_i h2
      push Not at h1 h2
      have hd : 0 < 1 - c.gy j := by linarith
      have hr0 : 0 ≤ (g - c.gy j) / (1 - c.gy j) := div_nonneg (by linarith) hd.le
      have hr1 : (g - c.gy j) / (1 - c.gy j) ≤ 1 := by rw [div_le_one hd]; linarith
      constructor <;> nlinarith

/-- What every state of an analysis satisfies: factors in range, events in order of load
factor and not beyond `lab`, one event of each kind per node, each naming an existing
node and its place, and a hinge only after a yield. -/
structure Inv (c : NL K) (lab : K) (st : NLState K) : Prop where
  range : ∀ i a, c.q ≤ st.R i a ∧ st.R i a ≤ 1
  order : st.events.Pairwise fun e f => e.factor ≤ f.factor
  bound : ∀ e ∈ st.events, e.factor ≤ lab
  yields : ((st.events.filter fun e => !e.plastic).map HingeEvent.node) = st.yielded.reverse
  hinges : ((st.events.filter fun e => e.plastic).map HingeEvent.node) = st.hinged.reverse
  nodupY : st.yielded.Nodup
  nodupH : st.hinged.Nodup
  place : ∀ e ∈ st.events, e.node < c.nNodes ∧ e.location = c.x e.node
  yieldFirst : ∀ e ∈ st.events, e.plastic = true → c.gy e.node ≤ 1 →
    ∃ f ∈ st.events, f.node = e.node ∧ f.plastic = false ∧ f.factor ≤ e.factor

theorem Inv.mono {c : NL K} {lab lab' : K} {st : NLState K} (h : c.Inv lab st) (hl : lab ≤ lab') :
    c.Inv lab' st :=
  { h with bound := fun e he => (h.bound e he).trans hl }

theorem Inv.mom {c : NL K} {lab : K} {st : NLState K} (h : c.Inv lab st) (m : ℕ → K) :
    c.Inv lab { st with mom := m } :=
  ⟨h.range, h.order, h.bound, h.yields, h.hinges, h.nodupY, h.nodupH, h.place, h.yieldFirst⟩

theorem inv_start (c : NL K) (hq : c.q ≤ 1) (lab : K) : c.Inv lab start :=
  ⟨fun _ _ => ⟨hq, le_rfl⟩, List.Pairwise.nil, by simp [start], by simp [start], by simp [start],
    by simp [start], by simp [start], by simp [start], by simp [start]⟩

theorem Inv.setR {c : NL K} {lab : K} {st : NLState K} (h : c.Inv lab st) (g : ℕ → K) (j : ℕ) (v : K)
    (hv : c.q ≤ v ∧ v ≤ 1) : c.Inv lab { st with gmax := g, R := NL.setR st.R j v } := by
  refine ⟨fun i a => ?_, h.order, h.bound, h.yields, h.hinges, h.nodupY, h.nodupH, h.place,
    h.yieldFirst⟩
  by_cases hc : i = j - 1 ∧ a = (if 0 < j then 1 else 0)
  · have : NL.setR st.R j v i a = v := if_pos hc
    simp only [this]
    exact hv
  · have : NL.setR st.R j v i a = st.R i a := if_neg hc
    simp only [this]
    exact h.range i a

theorem Inv.yield {c : NL K} {lab : K} {st : NLState K} (h : c.Inv lab st) (j : ℕ)
    (hj : j < c.nNodes) (hn : j ∉ st.yielded) :
    c.Inv lab { st with yielded := j :: st.yielded, events := st.events ++ [⟨lab, c.x j, j, false⟩] } := by
  refine ⟨h.range, ?_, ?_, ?_, ?_, ?_, h.nodupH, ?_, ?_⟩
  · rw [List.pairwise_append]
    refine ⟨h.order, List.pairwise_singleton _ _, ?_⟩
    intro a ha b hb
    rw [List.mem_singleton] at hb
    subst hb
    exact h.bound a ha
  · intro e he
    rcases List.mem_append.1 he with he | he
    · exact h.bound e he
    · rw [List.mem_singleton] at he
      subst he
      exact le_rfl
  · simp [List.filter_append, h.yields]
  · simp [List.filter_append, h.hinges]
  · exact List.nodup_cons.2 ⟨hn, h.nodupY⟩
  · intro e he
    rcases List.mem_append.1 he with he | he
    · exact h.place e he
    · rw [List.mem_singleton] at he
      subst he
      exact ⟨hj, rfl⟩
  · intro e he hp hg
    rcases List.mem_append.1 he with he | he
    · obtain ⟨f, hf, h1⟩ := h.yieldFirst e he hp hg
      exact ⟨f, List.mem_append_left _ hf, h1⟩
    · rw [List.mem_singleton] at he
      subst he
      cases hp

theorem Inv.hinge {c : NL K} {lab : K} {st : NLState K} (h : c.Inv lab st) (j : ℕ)
    (hj : j < c.nNodes) (hn : j ∉ st.hinged) (hy : c.gy j ≤ 1 → j ∈ st.yielded) :
    c.Inv lab { st with hinged := j :: st.hinged, events := st.events ++ [⟨lab, c.x j, j, true⟩] } := by
  refine ⟨h.range, ?_, ?_, ?_, ?_, h.nodupY, ?_, ?_, ?_⟩
  · rw [List.pairwise_append]
    refine ⟨h.order, List.pairwise_singleton _ _, ?_⟩
    intro a ha b hb
    rw [List.mem_singleton] at hb
    subst hb
    exact h.bound a ha
  · intro e he
    rcases List.mem_append.1 he with he | he
    · exact h.bound e he
    · rw [List.mem_singleton] at he
      subst he
      exact le_rfl
  · simp [List.filter_append, h.yields]
  · simp [List.filter_append, h.hinges]
  · exact List.nodup_cons.2 ⟨hn, h.nodupH⟩
  · intro e he
    rcases List.mem_append.1 he with he | he
    · exact h.place e he
    · rw [List.mem_singleton] at he
      subst he
      exact ⟨hj, rfl⟩
  · intro e he hp hg
    rcases List.mem_append.1 he with he | he
    · obtain ⟨f, hf, h1⟩ := h.yieldFirst e he hp hg
      exact ⟨f, List.mem_append_left _ hf, h1⟩
    · rw [List.mem_singleton] at he
      subst he
      have h2 := hy hg
      rw [← List.mem_reverse, ← h.yields] at h2
      obtain ⟨f, hf, hfe⟩ := List.mem_map.1 h2
      rw [List.mem_filter] at hf
      exact ⟨f, List.mem_append_left _ hf.1, hfe, by simpa using hf.2, h.bound f hf.1⟩

/-- One node of the update. -/
theorem updateNode_spec (c : NL K) (hq : c.q ≤ 1) (lab : K) (s : NLState K × Bool) (j : ℕ)
    (hj : j < c.nNodes) (h : c.Inv lab s.1) :
    c.Inv lab (c.updateNode lab s j).1 ∧
    (c.updateNode lab s j).1.mom = s.1.mom ∧
    (∀ i, (c.updateNode lab s j).1.gmax i
      = if i = j then max (s.1.gmax j) (c.gamma s.1.mom j) else s.1.gmax i) := by
  obtain ⟨st, nh⟩ := s
  simp only at h
  set g := c.gamma st.mom j with hg
  -- the first block
  set st1 : NLState K := if st.gmax j ≤ g then
      { st with
        gmax := fun i => if i = j then g else st.gmax i
        R := NL.setR st.R j (c.factor g j) }
    else { st with R := NL.setR st.R j 1 } with hst1
  have i1 : c.Inv lab st1 := by
    rw [hst1]
    split
    · exact h.setR _ j _ (c.factor_mem hq g j)
    · exact h.setR st.gmax j 1 ⟨hq, le_rfl⟩
  have m1 : st1.mom = st.mom := by rw [hst1]; split <;> rfl
  have g1 : ∀ i, st1.gmax i = if i = j then max (st.gmax j) g else st.gmax i := by
    intro i
    rw [hst1]
    split
    · rename_i hle
      simp only [max_eq_right hle]
    · rename_i hle
      push Not at hle
      rw [max_eq_left hle.le]
      split
      · rename_i hij
        subst hij
        rfl
      · rfl
  set st2 : NLState K := if c.gy j ≤ g ∧ j ∉ st1.yielded then
      { st1 with
        yielded := j :: st1.yielded
        events := st1.events ++ [⟨lab, c.x j, j, false⟩] }
    else st1 with hst2
  have i2 : c.Inv lab st2 := by
    rw [hst2]
    split
    · rename_i hc
      exact i1.yield j hj hc.2
    · exact i1
  have m2 : st2.mom = st.mom := by rw [hst2]; split <;> exact m1
  have g2 : ∀ i, st2.gmax i = if i = j then max (st.gmax j) g else st.gmax i := by
    intro i
    rw [← g1 i, hst2]
    split <;> rfl
  have y2 : c.gy j ≤ g → j ∈ st2.yielded := by
    intro hgy
    rw [hst2]
    split
    · simp
    · rename_i hc
      by_contra hn
      exact hc ⟨hgy, hn⟩
  have hup : c.updateNode lab (st, nh) j = if 1 ≤ g ∧ j ∉ st2.hinged then
      ({ st2 with
          hinged := j :: st2.hinged
          events := st2.events ++ [⟨lab, c.x j, j, true⟩] }, true)
    else (st2, nh) := rfl
  rw [hup]
  split
  · rename_i hc
    refine ⟨i2.hinge j hj hc.2 fun hgy => y2 (hgy.trans hc.1), m2, g2⟩
  · exact ⟨i2, m2, g2⟩

/-- The whole update: the invariant is kept, the moments are not touched, and the demand
of every node becomes the larger of what it was and the present one. -/
theorem updateR_spec (c : NL K) (hq : c.q ≤ 1) (lab : K) (st : NLState K) (h : c.Inv lab st) :
    c.Inv lab (c.updateR lab st).1 ∧ (c.updateR lab st).1.mom = st.mom ∧
    (∀ j < c.nNodes, (c.updateR lab st).1.gmax j = max (st.gmax j) (c.gamma st.mom j)) ∧
    ∀ j, c.nNodes ≤ j → (c.updateR lab st).1.gmax j = st.gmax j := by
  have key : ∀ n ≤ c.nNodes, ∀ s : NLState K × Bool, c.Inv lab s.1 →
      c.Inv lab ((List.range n).foldl (c.updateNode lab) s).1 ∧
      ((List.range n).foldl (c.updateNode lab) s).1.mom = s.1.mom ∧
      (∀ j < n, ((List.range n).foldl (c.updateNode lab) s).1.gmax j
        = max (s.1.gmax j) (c.gamma s.1.mom j)) ∧
      ∀ j, n ≤ j → ((List.range n).foldl (c.updateNode lab) s).1.gmax j = s.1.gmax j := by
    intro n
    induction n with
    | zero => intro _ s hs; exact ⟨hs, rfl, by simp, by simp⟩
    | succ n ih =>
      intro hn s hs
      obtain ⟨a1, a2, a3, a4⟩ := ih (by omega) s hs
      rw [List.range_succ, List.foldl_append, List.foldl_cons, List.foldl_nil]
      obtain ⟨b1, b2, b3⟩ := c.updateNode_spec hq lab _ n (by omega) a1
      refine ⟨b1, b2.trans a2, ?_, ?_⟩
      · intro j hj
        rw [b3]
        split
        · rename_i hjn
          subst hjn
          rw [a2, a4 j le_rfl]
        · exact a3 j (by omega)
      · intro j hj
        rw [b3, if_neg (by omega)]
        exact a4 j (by omega)
  exact key _ le_rfl (st, false) h

theorem updateR_gmax_le (c : NL K) (hq : c.q ≤ 1) (lab : K) (st : NLState K) (h : c.Inv lab st)
    (j : ℕ) : st.gmax j ≤ (c.updateR lab st).1.gmax j := by
  obtain ⟨-, -, h3, h4⟩ := c.updateR_spec hq lab st h
  by_cases hj : j < c.nNodes
  · rw [h3 j hj]
    exact le_max_left _ _
  · rw [h4 j (by omega)]

theorem dl_pos (c : NL K) (R : ℕ → Fin 2 → K) {lam lamMax : K} (h : lam < lamMax) :
    0 < c.dl R lam lamMax ∧ lam + c.dl R lam lamMax ≤ lamMax := by
  unfold dl
  simp only
  constructor
  · apply lt_min
    · split
      · positivity
      · split <;> positivity
    · linarith
  · have := min_le_right (if 1 / 2 < c.rMin R then (1 : K) / 10 else
      if 1 / 4 < c.rMin R then 1 / 100 else 1 / 1000) (lamMax - lam)
    linarith

end NL

/-- What `loop` guarantees from any state on. -/
theorem NL.loop_spec (c : NL K) (hq : c.q ≤ 1) (solve : Solver K)
    (deficient : ℕ → (ℕ → ℕ → K) → Bool) (F : ℕ → K) (lamMax : K) (every fuel : ℕ) :
    ∀ (step : ℕ) (lam : K) (u : ℕ → K) (hist : List (K × (ℕ → K))) (st : NLState K)
      (res : NLResult K), c.Inv lam st →
      (∀ h ∈ hist, ∀ j < c.nNodes, c.gamma h.2 j ≤ st.gmax j) →
      c.loop solve deficient F lamMax every fuel step lam u hist st = .ok res →
      c.Inv res.lam res.st ∧ (∀ j, st.gmax j ≤ res.st.gmax j) ∧ lam ≤ res.lam ∧
      ∀ h ∈ res.hist, ∀ j < c.nNodes, c.gamma h.2 j ≤ res.st.gmax j := by
  induction fuel with
  | zero =>
    intro step lam u hist st res hI hH h
    cases h
    exact ⟨hI, fun _ => le_rfl, le_rfl, hH⟩
  | succ fuel ih =>
    intro step lam u hist st res hI hH h
    rw [NL.loop] at h
    split at h
    · rename_i hlt
      split at h
      · cases h
      · simp only at h
        obtain ⟨hd, -⟩ := c.dl_pos st.R hlt
        split at h
        · cases h
          refine ⟨by simpa using hI, fun _ => le_rfl, by simp, hH⟩
        · rename_i du hdu
          have hI' := (hI.mono (by linarith : lam ≤ lam + c.dl st.R lam lamMax)).mom
            (fun j => st.mom j + c.moments (c.kR st.R) du j)
          obtain ⟨u1, u2, u3, u4⟩ := c.updateR_spec hq _ _ hI'
          have u5 := fun j => c.updateR_gmax_le hq _ _ hI' j
          simp only at u5
          split at h
          · cases h
            refine ⟨u1, u5, by simp only; linarith, ?_⟩
            intro h hh j hj
            exact (hH h hh j hj).trans (u5 j)
          · have := ih _ _ _ _ _ res u1 ?_ h
            · obtain ⟨r1, r2, r3, r4⟩ := this
              exact ⟨r1, fun j => (u5 j).trans (r2 j), by linarith, r4⟩
            · intro h hh j hj
              split at hh
              · rcases List.mem_append.1 hh with hh | hh
                · exact (hH h hh j hj).trans (u5 j)
                · rw [List.mem_singleton] at hh
                  subst hh
                  simp only [u2]
                  rw [u3 j hj]
                  exact le_max_right _ _
              · exact (hH h hh j hj).trans (u5 j)
    · cases h
      exact ⟨hI, fun _ => le_rfl, le_rfl, hH⟩

/-! ### Moving loads -/

namespace NL

theorem reload_spec (c : NL K) (hq : c.q ≤ 1) (solve : Solver K) (F : ℕ → K) (df lab : K)
    (st : NLState K) (h : c.Inv lab st) :
    c.Inv lab (c.reload solve F df lab st).st ∧
      ∀ j, st.gmax j ≤ (c.reload solve F df lab st).st.gmax j := by
  have h1 := (c.updateR_spec hq lab st h).1
  have h2 := c.updateR_gmax_le hq lab st h
  unfold reload
  simp only
  split
  · exact ⟨h1, h2⟩
  · exact ⟨h1.mom _, h2⟩

theorem unload_spec (c : NL K) (solve : Solver K) (F : ℕ → K) (df lab : K) (st st' : NLState K)
    (h : c.Inv lab st) (hu : c.unload solve F df st = .ok st') :
    c.Inv lab st' ∧ st'.gmax = st.gmax := by
  unfold unload at hu
  split at hu
  · cases hu
  · cases hu
    exact ⟨h.mom _, rfl⟩

theorem firstSub_spec (c : NL K) (hq : c.q ≤ 1) (solve : Solver K) (F : ℕ → K) (df lab : K) (n : ℕ) :
    ∀ st : NLState K, c.Inv lab st → c.Inv lab (c.firstSub solve F df lab n st).st ∧
      ∀ j, st.gmax j ≤ (c.firstSub solve F df lab n st).st.gmax j := by
  induction n with
  | zero => intro st h; exact ⟨h, fun _ => le_rfl⟩
  | succ n ih =>
    intro st h
    obtain ⟨a1, a2⟩ := c.reload_spec hq solve F df lab st h
    unfold firstSub
    simp only
    split
    · exact ⟨a1, a2⟩
    · obtain ⟨b1, b2⟩ := ih _ a1
      exact ⟨b1, fun j => (a2 j).trans (b2 j)⟩

theorem laterSub_spec (c : NL K) (hq : c.q ≤ 1) (solve : Solver K) (Fp F : ℕ → K) (df lab : K) (n : ℕ) :
    ∀ (st : NLState K) (r : NLStep K), c.Inv lab st → c.laterSub solve Fp F df lab n st = .ok r →
      c.Inv lab r.st ∧ ∀ j, st.gmax j ≤ r.st.gmax j := by
  induction n with
  | zero =>
    intro st r h hr
    cases hr
    exact ⟨h, fun _ => le_rfl⟩
  | succ n ih =>
    intro st r h hr
    unfold laterSub at hr
    split at hr
    · cases hr
    · rename_i st' hst'
      obtain ⟨u1, u2⟩ := c.unload_spec solve Fp df lab st st' h hst'
      obtain ⟨a1, a2⟩ := c.reload_spec hq solve F df lab st' u1
      rw [u2] at a2
      simp only at hr
      split at hr
      · cases hr
        exact ⟨a1, a2⟩
      · obtain ⟨b1, b2⟩ := ih _ _ a1 hr
        exact ⟨b1, fun j => (a2 j).trans (b2 j)⟩

/-- What `moveLoop` guarantees from any state on, for positions in order. -/
theorem moveLoop_spec (c : NL K) (hq : c.q ≤ 1) (solve : Solver K)
    (deficient : ℕ → (ℕ → ℕ → K) → Bool) (axles : List (K × K)) (nsub every : ℕ) (xs : List K) :
    ∀ (i : ℕ) (last : K) (Fp : ℕ → K) (hist pre : List (K × (ℕ → K))) (st : NLState K)
      (res : NLResult K), c.Inv last st → (last :: xs).Pairwise (· ≤ ·) →
      (∀ h ∈ hist, ∀ j < c.nNodes, c.gamma h.2 j ≤ st.gmax j) →
      c.moveLoop solve deficient axles nsub every xs i last Fp (pre ++ hist) st = .ok res →
      c.Inv res.lam res.st ∧ (∀ j, st.gmax j ≤ res.st.gmax j) ∧ last ≤ res.lam ∧
      ∃ tail, res.hist = pre ++ tail ∧
        ∀ h ∈ tail, ∀ j < c.nNodes, c.gamma h.2 j ≤ res.st.gmax j := by
  induction xs with
  | nil =>
    intro i last Fp hist pre st res hI _ hH h
    cases h
    exact ⟨hI, fun _ => le_rfl, le_rfl, hist, rfl, hH⟩
  | cons x xs ih =>
    intro i last Fp hist pre st res hI hp hH h
    rw [moveLoop] at h
    simp only at h
    have hlx : last ≤ x := (List.pairwise_cons.1 hp).1 x (by simp)
    have hp' := (List.pairwise_cons.1 hp).2
    split at h
    · cases h
    · rename_i r hr
      obtain ⟨a1, a2⟩ := c.laterSub_spec hq solve _ _ _ _ _ _ _ (hI.mono hlx) hr
      split at h
      · cases h
        exact ⟨a1, a2, hlx, hist, rfl, fun h hh j hj => (hH h hh j hj).trans (a2 j)⟩
      · obtain ⟨u1, u2, u3, u4⟩ := c.updateR_spec hq x _ a1
        have u5 := fun j => (a2 j).trans (c.updateR_gmax_le hq x _ a1 j)
        split at h
        · cases h
          exact ⟨u1, u5, hlx, hist, rfl, fun h hh j hj => (hH h hh j hj).trans (u5 j)⟩
        · have happ : (if 0 < every ∧ i % every = 0 then
              (pre ++ hist) ++ [(x, (c.updateR x r.st).1.mom)] else pre ++ hist)
              = pre ++ (if 0 < every ∧ i % every = 0 then
                hist ++ [(x, (c.updateR x r.st).1.mom)] else hist) := by
            split <;> simp
          rw [happ] at h
          have := ih _ _ _ _ _ _ res u1 hp' ?_ h
          · obtain ⟨r1, r2, r3, r4⟩ := this
            exact ⟨r1, fun j => (u5 j).trans (r2 j), hlx.trans r3, r4⟩
          · intro h hh j hj
            split at hh
            · rcases List.mem_append.1 hh with hh | hh
              · exact (hH h hh j hj).trans (u5 j)
              · rw [List.mem_singleton] at hh
                subst hh
                simp only [u2]
                rw [u3 j hj]
                exact le_max_right _ _
            · exact (hH h hh j hj).trans (u5 j)

theorem arange0_pairwise [FloorRing K] (stop step : K) (h : stop ≠ 0 → 0 < stop / step → 0 < step) :
    (arange0 stop step).Pairwise (· ≤ ·) := by
  unfold arange0
  by_cases hs : 0 < step
  · rw [List.pairwise_map]
    refine List.Pairwise.imp ?_ List.pairwise_lt_range
    intro a b hab
    have : (a : K) ≤ b := by exact_mod_cast hab.le
    exact mul_le_mul_of_nonneg_right this hs.le
  · have : ⌈stop / step⌉.toNat = 0 := by
      by_contra hne
      have h1 : 0 < ⌈stop / step⌉ := by omega
      have h2 : 0 < stop / step := Int.ceil_pos.1 h1
      exact hs (h (by rintro rfl; simp at h2) h2)
    rw [this]
    simp

end NL

/-- What both analyses guarantee at their end, with the part of the history whose moments
were checked: all of it under proportional load, all but the record of the first
position under moving load. -/
structure NL.Outcome (c : NL K) (res : NLResult K) (checked : List (K × (ℕ → K))) : Prop where
  inv : c.Inv res.lam res.st
  demand : ∀ h ∈ checked, ∀ j < c.nNodes, |h.2 j| / c.mp j ≤ res.st.gmax j
  nonneg : ∀ j, 0 ≤ res.st.gmax j

theorem NL.analyze_outcome (c : NL K) (hq : c.q ≤ 1) (solve : Solver K)
    (deficient : ℕ → (ℕ → ℕ → K) → Bool) (LM : List (Row K)) (lamMax : K) (every maxSteps : ℕ)
    (res : NLResult K) (h : c.analyze solve deficient LM lamMax every maxSteps = .ok res) :
    c.Outcome res res.hist := by
  unfold NL.analyze at h
  split at h
  · cases h
  · obtain ⟨h1, h2, h3, h4⟩ := c.loop_spec hq solve deficient _ lamMax every maxSteps 0 0 _ [] NL.start
      res (NL.inv_start c hq 0) (by simp) h
    exact ⟨h1, h4, h2⟩

theorem NL.moving_outcome [FloorRing K] (c : NL K) (hq : c.q ≤ 1) (solve : Solver K)
    (deficient : ℕ → (ℕ → ℕ → K) → Bool) (axles : List (K × K)) (vL step : K) (nsub every : ℕ)
    (hst : 0 < step) (res : NLResult K)
    (h : c.analyzeMoving solve deficient axles vL step nsub every = .ok res) :
    c.Outcome res (if 0 < every then res.hist.drop 1 else res.hist) := by
  unfold NL.analyzeMoving at h
  rw [if_neg hst.ne'] at h
  split at h
  · cases h
  · have hp := NL.arange0_pairwise (c.total + vL + step / 2) step fun _ _ => hst
    split at h
    · cases h
    · rename_i x xs hx
      rw [hx] at hp
      simp only at h
      obtain ⟨a1, a2⟩ := c.firstSub_spec hq solve (c.vehicleF axles x) (1 / nsub) x nsub NL.start
        (NL.inv_start c hq x)
      split at h
      · cases h
        exact ⟨a1, by simp, a2⟩
      · obtain ⟨r1, r2, -, t, ht, r4⟩ := c.moveLoop_spec hq solve deficient axles nsub every xs 1 x _ []
          (if 0 < every then [(x, _)] else []) _ res a1 hp (by simp)
          (by rw [List.append_nil]; exact h)
        refine ⟨r1, ?_, fun j => (a2 j).trans (r2 j)⟩
        rw [ht]
        have r4' : ∀ h ∈ t, ∀ j < c.nNodes, |h.2 j| / c.mp j ≤ res.st.gmax j := r4
        split
        · simpa using r4'
        · simpa using r4'

/-- **C65**: under proportional and under moving loads, of any number of steps and
whatever the solver returns, every stiffness factor ends between the residual value `q`
and one, and the recorded demand of every node is at least its demand at every recorded
step (under moving load: except the record of the first position, see
`C65_first_position_violation`). -/
theorem C65_bounds [FloorRing K] (c : NL K) (hq : c.q ≤ 1) (solve : Solver K)
    (deficient : ℕ → (ℕ → ℕ → K) → Bool) (every : ℕ) (res : NLResult K) :
    (∀ LM lamMax maxSteps, c.analyze solve deficient LM lamMax every maxSteps = .ok res →
      (∀ i a, c.q ≤ res.st.R i a ∧ res.st.R i a ≤ 1) ∧
      ∀ h ∈ res.hist, ∀ j < c.nNodes, |h.2 j| / c.mp j ≤ res.st.gmax j) ∧
    (∀ axles vL step nsub, 0 < step →
      c.analyzeMoving solve deficient axles vL step nsub every = .ok res →
      (∀ i a, c.q ≤ res.st.R i a ∧ res.st.R i a ≤ 1) ∧
      ∀ h ∈ (if 0 < every then res.hist.drop 1 else res.hist), ∀ j < c.nNodes,
        |h.2 j| / c.mp j ≤ res.st.gmax j) := by
  refine ⟨fun LM lamMax maxSteps h => ?_, fun axles vL step nsub hs h => ?_⟩
  · have := c.analyze_outcome hq solve deficient LM lamMax every maxSteps res h
    exact ⟨this.inv.range, this.demand⟩
  · have := c.moving_outcome hq solve deficient axles vL step nsub every hs res h
    exact ⟨this.inv.range, this.demand⟩

/-- **C65**: from any state of an analysis to its end, or over one update, the recorded
demand of no node decreases. -/
theorem C65_demand_monotone (c : NL K) (hq : c.q ≤ 1) (solve : Solver K)
    (deficient : ℕ → (ℕ → ℕ → K) → Bool) (every : ℕ) (res : NLResult K) (st : NLState K) (lam : K)
    (hI : c.Inv lam st) (j : ℕ) :
    st.gmax j ≤ (c.updateR lam st).1.gmax j ∧
    (∀ F lamMax fuel step u, c.loop solve deficient F lamMax every fuel step lam u [] st = .ok res →
      st.gmax j ≤ res.st.gmax j) ∧
    ∀ axles nsub xs i Fp, (lam :: xs).Pairwise (· ≤ ·) →
      c.moveLoop solve deficient axles nsub every xs i lam Fp [] st = .ok res →
      st.gmax j ≤ res.st.gmax j := by
  refine ⟨c.updateR_gmax_le hq lam st hI j, fun F lamMax fuel step u h => ?_,
    fun axles nsub xs i Fp hp h => ?_⟩
  · exact (c.loop_spec hq solve deficient F lamMax every fuel step lam u [] st res hI (by simp) h).2.1 j
  · exact (c.moveLoop_spec hq solve deficient axles nsub every xs i lam Fp [] [] st res hI hp
      (by simp) h).2.1 j

/-- **C66**: whatever the analysis, its hinge events are in order of load factor (front
axle position), not beyond the reported final one; no node has two events of a kind;
every event names an existing node and its coordinate; and a node with a plastic hinge
has yielded no later, if its yield moment does not exceed its plastic moment. -/
theorem C66_events [FloorRing K] (c : NL K) (hq : c.q ≤ 1) (solve : Solver K)
    (deficient : ℕ → (ℕ → ℕ → K) → Bool) (every : ℕ) (res : NLResult K)
    (h : (∃ LM lamMax maxSteps, c.analyze solve deficient LM lamMax every maxSteps = .ok res) ∨
      ∃ axles vL step nsub, 0 < step ∧
        c.analyzeMoving solve deficient axles vL step nsub every = .ok res) :
    res.st.events.Pairwise (fun e f => e.factor ≤ f.factor) ∧
    (∀ e ∈ res.st.events, e.factor ≤ res.lam) ∧
    (res.st.events.map fun e => (e.node, e.plastic)).Nodup ∧
    (∀ e ∈ res.st.events, e.node < c.nNodes ∧ e.location = c.x e.node) ∧
    ∀ e ∈ res.st.events, e.plastic = true → c.gy e.node ≤ 1 →
      ∃ f ∈ res.st.events, f.node = e.node ∧ f.plastic = false ∧ f.factor ≤ e.factor := by
  have hI : c.Inv res.lam res.st := by
    rcases h with ⟨LM, lamMax, maxSteps, h⟩ | ⟨axles, vL, step, nsub, hs, h⟩
    · exact (c.analyze_outcome hq solve deficient LM lamMax every maxSteps res h).inv
    · exact (c.moving_outcome hq solve deficient axles vL step nsub every hs res h).inv
  refine ⟨hI.order, hI.bound, ?_, hI.place, ?_⟩
  · have hY : ((res.st.events.filter fun e => !e.plastic).map HingeEvent.node).Nodup := by
      rw [hI.yields, List.nodup_reverse]; exact hI.nodupY
    have hH : ((res.st.events.filter fun e => e.plastic).map HingeEvent.node).Nodup := by
      rw [hI.hinges, List.nodup_reverse]; exact hI.nodupH
    generalize res.st.events = l at hY hH
    induction l with
    | nil => simp
    | cons e l ih =>
      rw [List.map_cons, List.nodup_cons]
      cases hp : e.plastic
      · simp only [List.filter_cons, hp, Bool.not_false, if_true, List.map_cons, Bool.false_eq_true,
          if_false, List.nodup_cons] at hY hH
        refine ⟨?_, ih hY.2 hH⟩
        intro hm
        obtain ⟨f, hf, he⟩ := List.mem_map.1 hm
        simp only [Prod.mk.injEq] at he
        apply hY.1
        refine List.mem_map.2 ⟨f, List.mem_filter.2 ⟨hf, by simp [he.2]⟩, he.1⟩
      · simp only [List.filter_cons, hp, Bool.not_true, if_true, List.map_cons, Bool.false_eq_true,
          if_false, List.nodup_cons] at hY hH
        refine ⟨?_, ih hY hH.2⟩
        intro hm
        obtain ⟨f, hf, he⟩ := List.mem_map.1 hm
        simp only [Prod.mk.injEq] at he
        apply hH.1
        refine List.mem_map.2 ⟨f, List.mem_filter.2 ⟨hf, by simp [he.2]⟩, he.1⟩
  · exact hI.yieldFirst

end PyCBA
