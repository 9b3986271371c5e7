import Verif.Nonlinear.Cases

/-!
C93: the verdict of the nonlinear analyses.
-/

set_option linter.unusedSectionVars false
set_option linter.unusedSimpArgs false

namespace PyCBA

variable {K : Type*} [Field K] [LinearOrder K] [IsStrictOrderedRing K]

namespace NL

/-- The update says `true` exactly if a hinge was added; none is lost. -/
theorem updateNode_hinged (c : NL K) (lab : K) (s : NLState K × Bool) (j : ℕ) :
    (s.2 = true → (c.updateNode lab s j).2 = true) ∧
    ((c.updateNode lab s j).2 = false → (c.updateNode lab s j).1.hinged = s.1.hinged) := by
  unfold updateNode
  dsimp only
  split_ifs <;> simp_all

theorem updateR_hinged (c : NL K) (lab : K) (st : NLState K)
    (h : (c.updateR lab st).2 = false) : (c.updateR lab st).1.hinged = st.hinged := by
  have key : ∀ (l : List ℕ) (s : NLState K × Bool),
      (l.foldl (c.updateNode lab) s).2 = false →
      s.2 = false ∧ (l.foldl (c.updateNode lab) s).1.hinged = s.1.hinged := by
    intro l
    induction l with
    | nil => intro s h; exact ⟨h, rfl⟩
    | cons j l ih =>
      intro s h
      obtain ⟨h1, h2⟩ := ih _ h
      obtain ⟨k1, k2⟩ := c.updateNode_hinged lab s j
      refine ⟨?_, h2.trans (k2 h1)⟩
      by_contra hs
      have := k1 (by simpa using hs)
      rw [this] at h1
      cases h1
  exact (key _ _ h).2

/-- The tangent stiffness of a state cannot be inverted: the solver refuses it. -/
def Refused (c : NL K) (solve : Solver K) (st : NLState K) : Prop :=
  ∃ F e, solve c.nDof (c.bcK (c.assembleK (c.kR st.R))) F = .error e

theorem isMechanism_nil (c : NL K) (deficient : ℕ → (ℕ → ℕ → K) → Bool) :
    c.isMechanism deficient [] = false := by
  simp [isMechanism, clusterHinges, clusters]

theorem loop_verdict (c : NL K) (solve : Solver K)
    (deficient : ℕ → (ℕ → ℕ → K) → Bool) (F : ℕ → K) (lamMax : K) (every fuel : ℕ) :
    ∀ (step : ℕ) (lam : K) (u : ℕ → K) (hist : List (K × (ℕ → K))) (st : NLState K)
      (res : NLResult K), c.isMechanism deficient st.hinged = false → (every = 1 → hist.length = step) →
      c.loop solve deficient F lamMax every fuel step lam u hist st = .ok res →
      (res.collapsed = true → c.isMechanism deficient res.st.hinged = true ∨ c.Refused solve res.st) ∧
      (res.collapsed = false → c.isMechanism deficient res.st.hinged = false ∧
        (lamMax ≤ res.lam ∨ (every = 1 → res.hist.length = step + fuel))) := by
  induction fuel with
  | zero =>
    intro step lam u hist st res hm hh h
    cases h
    exact ⟨by simp, fun _ => ⟨hm, Or.inr hh⟩⟩
  | succ fuel ih =>
    intro step lam u hist st res hm hh h
    rw [NL.loop] at h
    split at h
    · split at h
      · cases h
      · simp only at h
        split at h
        · rename_i e he
          cases h
          exact ⟨fun _ => Or.inr ⟨_, _, he⟩, by simp⟩
        · split at h
          · rename_i hc
            cases h
            exact ⟨fun _ => Or.inl hc.2, by simp⟩
          · rename_i hc
            have := ih _ _ _ _ _ res ?_ ?_ h
            · obtain ⟨a, b⟩ := this
              refine ⟨a, fun hf => ⟨(b hf).1, (b hf).2.imp_right fun k he => ?_⟩⟩
              rw [k he]
              omega
            · by_contra hb
              have hb := eq_true_of_ne_false hb
              apply hc
              refine ⟨?_, hb⟩
              by_contra hn
              have hn := eq_false_of_ne_true hn
              rw [updateR_hinged c _ _ hn] at hb
              rw [hm] at hb
              cases hb
            · intro he
              subst he
              simp [hh rfl, Nat.mod_one]
    · rename_i hlt
      cases h
      exact ⟨by simp, fun _ => ⟨hm, Or.inl (not_lt.1 hlt)⟩⟩

end NL

/-- **C93**, proportional loads: a run that reports collapse ended with hinges that fail the
mechanism test, or with a stiffness that the solver refuses; a run that reports none ended
with hinges that pass it, having reached the load factor asked for or made all its steps
(each of which is in the history if every step is recorded). -/
theorem C93_static (c : NL K) (solve : Solver K) (deficient : ℕ → (ℕ → ℕ → K) → Bool)
    (LM : List (Row K)) (lamMax : K) (every maxSteps : ℕ) (res : NLResult K)
    (h : c.analyze solve deficient LM lamMax every maxSteps = .ok res) :
    (res.collapsed = true → c.isMechanism deficient res.st.hinged = true ∨ c.Refused solve res.st) ∧
    (res.collapsed = false → c.isMechanism deficient res.st.hinged = false ∧
      (lamMax ≤ res.lam ∨ (every = 1 → res.hist.length = maxSteps))) := by
  unfold NL.analyze at h
  split at h
  · cases h
  · have := c.loop_verdict solve deficient _ lamMax every maxSteps 0 0 _ [] NL.start res
      (c.isMechanism_nil deficient) (fun _ => rfl) h
    simpa using this

namespace NL

theorem reload_refused (c : NL K) (solve : Solver K) (F : ℕ → K) (df lab : K) (st : NLState K)
    (h : (c.reload solve F df lab st).singular = true) :
    c.Refused solve (c.reload solve F df lab st).st := by
  unfold reload at h ⊢
  simp only at h ⊢
  split
  · rename_i e he
    exact ⟨_, _, he⟩
  · rename_i u hu
    rw [hu] at h
    cases h

theorem firstSub_refused (c : NL K) (solve : Solver K) (F : ℕ → K) (df lab : K) (n : ℕ) :
    ∀ st : NLState K, (c.firstSub solve F df lab n st).singular = true →
      c.Refused solve (c.firstSub solve F df lab n st).st := by
  induction n with
  | zero => intro st h; cases h
  | succ n ih =>
    intro st h
    rw [firstSub] at h ⊢
    by_cases hs : (c.reload solve F df lab st).singular = true
    · rw [if_pos hs]
      exact c.reload_refused solve F df lab st hs
    · rw [if_neg hs] at h ⊢
      exact ih _ h

theorem laterSub_refused (c : NL K) (solve : Solver K) (Fp F : ℕ → K) (df lab : K) (n : ℕ) :
    ∀ (st : NLState K) (r : NLStep K), c.laterSub solve Fp F df lab n st = .ok r →
      r.singular = true → c.Refused solve r.st := by
  induction n with
  | zero => intro st r h hs; cases h; cases hs
  | succ n ih =>
    intro st r h hs
    rw [laterSub] at h
    split at h
    · cases h
    · rename_i st' _
      simp only at h
      split at h
      · cases h
        exact c.reload_refused solve F df lab st' hs
      · exact ih _ _ h hs

theorem moveLoop_verdict (c : NL K) (solve : Solver K)
    (deficient : ℕ → (ℕ → ℕ → K) → Bool) (axles : List (K × K)) (nsub every : ℕ) (xs : List K) :
    ∀ (i : ℕ) (last : K) (Fp : ℕ → K) (hist : List (K × (ℕ → K))) (st : NLState K)
      (res : NLResult K),
      c.moveLoop solve deficient axles nsub every xs i last Fp hist st = .ok res →
      (res.collapsed = true → c.isMechanism deficient res.st.hinged = true ∨ c.Refused solve res.st) ∧
      (res.collapsed = true → res.lam ∈ xs) ∧
      (res.collapsed = false → res.lam = (last :: xs).getLast (by simp)) := by
  induction xs with
  | nil =>
    intro i last Fp hist st res h
    cases h
    exact ⟨by simp, by simp, by simp⟩
  | cons x xs ih =>
    intro i last Fp hist st res h
    rw [moveLoop] at h
    simp only at h
    split at h
    · cases h
    · rename_i r hr
      split at h
      · rename_i hs
        cases h
        exact ⟨fun _ => Or.inr (c.laterSub_refused solve _ _ _ _ _ _ _ hr hs), by simp, by simp⟩
      · split at h
        · rename_i hc
          cases h
          exact ⟨fun _ => Or.inl hc.2, by simp, by simp⟩
        · obtain ⟨a, b, d⟩ := ih _ _ _ _ _ res h
          refine ⟨a, fun hc => List.mem_cons_of_mem _ (b hc), fun hc => ?_⟩
          rw [d hc]
          exact (List.getLast_cons (a := last) (l := x :: xs) (by simp)).symm

end NL

/-- **C93**, moving loads: collapse is reported only with hinges that fail the mechanism
test or a stiffness that the solver refuses, and at one of the positions travelled; without
collapse the vehicle went to the last position.  That no collapse means no mechanism is
false: `C93_moving_violation`. -/
theorem C93_moving_partial [FloorRing K] (c : NL K) (solve : Solver K)
    (deficient : ℕ → (ℕ → ℕ → K) → Bool) (axles : List (K × K)) (vL step : K) (nsub every : ℕ)
    (res : NLResult K)
    (h : c.analyzeMoving solve deficient axles vL step nsub every = .ok res) :
    (res.collapsed = true → c.isMechanism deficient res.st.hinged = true ∨ c.Refused solve res.st) ∧
    ∃ n : ℕ, res.lam = n * step ∧ (n : K) < (c.total + vL + step / 2) / step ∧
      (res.collapsed = false → (c.total + vL + step / 2) / step ≤ n + 1) := by
  unfold NL.analyzeMoving at h
  split at h
  · cases h
  · split at h
    · cases h
    · split at h
      · cases h
      · rename_i x xs hx
        set Q := (c.total + vL + step / 2) / step with hQ
        have hmem : ∀ y ∈ x :: xs, ∃ n : ℕ, y = n * step ∧ (n : K) < Q := by
          intro y hy
          rw [← hx, arange0, List.mem_map] at hy
          obtain ⟨n, hn, rfl⟩ := hy
          refine ⟨n, rfl, ?_⟩
          rw [List.mem_range, ← hQ] at hn
          by_contra hcon
          have : ⌈Q⌉ ≤ (n : ℤ) := Int.ceil_le.2 (by push_cast; exact not_lt.1 hcon)
          omega
        have hlast : ∃ n : ℕ, (x :: xs).getLast (by simp) = n * step ∧ (n : K) < Q ∧ Q ≤ n + 1 := by
          have h1 : arange0 (c.total + vL + step / 2) step ≠ [] := by rw [hx]; simp
          have h2 : (x :: xs).getLast (by simp) = (arange0 (c.total + vL + step / 2) step).getLast h1 := by
            congr 1
            exact hx.symm
          have hl : (arange0 (c.total + vL + step / 2) step).length = ⌈Q⌉.toNat := by simp [arange0, hQ]
          have hpos : 0 < ⌈Q⌉.toNat := by
            rw [← hl]
            exact List.length_pos_of_ne_nil h1
          refine ⟨⌈Q⌉.toNat - 1, ?_, ?_, ?_⟩
          · rw [h2, List.getLast_eq_getElem]
            simp only [arange0, List.getElem_map, List.getElem_range, List.length_map,
              List.length_range, hQ]
          · by_contra hcon
            have : ⌈Q⌉ ≤ ((⌈Q⌉.toNat - 1 : ℕ) : ℤ) := Int.ceil_le.2 (by
              push_cast
              exact_mod_cast not_lt.1 hcon)
            omega
          · have h3 := Int.le_ceil Q
            have h4 : (⌈Q⌉ : K) = ((⌈Q⌉.toNat - 1 : ℕ) : K) + 1 := by
              have : ⌈Q⌉ = ((⌈Q⌉.toNat - 1 : ℕ) : ℤ) + 1 := by omega
              exact_mod_cast this
            rw [← h4]
            exact h3
        simp only at h
        split at h
        · rename_i hs
          cases h
          obtain ⟨n, hn, hq⟩ := hmem x (by simp)
          exact ⟨fun _ => Or.inr (c.firstSub_refused solve _ _ _ _ _ hs), n, hn, hq, by simp⟩
        · obtain ⟨a, b, d⟩ := c.moveLoop_verdict solve deficient axles nsub every xs _ _ _ _ _ res h
          refine ⟨a, ?_⟩
          cases hc : res.collapsed with
          | true =>
            obtain ⟨n, hn, hq⟩ := hmem _ (List.mem_cons_of_mem _ (b hc))
            exact ⟨n, hn, hq, by simp⟩
          | false =>
            obtain ⟨n, hn, hq, hq'⟩ := hlast
            exact ⟨n, (d hc).trans hn, hq, fun _ => hq'⟩

/-- A cantilever held at the right whose middle part is much stronger than its ends. -/
def exWeakEnds : Except PyErr (NL ℚ) :=
  NL.new [1, 2, 1] (.all (.const 1)) [0, 0, 0, 0, 0, 0, -1, -1] (.each [1, 1000, 1]) none (1 / 10) 1

/-- The increments of `exWeakEnds` under a load of 4 that comes on at the free end in two
parts. -/
def exWeakSolver : Solver ℚ :=
  listSolver [fun p => ([-128 / 3, 16, -27, 15, -40 / 3, 12, -11 / 3, 7, 0, 0] : List ℚ).getD p 0,
    fun p => ([-715 / 6, 77 / 2, -81, 33, -148 / 3, 30, -65 / 3, 25, 0, 0] : List ℚ).getD p 0,
    fun p => ([128 / 3, -16, 27, -15, 40 / 3, -12, 11 / 3, -7, 0, 0] : List ℚ).getD p 0, fun _ => 0]

set_option synthInstance.maxHeartbeats 200000 in
set_option synthInstance.maxSize 2000 in
/-- **C93 fails** for moving loads: hinges that form between the parts in which a load comes
on are never tested.  The load puts hinges into the clamp and a second section of a
cantilever, which allow a motion and fail the program's own mechanism test; yet the vehicle
travels on and no collapse is reported. -/
theorem C93_moving_violation :
    ∃ (c : NL ℚ) (solve : Solver ℚ) (res : NLResult ℚ), exWeakEnds = .ok c ∧ solve.Sound ∧
      c.analyzeMoving solve (fun _ _ => true) [(4, 0)] 0 4 2 1 = .ok res ∧
      res.collapsed = false ∧ res.lam = 4 ∧ res.st.hinged = [4, 1] ∧
      c.isMechanism (fun _ _ => true) res.st.hinged = true ∧
      c.Motion res.st.hinged (fun j => 4 - (j : ℚ)) := by
  obtain ⟨r, hr, h⟩ := ok_of_map (x := match exWeakEnds with
      | .error e => .error e
      | .ok c => match c.analyzeMoving exWeakSolver (fun _ _ => true) [(4, 0)] 0 4 2 1 with
        | .error e => .error e
        | .ok res => .ok (c, res))
    (f := fun r => (r.2.collapsed, r.2.lam, r.2.st.hinged,
      r.1.isMechanism (fun _ _ => true) r.2.st.hinged, r.1.mesh.elemL, r.1.bc))
    (y := (false, 4, [4, 1], true, [1, 1, 1, 1], [8, 9])) (by decide +kernel)
  split at hr
  · cases hr
  · rename_i c hc
    split at hr
    · cases hr
    · rename_i res hres
      cases hr
      simp only [Prod.mk.injEq] at h
      obtain ⟨h1, h2, h3, h4, h5, h6⟩ := h
      have hn : c.nElem = 4 := by rw [NL.nElem, h5]; rfl
      refine ⟨c, _, res, hc, listSolver_sound _, hres, h1, h2, h3, h4, ⟨⟨0, by omega, by norm_num⟩, ?_, ?_, ?_, ?_⟩⟩
      · intro j hj hb
        rw [h6] at hb
        have : j = 4 := by simp at hb; omega
        subst this
        norm_num
      · intro j j0 j1 _
        rw [hn] at j1
        simp only [NL.chord, NL.len, h5]
        interval_cases j <;> norm_num
      · intro j hj _ hb
        rw [h6] at hb
        simp at hb
        omega
      · intro j hj hj' hb
        rw [h6] at hb
        rw [h3] at hj'
        simp at hb hj'
        omega

set_option synthInstance.maxHeartbeats 200000 in
set_option synthInstance.maxSize 2000 in
/-- C93: a run on `exCantL` that ends without collapse after
its three steps, with a hinge. -/
example : ∃ c res, exCantL = .ok c ∧
    c.analyze exCantLSolver (fun _ _ => true) [⟨1, 2, [9, 1]⟩] 1 1 3 = .ok res ∧
    res.collapsed = false ∧ res.st.hinged = [0] ∧ res.hist.length = 3 ∧ res.lam < 1 := by
  obtain ⟨r, hr, h⟩ := ok_of_map (x := match exCantL with
      | .error e => .error e
      | .ok c => match c.analyze exCantLSolver (fun _ _ => true) [⟨1, 2, [9, 1]⟩] 1 1 3 with
        | .error e => .error e
        | .ok res => .ok (c, res))
    (f := fun r => (r.2.collapsed, r.2.st.hinged, r.2.hist.length, decide (r.2.lam < 1)))
    (y := (false, [0], 3, true)) (by decide +kernel)
  split at hr
  · cases hr
  · rename_i c hc
    split at hr
    · cases hr
    · rename_i res hres
      cases hr
      simp only [Prod.mk.injEq, decide_eq_true_eq] at h
      exact ⟨c, res, hc, hres, h⟩

end PyCBA
