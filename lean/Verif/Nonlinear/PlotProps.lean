import Verif.Nonlinear.Plots
import Verif.Nonlinear.Balance
import Verif.Nonlinear.Cases
import Verif.Analysis.State
import Verif.Results.Props
import Mathlib.Data.List.Sort

/-!
C141: the plots of the nonlinear analysis, and the sign of its moments.
-/

set_option linter.unusedSectionVars false
set_option linter.unusedSimpArgs false

namespace PyCBA

variable {K : Type*} [Field K] [LinearOrder K] [IsStrictOrderedRing K]

/-! ### Specification -/

/-- A curve through the values at all nodes. -/
def NL.Through (c : NL K) (m : ℕ → K) (l : List (K × K)) : Prop :=
  l.length = c.nNodes ∧ ∀ j < c.nNodes, l[j]? = some (c.x j, m j)

/-- A cubic that fits the displacements and rotations of the ends of element `i`. -/
structure NL.Fits (c : NL K) (u : ℕ → K) (i : ℕ) (a b d e : K) : Prop where
  left : a = u (2 * i)
  leftR : b = u (2 * i + 1)
  right : a + b * c.len i + d * c.len i ^ 2 + e * c.len i ^ 3 = u (2 * i + 2)
  rightR : b + 2 * d * c.len i + 3 * e * c.len i ^ 2 = u (2 * i + 3)

/-- A run of either analysis. -/
def NL.Run [FloorRing K] (c : NL K) (res : NLResult K) : Prop :=
  ∃ (solve : Solver K) (deficient : ℕ → (ℕ → ℕ → K) → Bool) (every : ℕ),
    (∃ LM lamMax maxSteps, c.analyze solve deficient LM lamMax every maxSteps = .ok res) ∨
      ∃ axles vL step nsub, 0 < step ∧ c.analyzeMoving solve deficient axles vL step nsub every = .ok res

/-! ### Helpers -/

theorem NL.through (c : NL K) (m : ℕ → K) : c.Through m (c.nodeCurve m) := by
  refine ⟨by simp [NL.nodeCurve], fun j hj => ?_⟩
  simp [NL.nodeCurve, hj]

theorem NL.Geo.x_lt {c : NL K} (g : c.Geo) {a b : ℕ} (hab : a < b) (hb : b ≤ c.nElem) : c.x a < c.x b := by
  have h1 := g.step a (by omega)
  have h2 := g.mono (a := a + 1) (b := b) hab hb
  linarith [h1.1, h1.2]

theorem NL.Geo.x_inj {c : NL K} (g : c.Geo) {a b : ℕ} (ha : a ≤ c.nElem) (hb : b ≤ c.nElem)
    (h : c.x a = c.x b) : a = b := by
  rcases lt_trichotomy a b with h1 | h1 | h1
  · exact absurd h (g.x_lt h1 hb).ne
  · exact h1
  · exact absurd h.symm (g.x_lt h1 ha).ne

theorem npInterp_head (p : K × K) (t : List (K × K)) (ht : ∀ q ∈ t, p.1 ≤ q.1) :
    npInterp p.1 (p :: t) = .ok p.2 := by
  cases t with
  | nil => rfl
  | cons q t =>
    unfold npInterp
    rw [if_pos le_rfl]

/-- `np.interp` at a node. -/
theorem NL.Geo.interp {c : NL K} (g : c.Geo) (y : ℕ → K) (j : ℕ) (hj : j ≤ c.nElem) :
    npInterp (c.x j) (c.nodeCurve y) = .ok (y j) := by
  have e : c.nodeCurve y = (List.range j).map (fun i => (c.x i, y i)) ++
      (c.x j, y j) :: (List.range (c.nElem - j)).map (fun i => (c.x (j + 1 + i), y (j + 1 + i))) := by
    unfold NL.nodeCurve
    rw [g.nodes, show c.nElem + 1 = j + ((c.nElem - j) + 1) by omega, List.range_add, List.map_append,
      List.map_map, List.range_succ_eq_map]
    simp only [List.map_cons, List.map_map, Function.comp_def, Nat.add_zero]
    congr 2
    refine List.map_congr_left fun i _ => ?_
    rw [show j + i.succ = j + 1 + i by omega]
  rw [e, npInterp_skip]
  · refine npInterp_head (c.x j, y j) _ ?_
    intro q hq
    obtain ⟨i, hi, rfl⟩ := List.mem_map.1 hq
    rw [List.mem_range] at hi
    exact g.mono (by omega) (by omega)
  · intro a ha
    obtain ⟨i, hi, rfl⟩ := List.mem_map.1 ha
    rw [List.mem_range] at hi
    exact g.x_lt hi hj
  · exact le_rfl

theorem mem_eventMarks (events : List (HingeEvent K)) (y : HingeEvent K → K) (p : K × K) :
    ((∃ s ∈ eventMarks events y, s.label = "Plastic hinge" ∧ p ∈ s.pts) ↔
      ∃ e ∈ events, e.plastic = true ∧ p = (e.location, y e)) ∧
    ((∃ s ∈ eventMarks events y, s.label = "Initial yield" ∧ p ∈ s.pts) ↔
      ∃ e ∈ events, e.plastic = false ∧ p = (e.location, y e)) ∧
    ∀ s ∈ eventMarks events y, s.label = "Plastic hinge" ∨ s.label = "Initial yield" := by
  have hm : ∀ s, s ∈ eventMarks events y ↔
      ((s.label = "Initial yield" ∧ s.pts = (events.filter fun e => e.plastic == false).map
          fun e => (e.location, y e)) ∧ (events.filter fun e => e.plastic == false) ≠ []) ∨
      ((s.label = "Plastic hinge" ∧ s.pts = (events.filter fun e => e.plastic == true).map
          fun e => (e.location, y e)) ∧ (events.filter fun e => e.plastic == true) ≠ []) := by
    intro s
    unfold eventMarks
    simp only [List.flatMap_cons, List.flatMap_nil, List.append_nil, List.mem_append]
    have aux : ∀ (b : Bool) (lab : String), (s ∈ (if (events.filter fun e => e.plastic == b).isEmpty then []
        else [(⟨lab, (events.filter fun e => e.plastic == b).map fun e => (e.location, y e)⟩ : Scatter K)])) ↔
        (s.label = lab ∧ s.pts = (events.filter fun e => e.plastic == b).map
          fun e => (e.location, y e)) ∧ (events.filter fun e => e.plastic == b) ≠ [] := by
      intro b lab
      by_cases h : (events.filter fun e => e.plastic == b) = []
      · rw [if_pos (by rw [h]; rfl)]
        simp [h]
      · rw [if_neg (by rw [List.isEmpty_iff]; exact h)]
        rw [List.mem_singleton]
        constructor
        · rintro rfl; exact ⟨⟨rfl, rfl⟩, h⟩
        · rintro ⟨⟨h1, h2⟩, -⟩
          cases s
          simp only at h1 h2
          rw [h1, h2]
    exact or_congr (aux false _) (aux true _)
  have hne : "Plastic hinge" ≠ "Initial yield" := by decide
  refine ⟨?_, ?_, ?_⟩
  · constructor
    · rintro ⟨s, hs, hl, hp⟩
      rcases (hm s).1 hs with ⟨⟨h1, -⟩, -⟩ | ⟨⟨-, h2⟩, -⟩
      · exact absurd (hl.symm.trans h1) hne
      · rw [h2] at hp
        obtain ⟨e, he, rfl⟩ := List.mem_map.1 hp
        obtain ⟨he1, he2⟩ := List.mem_filter.1 he
        exact ⟨e, he1, by simpa using he2, rfl⟩
    · rintro ⟨e, he, hp, rfl⟩
      have : e ∈ events.filter fun e => e.plastic == true := List.mem_filter.2 ⟨he, by simpa using hp⟩
      exact ⟨⟨_, _⟩, (hm _).2 (Or.inr ⟨⟨rfl, rfl⟩, List.ne_nil_of_mem this⟩), rfl,
        List.mem_map.2 ⟨e, this, rfl⟩⟩
  · constructor
    · rintro ⟨s, hs, hl, hp⟩
      rcases (hm s).1 hs with ⟨⟨-, h2⟩, -⟩ | ⟨⟨h1, -⟩, -⟩
      · rw [h2] at hp
        obtain ⟨e, he, rfl⟩ := List.mem_map.1 hp
        obtain ⟨he1, he2⟩ := List.mem_filter.1 he
        exact ⟨e, he1, by simpa using he2, rfl⟩
      · exact absurd (h1.symm.trans hl) hne
    · rintro ⟨e, he, hp, rfl⟩
      have : e ∈ events.filter fun e => e.plastic == false := List.mem_filter.2 ⟨he, by simpa using hp⟩
      exact ⟨⟨_, _⟩, (hm _).2 (Or.inl ⟨⟨rfl, rfl⟩, List.ne_nil_of_mem this⟩), rfl,
        List.mem_map.2 ⟨e, this, rfl⟩⟩
  · intro s hs
    rcases (hm s).1 hs with ⟨⟨h1, -⟩, -⟩ | ⟨⟨h1, -⟩, -⟩
    · exact Or.inr h1
    · exact Or.inl h1

/-- The events of a run, by their nodes. -/
theorem NL.Run.place [FloorRing K] {c : NL K} {res : NLResult K} (h : c.Run res) (hq : c.q ≤ 1) :
    ∀ e ∈ res.st.events, e.node < c.nNodes ∧ e.location = c.x e.node := by
  obtain ⟨solve, deficient, every, h⟩ := h
  exact (C66_events c hq solve deficient every res h).2.2.2.1

/-! ### The moments -/

/-- **C141**, `plot_moments`: a curve through the moments at the nodes for every recorded step, in
order, then one for the final moments, positive moments below the zero line; the plastic moment,
where given, on both sides of it. -/
theorem C141_moments (c : NL K) (us : UnitSystem) (Mp : Option K) (res : NLResult K) :
    ∃ z hs f, (c.plotMoments us Mp res).panel.curves = z :: hs ++ [f] ∧ (∀ p ∈ z, p.2 = 0) ∧
      List.Forall₂ (fun (h : K × (ℕ → K)) l => c.Through h.2 l) res.hist hs ∧
      c.Through res.st.mom f ∧ (c.plotMoments us Mp res).panel.inverted = true ∧
      (∀ M, Mp = some M → (c.plotMoments us Mp res).levels = [M, -M]) ∧
      (Mp = none → (c.plotMoments us Mp res).levels = []) := by
  refine ⟨zeroLine c.lastX, res.hist.map fun h => c.nodeCurve h.2, c.nodeCurve res.st.mom, rfl, ?_, ?_,
    c.through _, rfl, ?_, ?_⟩
  · intro p hp
    simp only [zeroLine, List.mem_cons, List.not_mem_nil, or_false] at hp
    rcases hp with rfl | rfl <;> rfl
  · rw [List.forall₂_map_right_iff]
    exact List.forall₂_same.2 fun h _ => c.through _
  · rintro M rfl; rfl
  · rintro rfl; rfl

/-- **C141**, signs: before yield the reported moment at every node but the first is the bending
moment, positive in sagging: `EI` times the curvature of the cubic on the element to the left. -/
theorem C141_sign_partial (c : NL K) (solve : Solver K) (hs : solve.Sound)
    (deficient : ℕ → (ℕ → ℕ → K) → Bool) (LM : List (Row K)) (lamMax : K) (every maxSteps : ℕ)
    (res : NLResult K) (hr : c.analyze solve deficient LM lamMax every maxSteps = .ok res)
    (hy : res.st.yielded = []) (i : ℕ) (hi : i < c.nElem) (hl : c.len i ≠ 0) (a b d e : K)
    (hf : c.Fits res.u i a b d e) :
    res.st.mom (i + 1) = c.EI.getD i 0 * (2 * d + 6 * e * c.len i) := by
  obtain ⟨-, -, -, hm, -⟩ := C83_elastic c solve hs deficient LM lamMax every maxSteps res hr hy
  rw [hm]
  unfold NL.moments
  rw [if_neg (by omega), if_neg (by omega), Nat.add_sub_cancel]
  simp only [NL.ke, nlFF, Matrix.mulVec, dotProduct, Fin.sum_univ_four, Matrix.smul_apply, smul_eq_mul,
    elemVec]
  simp
  rw [← hf.left, ← hf.leftR, ← hf.right, ← hf.rightR]
  field_simp
  ring

/-- **C141 fails** at the first node: before yield the moment reported and drawn there is the
negative of the bending moment. -/
theorem C141_sign_violation (c : NL K) (solve : Solver K) (hs : solve.Sound)
    (deficient : ℕ → (ℕ → ℕ → K) → Bool) (LM : List (Row K)) (lamMax : K) (every maxSteps : ℕ)
    (res : NLResult K) (hr : c.analyze solve deficient LM lamMax every maxSteps = .ok res)
    (hy : res.st.yielded = []) (hn : 0 < c.nElem) (hl : c.len 0 ≠ 0) (a b d e : K)
    (hf : c.Fits res.u 0 a b d e) :
    res.st.mom 0 = -(c.EI.getD 0 0 * (2 * d)) := by
  obtain ⟨-, -, -, hm, -⟩ := C83_elastic c solve hs deficient LM lamMax every maxSteps res hr hy
  rw [hm]
  unfold NL.moments
  rw [if_neg (by omega), if_pos rfl]
  simp only [NL.ke, nlFF, Matrix.mulVec, dotProduct, Fin.sum_univ_four, Matrix.smul_apply, smul_eq_mul,
    elemVec]
  simp
  have h1 := hf.left
  have h2 := hf.leftR
  have h3 := hf.right
  have h4 := hf.rightR
  simp only [Nat.mul_zero, Nat.zero_add] at h1 h2 h3 h4
  rw [← h1, ← h2, ← h3, ← h4]
  field_simp
  ring

/-! ### Hinges -/

/-- **C141**, `plot_hinge_history`: a hinge marker for every plastic hinge, at its node and the load
factor (or position) at which it formed, a yield marker for every first yield, and no others; the
axis says which of the two is drawn, and the line of the full load is drawn for factors alone. -/
theorem C141_history [FloorRing K] (c : NL K) (hq : c.q ≤ 1) (us : UnitSystem) (moving : Bool)
    (res : NLResult K) (h : c.Run res) (p : K × K) :
    ((∃ s ∈ (c.plotHingeHistory us moving res).marks, s.label = "Plastic hinge" ∧ p ∈ s.pts) ↔
      ∃ e ∈ res.st.events, e.plastic = true ∧ p = (c.x e.node, e.factor)) ∧
    ((∃ s ∈ (c.plotHingeHistory us moving res).marks, s.label = "Initial yield" ∧ p ∈ s.pts) ↔
      ∃ e ∈ res.st.events, e.plastic = false ∧ p = (c.x e.node, e.factor)) ∧
    (∀ s ∈ (c.plotHingeHistory us moving res).marks,
      s.label = "Plastic hinge" ∨ s.label = "Initial yield") ∧
    (c.plotHingeHistory us true res).ylabel = "Front axle position" ++ unitSuffix us.length ∧
    (c.plotHingeHistory us true res).curves = [] ∧
    (c.plotHingeHistory us false res).ylabel = "Load factor" ∧
    (c.plotHingeHistory us false res).curves = [[(0, 1), (c.x (c.nNodes - 1), 1)]] := by
  have hp := h.place hq
  have e : (c.plotHingeHistory us moving res).marks = eventMarks res.st.events HingeEvent.factor := by
    unfold NL.plotHingeHistory
    cases moving <;> rfl
  rw [e]
  obtain ⟨h1, h2, h3⟩ := mem_eventMarks res.st.events HingeEvent.factor p
  refine ⟨h1.trans ?_, h2.trans ?_, h3, rfl, rfl, rfl, rfl⟩
  · refine exists_congr fun e => and_congr_right fun he => ?_
    rw [(hp e he).2]
  · refine exists_congr fun e => and_congr_right fun he => ?_
    rw [(hp e he).2]

/-- **C141**, `plot_beam_state`: below the beam a marker for every hinge and every yielded section,
above it an arrow with its weight for every axle on the beam and no other, all within the axes. -/
theorem C141_state [FloorRing K] (L : List K) (EI : SpanArg (Rigidity K)) (R : List K)
    (Mp : SpanArg K) (My : Option (SpanArg K)) (q ms : K) (c : NL K)
    (hc : NL.new L EI R Mp My q ms = .ok c) (hL : ∀ l ∈ L, 0 < l) (hq : c.q ≤ 1)
    (axles : List (K × K)) (res : NLResult K) (h : c.Run res) :
    (∀ p, (∃ s ∈ (c.plotBeamState (some axles) res).marks, s.label = "Plastic hinge" ∧ p ∈ s.pts) ↔
      ∃ e ∈ res.st.events, e.plastic = true ∧ p = (c.x e.node, -(1 / 2))) ∧
    (∀ p, (∃ s ∈ (c.plotBeamState (some axles) res).marks, s.label = "Initial yield" ∧ p ∈ s.pts) ↔
      ∃ e ∈ res.st.events, e.plastic = false ∧ p = (c.x e.node, -(1 / 2))) ∧
    (∀ w x, (w, x) ∈ (c.plotBeamState (some axles) res).arrows ↔
      ∃ a, (w, a) ∈ axles ∧ x = res.lam - a ∧ 0 ≤ x ∧ x ≤ L.sum) ∧
    (∀ s ∈ (c.plotBeamState (some axles) res).marks, ∀ p ∈ s.pts,
      (c.plotBeamState (some axles) res).xlo < p.1 ∧ p.1 < (c.plotBeamState (some axles) res).xhi ∧
      (c.plotBeamState (some axles) res).ylo < p.2 ∧ p.2 < (c.plotBeamState (some axles) res).yhi) ∧
    (∀ a ∈ (c.plotBeamState (some axles) res).arrows,
      (c.plotBeamState (some axles) res).xlo < a.2 ∧ a.2 < (c.plotBeamState (some axles) res).xhi ∧
      1 < (c.plotBeamState (some axles) res).yhi) ∧
    ∀ t ∈ (c.plotBeamState (some axles) res).triangles, ∀ p ∈ t,
      (c.plotBeamState (some axles) res).xlo < p.1 ∧ p.1 < (c.plotBeamState (some axles) res).xhi ∧
      (c.plotBeamState (some axles) res).ylo < p.2 := by
  obtain ⟨g, e2⟩ := NL.new_geo hc hL
  have hlast : c.lastX = L.sum := by
    unfold NL.lastX
    rw [g.nodes, Nat.add_sub_cancel, g.last, NL.total, e2]
  have hp := h.place hq
  have hxr : ∀ j ≤ c.nElem, 0 ≤ c.x j ∧ c.x j ≤ L.sum := by
    intro j hj
    refine ⟨?_, ?_⟩
    · rw [← g.first]; exact g.mono (by omega) hj
    · have := g.mono hj le_rfl
      rw [g.last, NL.total, e2] at this
      exact this
  have hpl : ∀ e ∈ res.st.events, 0 ≤ e.location ∧ e.location ≤ L.sum := by
    intro e he
    obtain ⟨h1, h2⟩ := hp e he
    rw [g.nodes] at h1
    rw [h2]
    exact hxr _ (by omega)
  have hmarks := mem_eventMarks res.st.events (fun _ => -(1 / 2 : K))
  refine ⟨fun p => ((hmarks p).1).trans ?_, fun p => ((hmarks p).2.1).trans ?_, fun w x => ?_, ?_, ?_, ?_⟩
  · refine exists_congr fun e => and_congr_right fun he => ?_
    rw [(hp e he).2]
  · refine exists_congr fun e => and_congr_right fun he => ?_
    rw [(hp e he).2]
  · unfold NL.plotBeamState
    simp only [List.mem_flatMap]
    rw [hlast]
    constructor
    · rintro ⟨a, ha, hx⟩
      by_cases hc : 0 ≤ res.lam - a.2 ∧ res.lam - a.2 ≤ L.sum
      · rw [if_pos hc, List.mem_singleton, Prod.mk.injEq] at hx
        obtain ⟨rfl, rfl⟩ := hx
        exact ⟨a.2, ha, rfl, hc⟩
      · rw [if_neg hc] at hx
        cases hx
    · rintro ⟨a, ha, rfl, hc⟩
      refine ⟨(w, a), ha, ?_⟩
      rw [if_pos hc]
      exact List.mem_singleton.2 rfl
  · intro s hs p hps
    have : ∃ e ∈ res.st.events, p = (e.location, -(1 / 2)) := by
      rcases (hmarks p).2.2 s hs with hl | hl
      · obtain ⟨e, he, -, h⟩ := (hmarks p).1.1 ⟨s, hs, hl, hps⟩
        exact ⟨e, he, h⟩
      · obtain ⟨e, he, -, h⟩ := (hmarks p).2.1.1 ⟨s, hs, hl, hps⟩
        exact ⟨e, he, h⟩
    obtain ⟨e, he, rfl⟩ := this
    obtain ⟨h1, h2⟩ := hpl e he
    unfold NL.plotBeamState
    simp only
    rw [hlast]
    refine ⟨by linarith, by linarith, by norm_num, by norm_num⟩
  · intro a ha
    unfold NL.plotBeamState at ha ⊢
    simp only [List.mem_flatMap] at ha ⊢
    obtain ⟨b, hb, hx⟩ := ha
    by_cases hc : 0 ≤ res.lam - b.2 ∧ res.lam - b.2 ≤ c.lastX
    · rw [if_pos hc, List.mem_singleton] at hx
      subst hx
      refine ⟨by simp only; linarith [hc.1], by simp only; linarith [hc.2], by norm_num⟩
    · rw [if_neg hc] at hx
      cases hx
  · intro t ht p hpt
    unfold NL.plotBeamState at ht ⊢
    simp only at ht ⊢
    obtain ⟨xs, hxs, rfl⟩ := List.mem_map.1 ht
    unfold NL.supportX at hxs
    obtain ⟨i, hi, rfl⟩ := List.mem_map.1 hxs
    rw [List.mem_range] at hi
    obtain ⟨j, hj, hxj⟩ := g.supports i (by omega)
    obtain ⟨h1, h2⟩ := hxr j hj
    have e : spanStart c.spanL i = c.x j := by rw [hxj]; rfl
    rw [e] at hpt
    rw [hlast]
    simp only [List.mem_cons, List.not_mem_nil, or_false] at hpt
    rcases hpt with rfl | rfl | rfl <;> refine ⟨?_, ?_, ?_⟩ <;> simp only <;> norm_num <;> linarith

theorem foldl_max_mem (l : List K) :
    (∀ a ∈ l, a ≤ l.foldl max 0) ∧ (l.foldl max 0 = 0 ∨ l.foldl max 0 ∈ l) := by
  have key : ∀ (l : List K) (s : K), (∀ a ∈ l, a ≤ l.foldl max s) ∧ s ≤ l.foldl max s ∧
      (l.foldl max s = s ∨ l.foldl max s ∈ l) := by
    intro l
    induction l with
    | nil => intro s; simp
    | cons b l ih =>
      intro s
      obtain ⟨h1, h2, h3⟩ := ih (max s b)
      rw [List.foldl_cons]
      refine ⟨?_, (le_max_left _ _).trans h2, ?_⟩
      · intro a ha
        rcases List.mem_cons.1 ha with rfl | ha
        · exact (le_max_right _ _).trans h2
        · exact h1 a ha
      · rcases h3 with h3 | h3
        · rw [h3]
          rcases max_choice s b with h | h
          · exact Or.inl h
          · rw [h]; exact Or.inr (by simp)
        · exact Or.inr (List.mem_cons_of_mem _ h3)
  exact ⟨(key l 0).1, (key l 0).2.2⟩

/-- **C141**, `plot_collapse` with its own scale: the shape runs through all nodes and is the deflected
shape times one positive factor, with a largest ordinate of 12 % of the length (unless nothing
moves); the dots, from left to right, are the nodes of the shape where plastic hinges have
formed. -/
theorem C141_collapse [FloorRing K] (L : List K) (EI : SpanArg (Rigidity K)) (R : List K)
    (Mp : SpanArg K) (My : Option (SpanArg K)) (q ms : K) (c : NL K)
    (hc : NL.new L EI R Mp My q ms = .ok c) (hL : ∀ l ∈ L, 0 < l) (hne : L ≠ []) (hq : c.q ≤ 1)
    (res : NLResult K) (h : c.Run res) :
    ∃ s pl, 0 < s ∧ c.plotCollapse none res = .ok pl ∧ c.Through (fun j => s * res.u (2 * j)) pl.shape ∧
      ((∃ j ≤ c.nElem, res.u (2 * j) ≠ 0) →
        (∀ j ≤ c.nElem, |s * res.u (2 * j)| ≤ 12 / 100 * L.sum) ∧
        ∃ j ≤ c.nElem, |s * res.u (2 * j)| = 12 / 100 * L.sum) ∧
      pl.hinges.Pairwise (fun a b => a.1 < b.1) ∧
      ∀ p, p ∈ pl.hinges ↔ ∃ e ∈ res.st.events, e.plastic = true ∧
        p = (c.x e.node, s * res.u (2 * e.node)) := by
  obtain ⟨g, e2⟩ := NL.new_geo hc hL
  have hlast : c.lastX = L.sum := by
    unfold NL.lastX
    rw [g.nodes, Nat.add_sub_cancel, g.last, NL.total, e2]
  have hsum : 0 < L.sum := List.sum_pos _ hL hne
  have hp := h.place hq
  set ds := (List.range c.nNodes).map fun j => |res.u (2 * j)| with hds
  set dmax := ds.foldl max 0 with hdmax
  obtain ⟨m1, m2⟩ := foldl_max_mem ds
  have hle : ∀ j ≤ c.nElem, |res.u (2 * j)| ≤ dmax := by
    intro j hj
    refine m1 _ (List.mem_map.2 ⟨j, ?_, rfl⟩)
    rw [List.mem_range, g.nodes]
    omega
  set s := c.collapseScale none res.u with hs
  have hsv : s = if 0 < dmax then 12 / 100 * L.sum / dmax else 1 := by
    rw [hs]
    unfold NL.collapseScale
    rw [hlast]
  have hspos : 0 < s := by
    rw [hsv]
    split_ifs with h0
    · positivity
    · exact one_pos
  set y : ℕ → K := fun j => res.u (2 * j) * s with hy
  set hx := ((res.st.events.filter fun e => e.plastic).map HingeEvent.location).dedup.insertionSort (· ≤ ·)
    with hhx
  have hmemx : ∀ x, x ∈ hx ↔ ∃ e ∈ res.st.events, e.plastic = true ∧ x = c.x e.node := by
    intro x
    rw [hhx, List.mem_insertionSort, List.mem_dedup, List.mem_map]
    constructor
    · rintro ⟨e, he, rfl⟩
      obtain ⟨h1, h2⟩ := List.mem_filter.1 he
      exact ⟨e, h1, h2, (hp e h1).2⟩
    · rintro ⟨e, h1, h2, rfl⟩
      exact ⟨e, List.mem_filter.2 ⟨h1, h2⟩, (hp e h1).2⟩
  -- the value read off at a hinge
  have hval : ∀ x ∈ hx, ∃ e ∈ res.st.events, e.plastic = true ∧ x = c.x e.node ∧
      npInterp x (c.nodeCurve y) = .ok (y e.node) := by
    intro x hxx
    obtain ⟨e, h1, h2, rfl⟩ := (hmemx x).1 hxx
    have := (hp e h1).1
    rw [g.nodes] at this
    exact ⟨e, h1, h2, rfl, g.interp y e.node (by omega)⟩
  have hvf : ∀ x ∈ hx, npInterp x (c.nodeCurve y) = .ok ((npInterp x (c.nodeCurve y)).toOption.getD 0) := by
    intro x hxx
    obtain ⟨e, -, -, -, hv⟩ := hval x hxx
    rw [hv]; rfl
  set f : K → K := fun x => (npInterp x (c.nodeCurve y)).toOption.getD 0 with hf
  have hmap : mapE (fun x => npInterp x (c.nodeCurve y)) hx = .ok (hx.map f) := by
    clear_value hx
    clear hmemx hval hhx
    induction hx with
    | nil => rfl
    | cons x xs ih =>
      have ih := ih fun z hz => hvf z (List.mem_cons_of_mem _ hz)
      have h1 := hvf x (by simp)
      unfold mapE
      rw [h1]
      dsimp only
      rw [ih]
      rfl
  have hzip : hx.zip (hx.map f) = hx.map fun x => (x, f x) := by
    rw [List.zip_map_right, List.zip_eq_zipWith, List.zipWith_self, List.map_map]
    rfl
  refine ⟨s, ⟨c.supportX.map fun x => (x, 0), c.nodeCurve y, hx.zip (hx.map f), -(4 / 100) * c.lastX,
    104 / 100 * c.lastX⟩, hspos, ?_, ?_, ?_, ?_, ?_⟩
  · unfold NL.plotCollapse
    simp only
    rw [← hs, ← hy, ← hhx, hmap]
  · have := c.through y
    refine ⟨this.1, fun j hj => ?_⟩
    simp only
    rw [this.2 j hj, hy]
    simp only
    rw [mul_comm]
  · rintro ⟨j, hj, hu⟩
    have hd : 0 < dmax := lt_of_lt_of_le (abs_pos.2 hu) (hle j hj)
    rw [if_pos hd] at hsv
    constructor
    · intro i hi
      rw [abs_mul, abs_of_pos hspos, hsv, div_mul_eq_mul_div, div_le_iff₀ hd]
      exact mul_le_mul_of_nonneg_left (hle i hi) (by positivity)
    · rcases m2 with m2 | m2
      · rw [← hdmax] at m2
        exact absurd m2 hd.ne'
      · rw [← hdmax] at m2
        obtain ⟨i, hi, hie⟩ := List.mem_map.1 m2
        rw [List.mem_range, g.nodes] at hi
        refine ⟨i, by omega, ?_⟩
        rw [abs_mul, abs_of_pos hspos, hie, hsv, div_mul_cancel₀ _ hd.ne']
  · simp only
    rw [hzip, List.pairwise_map]
    have h1 : hx.Pairwise (· ≤ ·) := List.pairwise_insertionSort (· ≤ ·) _
    have h2 : hx.Nodup := by
      rw [hhx]
      exact (List.perm_insertionSort _ _).nodup_iff.2 (List.nodup_dedup _)
    exact (h1.and h2).imp fun h => lt_of_le_of_ne h.1 h.2
  · intro p
    simp only
    rw [hzip, List.mem_map]
    constructor
    · rintro ⟨x, hxx, rfl⟩
      obtain ⟨e, h1, h2, h3, h4⟩ := hval x hxx
      refine ⟨e, h1, h2, ?_⟩
      rw [hf]
      simp only
      rw [h4, h3, hy]
      simp only [Except.toOption, Option.getD_some]
      rw [mul_comm]
    · rintro ⟨e, h1, h2, rfl⟩
      refine ⟨c.x e.node, (hmemx _).2 ⟨e, h1, h2, rfl⟩, ?_⟩
      have := (hp e h1).1
      rw [g.nodes] at this
      rw [hf]
      simp only
      rw [g.interp y e.node (by omega), hy]
      simp only [Except.toOption, Option.getD_some]
      rw [mul_comm]

/-- **C141**, supports: `plot_beam_state` and `plot_collapse` draw a support at every end of a span. -/
theorem C141_supports_partial [FloorRing K] (L : List K) (EI : SpanArg (Rigidity K)) (R : List K)
    (Mp : SpanArg K) (My : Option (SpanArg K)) (q ms : K) (c : NL K)
    (hc : NL.new L EI R Mp My q ms = .ok c) (hL : ∀ l ∈ L, 0 < l) (v : Option (List (K × K)))
    (scale : Option K) (res : NLResult K) (x : K) :
    ((∃ t ∈ (c.plotBeamState v res).triangles, t.head? = some (x, 0)) ↔ ∃ i ≤ L.length, x = (L.take i).sum) ∧
    ∀ pl, c.plotCollapse scale res = .ok pl → ((x, 0) ∈ pl.supports ↔ ∃ i ≤ L.length, x = (L.take i).sum) := by
  obtain ⟨g, e2⟩ := NL.new_geo hc hL
  have key : x ∈ c.supportX ↔ ∃ i ≤ L.length, x = (L.take i).sum := by
    unfold NL.supportX
    rw [e2, List.mem_map]
    constructor
    · rintro ⟨i, hi, rfl⟩
      rw [List.mem_range] at hi
      exact ⟨i, by omega, rfl⟩
    · rintro ⟨i, hi, rfl⟩
      exact ⟨i, List.mem_range.2 (by omega), rfl⟩
  constructor
  · rw [← key]
    unfold NL.plotBeamState
    simp only [List.mem_map]
    constructor
    · rintro ⟨t, ⟨xs, hxs, rfl⟩, ht⟩
      simp only [List.head?_cons, Option.some.injEq, Prod.mk.injEq, and_true] at ht
      exact ht ▸ hxs
    · intro h
      exact ⟨_, ⟨x, h, rfl⟩, rfl⟩
  · intro pl hpl
    unfold NL.plotCollapse at hpl
    simp only at hpl
    split at hpl
    · cases hpl
    · obtain rfl := Except.ok.inj hpl
      rw [← key]
      simp only [List.mem_map, Prod.mk.injEq, and_true, exists_eq_right]

/-! ### Cases -/

/-- The run of `exCantL` under a tip load of one, before yield. -/
theorem exCantL_elastic : ∃ c res, exCantL = .ok c ∧
    c.analyze (listSolver [fun p => [0, 0, -1 / 30, -1 / 20].getD p 0]) (fun _ _ => true)
      [⟨1, 2, [1, 1]⟩] 1 1 2 = .ok res ∧ res.st.yielded = [] ∧ res.st.mom 0 = 1 / 5 ∧ c.nElem = 1 ∧
      c.len 0 = 1 ∧ res.u 0 = 0 ∧ res.u 1 = 0 ∧ res.u 2 = -1 / 15 ∧ res.u 3 = -1 / 10 ∧
      c.EI.getD 0 0 = 1 ∧ c.bc = [0, 1] := by
  obtain ⟨r, hr, h⟩ := ok_of_map (x := match exCantL with
      | .error e => .error e
      | .ok c => match c.analyze (listSolver [fun p => [0, 0, -1 / 30, -1 / 20].getD p 0])
          (fun _ _ => true) [⟨1, 2, [1, 1]⟩] 1 1 2 with
        | .error e => .error e
        | .ok res => .ok (c, res))
    (f := fun r => (r.2.st.yielded, r.1.nElem, r.1.bc,
      [r.2.st.mom 0, r.1.len 0, r.2.u 0, r.2.u 1, r.2.u 2, r.2.u 3, r.1.EI.getD 0 0]))
    (y := ([], 1, [0, 1], [1 / 5, 1, 0, 0, -1 / 15, -1 / 10, 1])) (by decide +kernel)
  split at hr
  · cases hr
  · rename_i c hc
    split at hr
    · cases hr
    · rename_i res hres
      obtain rfl := Except.ok.inj hr
      simp only [Prod.mk.injEq, List.cons.injEq, and_true] at h
      obtain ⟨h1, h2, h3, h4, h5, h6, h7, h8, h9, h10⟩ := h
      exact ⟨c, res, hc, hres, h1, h4, h2, h5, h6, h7, h8, h9, h10, h3⟩

/-- The mirror image: `exCantR`. -/
theorem exCantR_elastic : ∃ c res, exCantR = .ok c ∧
    c.analyze (listSolver [fun p => [-1 / 30, 1 / 20].getD p 0]) (fun _ _ => true)
      [⟨1, 2, [1, 0]⟩] 1 1 2 = .ok res ∧ res.st.yielded = [] ∧ res.st.mom 1 = -1 / 5 := by
  obtain ⟨r, hr, h⟩ := ok_of_map (x := match exCantR with
      | .error e => .error e
      | .ok c => match c.analyze (listSolver [fun p => [-1 / 30, 1 / 20].getD p 0])
          (fun _ _ => true) [⟨1, 2, [1, 0]⟩] 1 1 2 with
        | .error e => .error e
        | .ok res => .ok (c, res))
    (f := fun r => (r.2.st.yielded, r.2.st.mom 1)) (y := ([], -1 / 5)) (by decide +kernel)
  split at hr
  · cases hr
  · rename_i c hc
    split at hr
    · cases hr
    · rename_i res hres
      obtain rfl := Except.ok.inj hr
      simp only [Prod.mk.injEq] at h
      exact ⟨c, res, hc, hres, h.1, h.2⟩

-- the hypotheses of the two theorems on signs hold in this run, and the two signs differ
example : ∃ (c : NL ℚ) (res : NLResult ℚ) (a b d e : ℚ), exCantL = .ok c ∧ res.st.yielded = [] ∧
    c.len 0 ≠ 0 ∧ c.Fits res.u 0 a b d e ∧ c.EI.getD 0 0 * (2 * d) = -1 / 5 ∧ res.st.mom 0 = 1 / 5 := by
  obtain ⟨c, res, hc, -, hy, hm, -, hl, u0, u1, u2, u3, hE, -⟩ := exCantL_elastic
  refine ⟨c, res, 0, 0, -1 / 10, 1 / 30, hc, hy, by rw [hl]; norm_num, ⟨u0.symm, u1.symm, ?_, ?_⟩, ?_, hm⟩
  · rw [hl, u2]; norm_num
  · rw [hl, u3]; norm_num
  · rw [hE]; norm_num

/-- **C141 fails**: a cantilever and its mirror image under the same load at the tip, both
hogging, are reported and drawn with moments of opposite signs at the clamp. -/
theorem C141_mirror_violation :
    ∃ (cl cr : NL ℚ) (sl sr : Solver ℚ) (l r : NLResult ℚ), exCantL = .ok cl ∧ exCantR = .ok cr ∧
      sl.Sound ∧ sr.Sound ∧
      cl.analyze sl (fun _ _ => true) [⟨1, 2, [1, 1]⟩] 1 1 2 = .ok l ∧
      cr.analyze sr (fun _ _ => true) [⟨1, 2, [1, 0]⟩] 1 1 2 = .ok r ∧
      l.st.mom 0 = 1 / 5 ∧ r.st.mom 1 = -1 / 5 := by
  obtain ⟨c, res, hc, hres, -, hm, -⟩ := exCantL_elastic
  obtain ⟨c', res', hc', hres', -, hm'⟩ := exCantR_elastic
  exact ⟨c, c', _, _, res, res', hc, hc', listSolver_sound _, listSolver_sound _, hres, hres', hm, hm'⟩

/-- **C141 fails**: a support is drawn at the free end of a cantilever. -/
theorem C141_supports_violation :
    ∃ (c : NL ℚ) (solve : Solver ℚ) (res : NLResult ℚ), exCantL = .ok c ∧ solve.Sound ∧
      c.analyze solve (fun _ _ => true) [⟨1, 2, [1, 1]⟩] 1 1 2 = .ok res ∧ c.bc = [0, 1] ∧
      (∃ t ∈ (c.plotBeamState none res).triangles, t.head? = some (1, 0)) ∧
      ∃ pl, c.plotCollapse none res = .ok pl ∧ (1, 0) ∈ pl.supports := by
  obtain ⟨c, res, hc, hres, -, -, -, -, -, -, -, -, -, hb⟩ := exCantL_elastic
  have hq : c.q ≤ 1 := by
    obtain ⟨c', hc', h⟩ := ok_of_map (x := exCantL) (f := fun c => c.q) (y := 1 / 10) (by decide +kernel)
    obtain rfl : c' = c := Except.ok.inj (hc'.symm.trans hc)
    rw [h]; norm_num
  have hL : ∀ l ∈ ([1] : List ℚ), 0 < l := by simp
  obtain ⟨s, pl, -, hpl, -⟩ := C141_collapse _ _ _ _ _ _ _ c hc hL (by simp) hq res
    ⟨_, _, _, Or.inl ⟨_, _, _, hres⟩⟩
  obtain ⟨h1, h2⟩ := C141_supports_partial _ _ _ _ _ _ _ c hc hL none none res 1
  exact ⟨c, _, res, hc, listSolver_sound _, hres, hb, h1.2 ⟨1, by simp, by simp⟩,
    pl, hpl, (h2 pl hpl).2 ⟨1, by simp, by simp⟩⟩

-- C141: the hinge of the cantilever is marked at its clamp at factor 1/5, on the shape, and an axle
-- in span is drawn
example : ∃ (c : NL ℚ) (res : NLResult ℚ), exCantL = .ok c ∧ c.q ≤ 1 ∧ c.Run res ∧
    (∃ e ∈ res.st.events, e.plastic = true ∧ ((c.x e.node, e.factor) : ℚ × ℚ) = (0, 1 / 5)) ∧
    (∃ j ≤ c.nElem, res.u (2 * j) ≠ 0) := by
  obtain ⟨r, hr, h⟩ := ok_of_map (x := match exCantL with
      | .error e => .error e
      | .ok c => match c.analyze exCantLSolver (fun _ _ => true) [⟨1, 2, [9, 1]⟩] 1 1 3 with
        | .error e => .error e
        | .ok res => .ok (c, res))
    (f := fun r => (r.1.q, r.2.st.events.map (fun e => (r.1.x e.node, e.factor, e.plastic)), r.1.nElem,
      decide (r.2.u 2 = 0)))
    (y := (1 / 10, [(0, 1 / 10, false), (0, 1 / 5, true)], 1, false)) (by decide +kernel)
  split at hr
  · cases hr
  · rename_i c hc
    split at hr
    · cases hr
    · rename_i res hres
      obtain rfl := Except.ok.inj hr
      simp only [Prod.mk.injEq, decide_eq_false_iff_not] at h
      refine ⟨c, res, hc, by rw [h.1]; norm_num, ⟨_, _, _, Or.inl ⟨_, _, _, hres⟩⟩, ?_, 1,
        by rw [h.2.2.1], h.2.2.2⟩
      have : ((0, 1 / 5, true) : ℚ × ℚ × Bool) ∈
          res.st.events.map (fun e => (c.x e.node, e.factor, e.plastic)) := by
        rw [h.2.1]; simp
      obtain ⟨e, he, hh⟩ := List.mem_map.1 this
      simp only [Prod.mk.injEq] at hh
      exact ⟨e, he, hh.2.2, by rw [hh.1, hh.2.1]⟩

end PyCBA
