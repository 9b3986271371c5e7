import Verif.Exact.Energy
import Verif.Influence.Props

set_option linter.unusedSectionVars false
set_option linter.unusedSimpArgs false

/-!
The principle of Müller-Breslau (C100): the influence line of a reaction is the deflected shape
of the beam when that support moves by one unit.
-/

namespace PyCBA

open MeasureTheory Set

/-- The beam without loads whose degree of freedom `p` is moved by one unit. -/
def BeamDef.moved (b : BeamDef ℝ) (p : ℕ) : BeamDef ℝ :=
  { b with presc := b.presc.set p (some 1), LM := [] }

theorem moved_presc (b : BeamDef ℝ) (p : ℕ) (hp : p < b.presc.length) (q : ℕ) :
    (b.moved p).presc.getD q none = if q = p then some 1 else b.presc.getD q none := by
  simp only [BeamDef.moved, List.getD_eq_getElem?_getD, List.getElem?_set]
  by_cases h : q = p
  · subst h
    simp [hp]
  · simp [h, Ne.symm h]

/-- Work of the node forces through the displacements of the moved beam. -/
theorem moved_node_work {b : BeamDef ℝ} {ls : List (SpanLoad ℝ)} (hu : b.Unsettled) {u : ℕ → ℝ}
    {F : ℕ → Vec4 ℝ} {v θ : ℕ → ℝ → ℝ} (h : ElasticBeam b ls u F v θ) (p : ℕ)
    (hp : p < 2 * b.members.length + 2) (hpl : p < b.presc.length) {y : ℕ → ℝ}
    {η φ κ : ℕ → ℝ → ℝ} (hy : Admissible (b.moved p) y η φ κ) :
    ∑ j ∈ Finset.range (b.members.length + 1), ∑ c : Fin 2, y (2 * j + c) * nodeSum b u F j c
      = nodeSum b u F (p / 2) ⟨p % 2, Nat.mod_lt _ (by norm_num)⟩ := by
  have hother : ∀ j ≤ b.members.length, ∀ c : Fin 2, 2 * j + (c : ℕ) ≠ p →
      y (2 * j + c) * nodeSum b u F j c = 0 := by
    intro j hj c hne
    have hlt : 2 * j + (c : ℕ) < 2 * b.members.length + 2 := by omega
    have e := moved_presc b p hpl (2 * j + c)
    rw [if_neg hne] at e
    rcases hpr : b.presc.getD (2 * j + c) none with _ | w
    · rw [hpr] at e
      by_cases hr : b.restraints.getD (2 * j + c) 0 < 0
      · rw [hy.rigid _ hlt e hr, zero_mul]
      · rw [h.free j hj c hpr (not_lt.1 hr), mul_zero]
    · rw [hpr] at e
      rw [hy.prescribed _ hlt w e, hu _ w hpr, zero_mul]
  have hyp : y p = 1 := by
    have e := moved_presc b p hpl p
    rw [if_pos rfl] at e
    exact hy.prescribed p hp 1 e
  rw [Finset.sum_eq_single (p / 2)]
  · rw [Finset.sum_eq_single (⟨p % 2, Nat.mod_lt _ (by norm_num)⟩ : Fin 2)]
    · have : 2 * (p / 2) + p % 2 = p := by omega
      simp only [this, hyp, one_mul]
    · intro c _ hc
      apply hother _ (by omega)
      intro he
      apply hc
      ext
      simp only
      omega
    · simp
  · intro j hj hne
    refine Finset.sum_eq_zero fun c _ => ?_
    apply hother _ (by have := Finset.mem_range.1 hj; omega)
    intro he
    apply hne
    omega
  · intro hn
    exact absurd (Finset.mem_range.2 (by omega)) hn

theorem moved_slender {b : BeamDef ℝ} {ls : List (SpanLoad ℝ)} (hb : b.Slender ls) (p : ℕ) :
    (b.moved p).Slender [] :=
  ⟨hb.pos, hb.prismatic, fun _ _ _ hl => by simp at hl⟩

theorem moved_loads (b : BeamDef ℝ) (p : ℕ) : (b.moved p).setLoads = .ok [] := by
  simp [BeamDef.setLoads, BeamDef.moved, parseLM]

theorem mul_div_swap (a c e : ℝ) : a * (c / e) = c * (a / e) := by ring

/-- **Müller-Breslau** for the continuous problem. -/
theorem mueller_breslau {b : BeamDef ℝ} {ls : List (SpanLoad ℝ)} (hb : b.Slender ls)
    (hu : b.Unsettled) {u : ℕ → ℝ} {F : ℕ → Vec4 ℝ} {v θ : ℕ → ℝ → ℝ}
    (h : ElasticBeam b ls u F v θ) (p : ℕ) (hp : p < 2 * b.members.length + 2)
    (hpl : p < b.presc.length) (hr : b.restraints.getD p 0 < 0) {y : ℕ → ℝ} {G : ℕ → Vec4 ℝ}
    {η φ : ℕ → ℝ → ℝ} (hm : ElasticBeam (b.moved p) [] y G η φ) :
    nodeSum b u F (p / 2) ⟨p % 2, Nat.mod_lt _ (by norm_num)⟩ = -loadWork b ls η φ := by
  have ha := h.admissible hb
  have hbm := moved_slender hb p
  have ham := hm.admissible hbm
  have w1 := beam_virtual_work hb h (y := y) (η := η) (φ := φ)
    (κ := lineKappa (b.moved p) [] G) ⟨ham.shape, ham.left, ham.right, ham.rotLeft, ham.rotRight⟩
  rw [moved_node_work hu h p hp hpl ham] at w1
  have w2 := beam_virtual_work hbm hm (y := u) (η := v) (φ := θ)
    (κ := lineKappa b ls F) ⟨ha.shape, ha.left, ha.right, ha.rotLeft, ha.rotRight⟩
  rw [node_work_zero hm (y := u) (by
    intro q hq hcon
    by_cases hqp : q = p
    · subst hqp
      rcases hpr : b.presc.getD q none with _ | w
      · exact h.rigid q hq hpr hr
      · rw [h.prescribed q hq w hpr, hu q w hpr]
    · rw [moved_presc b p hpl, if_neg hqp] at hcon
      exact ha.held hu q hq hcon)] at w2
  have l0 : loadWork (b.moved p) [] v θ = 0 := by simp [loadWork, ownLoads]
  rw [l0] at w2
  have ei : ∑ i : Fin b.members.length, ∫ x in (0 : ℝ)..b.members[i].L,
        cutM b.members[i].L (ownLoads i ls) (F i) x * lineKappa (b.moved p) [] G i x
      = ∑ i : Fin (b.moved p).members.length, ∫ x in (0 : ℝ)..(b.moved p).members[i].L,
        cutM (b.moved p).members[i].L (ownLoads i []) (G i) x * lineKappa b ls F i x := by
    refine Finset.sum_congr rfl fun i _ => ?_
    congr 1
    funext x
    rw [lineKappa_eq b ls F i i.2, lineKappa_eq (b.moved p) [] G i i.2]
    change _ * (_ / b.members[(i : ℕ)].flexRig) = _ * (_ / b.members[(i : ℕ)].flexRig)
    exact mul_div_swap _ _ _
  have es : ∑ q ∈ Finset.range (2 * b.members.length + 2), b.springK q * u q * y q
      = ∑ q ∈ Finset.range (2 * (b.moved p).members.length + 2), (b.moved p).springK q * y q * u q :=
    Finset.sum_congr rfl fun q _ => by
      change _ = b.springK q * y q * u q
      ring
  rw [ei, es] at w1
  linarith

/-! ## C100 -/

/-- **C100**: a reported reaction is minus the work of the loads through the deflected shape of
the beam whose support is moved by one unit.  Partial: slender prismatic members, and clamped
end moments that cancel on pinned-pinned members. -/
theorem C100_reaction_partial (b : BeamDef ℝ) (ls : List (SpanLoad ℝ)) (hls : b.setLoads = .ok ls)
    (hb : b.Slender ls) (hpp : b.PinsBalanced ls) (hu : b.Unsettled)
    (stable stable' : System ℝ → Bool) (solve solve' : Solver ℝ) (hs : solve.Sound)
    (hs' : solve'.Sound) (res res' : Result ℝ) (h : b.analyze stable solve = .ok res)
    (p : ℕ) (R : ℝ) (hR : (p, R) ∈ b.reported res) (hr : b.restraints.getD p 0 < 0)
    (h' : (b.moved p).analyze stable' solve' = .ok res') :
    (∃ η φ, ElasticBeam (b.moved p) [] res'.d res'.fmbr η φ) ∧
    ∀ η φ, ElasticBeam (b.moved p) [] res'.d res'.fmbr η φ → R = -loadWork b ls η φ := by
  refine ⟨C91_exact_partial _ [] (moved_loads b p) (moved_slender hb p)
    (BeamDef.pinsBalanced_nil _) stable' solve' hs' res'
    h', fun η φ hm => ?_⟩
  obtain ⟨v, θ, hE⟩ := C91_exact_partial b ls hls hb hpp stable solve hs res h
  obtain ⟨s, hsys, _⟩ := BeamDef.analyze_ok h
  obtain ⟨hn, _, _, _, _, _, hl⟩ := BeamDef.system_ok hsys
  rw [System.N, hn] at hl
  have hp : p < 2 * b.members.length + 2 := by
    unfold BeamDef.reported at hR
    simp only at hR
    rcases List.mem_append.1 hR with h0 | h0
    · have := List.of_mem_zip h0 |>.1
      simpa using (List.mem_filter.1 this).1
    · have := List.of_mem_zip h0 |>.1
      simpa using (List.mem_filter.1 this).1
  rcases C91_reactions b stable solve hs res h p R hR with ⟨_, e⟩ | ⟨h0, _⟩
  · rw [e]
    exact mueller_breslau hb hu hE p hp (by omega) hr hm
  · exact absurd h0 (not_lt.2 hr.le)

/-- The work of a single point load. -/
theorem loadWork_point (b : BeamDef ℝ) (i : ℕ) (hi : i < b.members.length) (P a : ℝ)
    (v θ : ℕ → ℝ → ℝ) : loadWork b [⟨i, .pl P a⟩] v θ = -(P * v i a) := by
  rw [loadWork, Finset.sum_eq_single ⟨i, hi⟩]
  · simp [ownLoads, Load.work, Load.intensity, Load.forces, Load.couplesAt]
  · intro k _ hk
    have : ¬ (i : ℤ) = ((k : ℕ) : ℤ) := by
      intro he
      apply hk
      ext
      simp only at he ⊢
      omega
    simp [ownLoads, this]
  · simp

theorem zipMembers_L (l : List ℝ) : ∀ (e : List (Rigidity ℝ)) (t : List EType)
    (g : List (Option (Rigidity ℝ))) (i : ℕ) (hi : i < (zipMembers l e t g).length)
    (hi' : i < l.length), (zipMembers l e t g)[i].L = l[i] := by
  induction l with
  | nil => intro e t g i _ hi'; simp at hi'
  | cons x l ih =>
    intro e t g i hi hi'
    cases e <;> cases t <;> cases g <;> simp only [zipMembers, List.length_nil, Nat.not_lt_zero,
      List.length_cons] at hi ⊢
    cases i with
    | zero => rfl
    | succ i =>
      simp only [List.getElem_cons_succ]
      exact ih _ _ _ i _ (by simpa using hi')

theorem NearestSupport.unique {b : BeamB ℝ} {off : ℕ} {poi : ℝ} {j j' : ℕ}
    (h : NearestSupport b off poi j) (h' : NearestSupport b off poi j') : j = j' := by
  obtain ⟨h1, h2, h3, h4⟩ := h
  obtain ⟨k1, k2, k3, k4⟩ := h'
  rcases lt_trichotomy j j' with hl | he | hl
  · exact absurd (k4 j hl h2) (not_lt.2 (h3 j' k1 k2))
  · exact he
  · exact absurd (h4 j' hl k2) (not_lt.2 (k3 j h1 h2))

/-- A load at `y` is not on a pinned-pinned member, or at an end or the centre of it. -/
def BeamB.ClearOfPins (b : BeamB ℝ) (y : ℝ) : Prop :=
  ∀ i (hi : i < b.toDef.members.length), b.toDef.members[i].et = .PP → ∀ a,
    (b.lens.take i).sum + a = y → 0 < a → a < b.toDef.members[i].L →
      a = b.toDef.members[i].L / 2

theorem BeamB.clearOfPins_of (b : BeamB ℝ) (h : ∀ m ∈ b.toDef.members, m.et ≠ .PP) (y : ℝ) :
    b.ClearOfPins y := fun _ hi het => absurd het (h _ (List.getElem_mem hi))

theorem BeamDef.pinsBalanced_point (b : BeamDef ℝ) (hL : ∀ m ∈ b.members, 0 < m.L) (i : ℕ)
    (P a : ℝ)
    (h : ∀ hi : i < b.members.length, b.members[i].et = .PP → 0 ≤ a → a ≤ b.members[i].L →
      a = 0 ∨ a = b.members[i].L / 2 ∨ a = b.members[i].L)
    (ha : ∀ hi : i < b.members.length, 0 ≤ a ∧ a ≤ b.members[i].L) :
    b.PinsBalanced [⟨i, .pl P a⟩] := by
  intro k hk het
  by_cases hik : i = k
  · subst hik
    have hL' := (hL _ (List.getElem_mem hk)).ne'
    have := h hk het (ha hk).1 (ha hk).2
    simp only [ownLoads, List.filter_cons, decide_true, if_true, List.filter_nil, List.map_cons,
      List.map_nil, clampedSum, List.sum_cons, List.sum_nil, Load.clamped, Load.getCnl, plCnl]
    have hle : 0 ≤ b.members[i].L - a := sub_nonneg.2 (ha hk).2
    rw [max_eq_left hle]
    clear h ha hle
    generalize b.members[i].L = L at *
    rcases this with rfl | rfl | rfl <;> field_simp <;> ring
  · have : ¬ (i : ℤ) = (k : ℤ) := by exact_mod_cast hik
    simp [ownLoads, this, clampedSum]

/-- `w` is the height at distance `y` from the start of the beam of the line `η`, given span by
span. -/
def HeightAt (lens : List ℝ) (η : ℕ → ℝ → ℝ) (y w : ℝ) : Prop :=
  ∃ i, ∃ hi : i < lens.length, ∃ a, (lens.take i).sum + a = y ∧ 0 ≤ a ∧ a ≤ lens[i] ∧ w = η i a

/-- **C100**, influence lines: let the influence lines of a beam be created with load `P` and
that of a reaction be read.  Then every ordinate is `P` times the height, at its position, of
the deflected shape of the beam whose support nearest to the point of interest is moved by one
unit.  Partial: slender prismatic members, and on pinned-pinned members positions at the ends
and the centre only. -/
theorem C100_influence_partial (A : Analyser ℝ) (hsol : A.solve.Sound) (b : BeamB ℝ)
    (hb : b.ForIL) (hsl : b.toDef.Slender [])
    (step : Option ℝ) (P : ℝ) (s s' : ILState ℝ)
    (hc : (ILState.new b).create A step P = (s, .ok ())) (hne : s.pos ≠ [])
    (poi : ℝ) (e : ILEffect) (off : ℕ) (he : e = .R ∧ off = 0 ∨ e = .MR ∧ off = 1)
    (x eta : List ℝ) (hg : s.get A poi e = (s', .ok (x, eta)))
    (j : ℕ) (hj : NearestSupport b off poi j) (stable' : System ℝ → Bool) (solve' : Solver ℝ)
    (hs' : solve'.Sound) (res' : Result ℝ)
    (h' : (b.toDef.moved (2 * j + off)).analyze stable' solve' = .ok res') :
    (∃ η φ, ElasticBeam (b.toDef.moved (2 * j + off)) [] res'.d res'.fmbr η φ) ∧
    ∀ η φ, ElasticBeam (b.toDef.moved (2 * j + off)) [] res'.d res'.fmbr η φ →
      List.Forall₂ (fun y w => 0 ≤ y → y ≤ b.lens.sum → b.ClearOfPins y →
        HeightAt b.lens (fun i a => P * η i a) y w) x eta := by
  refine ⟨C91_exact_partial _ [] (moved_loads _ _) (moved_slender hsl _)
    (BeamDef.pinsBalanced_nil _) stable' solve' hs' res'
    h', fun η φ hm => ?_⟩
  obtain ⟨c1, c2, c3⟩ := create_ok A (s := ILState.new b) hb.proper step P hc
  change s.beam = b at c1
  change s.pos = [] ++ ilPositions b step at c2
  change List.Forall₂ (Carries A b P) (ilPositions b step) s.res at c3
  rw [List.nil_append] at c2
  rw [← c2] at c3
  have hres : s.res ≠ [] := by
    intro h
    rw [h] at c3
    cases h2 : s.pos with
    | nil => exact hne h2
    | cons a l => rw [h2] at c3; cases c3
  obtain ⟨s1, h1, _, hx, ho⟩ := get_ok hg
  rcases h1 with ⟨_, hs1⟩ | ⟨h1, _⟩
  swap
  · exact absurd h1 hres
  rw [hs1] at hx ho
  subst hx
  rw [c1] at ho
  refine (ordinates_spec hsol hb c3 ho).imp ?_
  rintro y w ⟨r, ⟨row, hrun, hrow, _⟩, hread⟩ hy0 hy1 hclear
  have hrep : (2 * j + off, w) ∈ b.toDef.reported r.1 := by
    rcases he with ⟨rfl, rfl⟩ | ⟨rfl, rfl⟩
    · obtain ⟨j', hj', hv⟩ := hread
      rw [hj.unique hj']
      exact hv
    · obtain ⟨j', hj', hv⟩ := hread
      rw [hj.unique hj']
      exact hv
  obtain ⟨i, hi, a, rfl, hya, ha0, ha1, _⟩ := hrow hy0 hy1
  refine ⟨i, hi, a, hya, ha0, ha1, ?_⟩
  have hlen := toDef_length hb.proper.inStep
  set d : BeamDef ℝ := { b.toDef with LM := [⟨(i : ℤ) + 1, 2, [P, a, 0]⟩] } with hd
  have hls : d.setLoads = .ok [⟨i, .pl P a⟩] := by
    simp [hd, BeamDef.setLoads, parseLM, parseRow]
  have hbs : d.Slender [⟨i, .pl P a⟩] := by
    refine ⟨hsl.pos, hsl.prismatic, ?_⟩
    intro k hk l hl hlk
    simp only [List.mem_cons, List.not_mem_nil, or_false] at hl
    subst hl
    have : i = k := by simpa using hlk
    subst this
    refine ⟨⟨ha0, ?_⟩, by simp [Load.IsMechanical]⟩
    exact ha1.trans_eq (zipMembers_L _ _ _ _ i hk hi).symm
  have hun : d.Unsettled := by
    intro p v hv
    refine hb.presc v ?_
    rw [List.getD_eq_getElem?_getD] at hv
    rcases hp : b.presc[p]? with _ | o
    · change (b.presc[p]?).getD none = some v at hv
      rw [hp] at hv
      cases hv
    · change (b.presc[p]?).getD none = some v at hv
      rw [hp] at hv
      simp only [Option.getD_some] at hv
      subst hv
      exact List.mem_of_getElem? hp
  have hneg : d.restraints.getD (2 * j + off) 0 < 0 := by
    change b.restraints.getD (2 * j + off) 0 < 0
    rw [hj.2.1]
    norm_num
  have hbal : d.PinsBalanced [⟨i, .pl P a⟩] := by
    have hLi : ∀ hi' : i < d.members.length, d.members[i].L = b.lens[i] := fun hi' =>
      zipMembers_L _ _ _ _ i hi' hi
    refine d.pinsBalanced_point hsl.pos i P a (fun hi' het _ _ => ?_) fun hi' =>
      ⟨ha0, ha1.trans_eq (hLi hi').symm⟩
    rcases ha0.eq_or_lt with h0 | h0
    · exact .inl h0.symm
    · rcases ha1.eq_or_lt with h1 | h1
      · exact .inr (.inr (h1.trans (hLi hi').symm))
      · exact .inr (.inl (hclear i hi' het a hya h0 (h1.trans_eq (hLi hi').symm)))
  have key := (C100_reaction_partial d _ hls hbs hbal hun A.stable stable' A.solve solve' hsol hs'
    r.1 res' (runCase_ok hrun).1 (2 * j + off) w hrep hneg h').2 η φ hm
  rw [key, loadWork_point d i (by change i < b.toDef.members.length; omega)]
  ring

/-! ### Concrete cases -/

open Classical in
/-- A solver that finds a solution whenever there is one. -/
noncomputable def anySolver : Solver ℝ := fun N A b =>
  if h : ∃ x : ℕ → ℝ, ∀ p < N, mulN N A x p = b p then .ok h.choose else .error .valueError

theorem anySolver_sound : anySolver.Sound := by
  intro N A b y h
  unfold anySolver at h
  split at h
  · rename_i hx
    cases h
    exact hx.choose_spec
  · cases h

theorem BeamDef.completes_any {b : BeamDef ℝ} {s : System ℝ} (hs : b.system = .ok s)
    (hns : s.Nonsingular) (hv : s.validate s.forces = true) :
    ∃ res, b.analyze (fun _ => true) anySolver = .ok res := by
  obtain ⟨d, hd⟩ := System.exists_solution hns
  simp only [BeamDef.analyze, hs, not_true_eq_false, and_false, if_false, System.analyze, hv, if_true]
  have hex : ∃ x : ℕ → ℝ, ∀ p < s.N,
      mulN s.N (s.applyBC (s.assemble, s.forces)).1 x p = (s.applyBC (s.assemble, s.forces)).2 p := by
    refine ⟨d, (s.reduced_iff s.assemble s.forces d).2 ⟨hd.1, fun p hp hc => ?_⟩⟩
    have := hd.2 p hp hc
    simp only [System.residual] at this
    exact sub_eq_zero.1 this
  rw [anySolver, dif_pos hex]
  exact ⟨_, rfl⟩

/-- Two spans, clamped at the left. -/
noncomputable def exMB : BeamB ℝ :=
  ⟨[2, 3], [.const 6, .const 7], [none, none], [none, none], [.FF, .FF], [-1, -1, -1, 0, -1, 0],
    [none, none, none, none, none, none], [], 2, 5, [0, 2, 5], 1⟩

theorem exMB_forIL : exMB.ForIL := by
  refine ⟨⟨⟨rfl, rfl, rfl, rfl, rfl, ?_, ?_⟩, by simp [exMB], ?_⟩, rfl, ?_, ?_⟩
  · simp [exMB]; norm_num
  · simp [exMB, List.range_succ]; norm_num
  · simp [exMB]
  · intro x hx h0
    simp [exMB] at hx
    rcases hx with rfl | rfl | rfl | rfl <;> first | rfl | exact absurd h0 (lt_irrefl _)
  · intro v hv
    simp [exMB] at hv

theorem exMB_slender : exMB.toDef.Slender [] := by
  refine ⟨?_, ?_, fun _ _ _ hl => by simp at hl⟩
  · simp [exMB, BeamB.toDef, zipMembers]
  · simp [exMB, BeamB.toDef, zipMembers]

noncomputable def exMBA : Analyser ℝ := ⟨fun _ => true, anySolver, 10⟩

theorem exMB_nons {LM : List (Row ℝ)} {pr : List (Option ℝ)} {s : System ℝ}
    (hs : ({ exMB.toDef with LM := LM, presc := pr } : BeamDef ℝ).system = .ok s) :
    s.Nonsingular :=
  C77_adequate_supports _ (by
      intro m hm
      simp only [exMB, BeamB.toDef, zipMembers, List.mem_cons, List.not_mem_nil, or_false] at hm
      rcases hm with rfl | rfl <;> simp [Member.Good, Rigidity.Good]) s hs 0 0 (by simp) (by simp)
    (by simp [exMB, BeamB.toDef]) (.inr (by simp [exMB, BeamB.toDef]))

theorem exMB_presc (i : ℕ) : exMB.toDef.presc.getD i none = none := by
  rcases i with _ | _ | _ | _ | _ | _ | i <;> simp [exMB, BeamB.toDef]

theorem exMB_run (P y : ℝ) : ∃ r, runCase exMB.toDef exMBA.stable exMBA.solve exMBA.npts
    [ilRow exMB P y] = .ok r := by
  set d : BeamDef ℝ := { exMB.toDef with LM := [ilRow exMB P y] } with hd
  have hls : d.setLoads = .ok [⟨(exMB.localCoords y).1, .pl P (exMB.localCoords y).2⟩] := by
    simp [hd, BeamDef.setLoads, parseLM, parseRow, ilRow]
  obtain ⟨s, hs⟩ : ∃ s, d.system = .ok s := by
    rw [BeamDef.system, hls]
    generalize exMB.localCoords y = q
    have e : ∀ (L e : ℝ) (i : ℕ), ∃ c, (⟨.const e, L, .FF, none⟩ : Member ℝ).refSum i
        [⟨q.1, .pl P q.2⟩] = .ok c := by
      intro L e i
      by_cases h : q.1 = i <;>
        simp [Member.refSum, h, Member.ref, Member.cnl, Load.getCnl]
    obtain ⟨c0, e0⟩ := e 2 6 0
    obtain ⟨c1, e1⟩ := e 3 7 1
    simp only [hd, exMB, BeamB.toDef, zipMembers, mapE, List.zipIdx_cons, List.zipIdx_nil, e0, e1]
    simp [Member.spanK]
  obtain ⟨_, _, _, _, hpr, _, _⟩ := BeamDef.system_ok hs
  obtain ⟨res, hres⟩ := BeamDef.completes_any hs (exMB_nons (pr := exMB.toDef.presc) hs) (by
    have : ∀ i, d.presc.getD i none = none := exMB_presc
    simp only [System.validate, hpr, this]
    simp)
  obtain ⟨rs, hrs⟩ : ∃ rs, d.memberResults res exMBA.npts (fun _ => []) = .ok rs := by
    rw [BeamDef.memberResults, hls]
    generalize exMB.localCoords y = q
    have e : ∀ (L e : ℝ) (i : ℕ) f u, ∃ c, (⟨.const e, L, .FF, none⟩ : Member ℝ).values i
        [⟨q.1, .pl P q.2⟩] f u exMBA.npts [] = .ok c := by
      intro L e i f u
      by_cases h : q.1 = i <;>
        simp [Member.values, Member.ctx, ownLoads, h, mapE, Member.cnl, Load.getCnl]
    obtain ⟨c0, e0⟩ := e 2 6 0 (res.fmbr 0) (elemVec res.d 0)
    obtain ⟨c1, e1⟩ := e 3 7 1 (res.fmbr 1) (elemVec res.d 1)
    simp only [hd, exMB, BeamB.toDef, zipMembers, mapE, List.zipIdx_cons, List.zipIdx_nil]
    simp only [zero_add, e0, e1]
    exact ⟨_, rfl⟩
  refine ⟨(res, rs), ?_⟩
  have h1 : ({ exMB.toDef with LM := [ilRow exMB P y] } : BeamDef ℝ).analyze exMBA.stable exMBA.solve
      = .ok res := hres
  have h2 : ({ exMB.toDef with LM := [ilRow exMB P y] } : BeamDef ℝ).memberResults res exMBA.npts
      (fun _ => []) = .ok rs := hrs
  simp only [runCase, h1, h2]

theorem exMB_loop (st : ℝ) : ∀ (is : List ℕ) (P : ℝ) (s : ILState ℝ), s.beam = exMB →
    ∃ s', ilLoop exMBA st is P s = (s', .ok ()) ∧ s'.pos.length = s.pos.length + is.length := by
  intro is
  induction is with
  | nil => intro P s _; exact ⟨s, rfl, rfl⟩
  | cons i is ih =>
    intro P s hs
    simp only [ilLoop, hs]
    obtain ⟨r, hr⟩ := exMB_run (if (exMB.localCoords ((i : ℝ) * st)).1 = -1 then 0 else P) (i * st)
    rw [hr]
    obtain ⟨s', h1, h2⟩ := ih (if (exMB.localCoords ((i : ℝ) * st)).1 = -1 then 0 else P)
      ⟨exMB, s.pos ++ [(i : ℝ) * st], s.res ++ [r]⟩ rfl
    refine ⟨s', ?_, ?_⟩
    · exact h1
    · rw [h2]; simp; omega

theorem exMB_reaction : ∃ q, ilReaction exMB 0 2 = .ok q := by
  have h1 : (List.range (exMB.restraints.length / 2)).filter (fun j =>
      exMB.restraints.getD (2 * j + 0) 0 = -1) = [0, 1, 2] := by
    simp [exMB, List.range_succ, List.filter]
  have h2 : nodeLocations exMB = [0, 2, 5] := by
    simp [nodeLocations, exMB, List.range_succ]; norm_num
  have h3 : nearestIdx (2 : ℝ) [0, 2, 5] = .ok 1 := by
    simp [nearestIdx, argMin, List.range_succ]
  unfold ilReaction
  simp only [h1, h2]
  simp only [List.map_cons, List.map_nil, List.getD_cons_zero, List.getD_cons_succ, h3]
  simp [List.findIdx?, List.findIdx?.go]
  split <;> exact ⟨_, rfl⟩

/-- C100 at two spans: the influence line of the reaction at the middle support, with a load
of 3. -/
example : ∃ (s s1 : ILState ℝ) (x eta : List ℝ) (res : Result ℝ) (η φ : ℕ → ℝ → ℝ),
    (ILState.new exMB).create exMBA (some 1) 3 = (s, .ok ()) ∧
    s.get exMBA 2 .R = (s1, .ok (x, eta)) ∧ x.length = 6 ∧ eta.length = 6 ∧
    (exMB.toDef.moved 2).analyze (fun _ => true) anySolver = .ok res ∧
    ElasticBeam (exMB.toDef.moved 2) [] res.d res.fmbr η φ ∧
    List.Forall₂ (fun y w => 0 ≤ y → y ≤ exMB.lens.sum →
      HeightAt exMB.lens (fun i a => 3 * η i a) y w) x eta := by
  have hL : exMB.length = 5 := rfl
  obtain ⟨s, hs, hlen⟩ := exMB_loop 1 (List.range (pyRound ((5 : ℝ) / 1) + 1).toNat) 3
    ⟨exMB, [], []⟩ rfl
  have hround : pyRound ((5 : ℝ) / 1) = 5 := by
    simp [pyRound]
  rw [hround] at hlen hs
  have hc : (ILState.new exMB).create exMBA (some 1) 3 = (s, .ok ()) := by
    simp only [ILState.create, ILState.new, Option.getD_some, hL, one_ne_zero, if_false, hround]
    exact hs
  have hlen : s.pos.length = 6 := by simpa using hlen
  obtain ⟨c1, c2, c3⟩ := create_ok exMBA (s := ILState.new exMB) exMB_forIL.proper (some 1) 3 hc
  have c1 : s.beam = exMB := c1
  change s.pos = [] ++ ilPositions exMB (some 1) at c2
  change List.Forall₂ (Carries exMBA exMB 3) (ilPositions exMB (some 1)) s.res at c3
  rw [List.nil_append] at c2
  rw [← c2] at c3
  have hres := c3.length_eq
  have n0 : NearestSupport exMB 0 2 1 := by
    refine ⟨by simp [exMB], by simp [exMB], ?_, ?_⟩
    · intro j' _ _
      simp [exMB]
    · intro j' hj' _
      have : j' = 0 := by omega
      subst this
      simp [exMB]
  obtain ⟨eta, hord⟩ : ∃ eta, s.get exMBA 2 .R = (s, .ok (s.pos, eta)) := by
    obtain ⟨q, hq⟩ := exMB_reaction
    rcases hr : s.res with _ | ⟨r0, rest⟩
    · rw [hr, hlen] at hres
      simp at hres
    have hst : ∃ jk, ilStation exMB r0 2 = .ok jk := by
      rw [hr] at c3
      obtain ⟨y, _, ⟨row, hrun, _⟩, _⟩ := List.forall₂_cons_right_iff.1 c3
      obtain ⟨hl, ls, _, hm⟩ := BeamDef.memberResults_ok (runCase_ok hrun).2
      have hl : r0.2.length = 2 := hl
      obtain ⟨c, hc, he⟩ := hm 1 (by simp [exMB, BeamB.toDef, zipMembers]) (by omega)
      have hloc : (exMB.localCoords 2).1 = 1 := by
        simp [BeamB.localCoords, exMB, List.findIdx?, List.findIdx?.go]
        norm_num
      have hget : r0.2[(1 : ℕ)]? = some r0.2[1] := List.getElem?_eq_getElem (by omega)
      simp only [ilStation, hloc]
      norm_num
      rw [hget]
      simp only
      have hn : 2 < r0.2[1].n := by
        obtain ⟨_, _, _, _, hnp, hsp, _⟩ := Member.ctx_ok hc
        rw [he]
        change 2 < c.n
        rw [MCtx.n, MCtx.grid, hsp]
        simp [memberGrid, shearPairs, uniformGrid]
      have hne' : ∀ (f : ℕ → ℝ), ∃ k, nearestIdx (2 : ℝ) ((List.range (r0.2[1].n - 2)).map f) = .ok k := by
        intro f
        obtain ⟨n, hn⟩ : ∃ n, r0.2[1].n - 2 = n + 1 := ⟨r0.2[1].n - 3, by omega⟩
        rw [hn, List.range_succ_eq_map]
        exact ⟨_, rfl⟩
      obtain ⟨k, hk⟩ := hne' fun k => r0.2[1].x (k + 1)
      rw [hk]
      exact ⟨_, _, rfl⟩
    obtain ⟨⟨j, k⟩, hjk⟩ := hst
    unfold ILState.get
    rw [hr]
    simp only [List.isEmpty_cons, Bool.false_eq_true, if_false, c1, hr, ilOrdinates, hjk, hq]
    exact ⟨_, rfl⟩
  obtain ⟨res, hmv⟩ : ∃ res, (exMB.toDef.moved 2).analyze (fun _ => true) anySolver = .ok res := by
    obtain ⟨sy, hsy⟩ : ∃ sy, (exMB.toDef.moved 2).system = .ok sy := by
      rw [BeamDef.system, moved_loads]
      simp [exMB, BeamB.toDef, BeamDef.moved, zipMembers, mapE, Member.spanK, Member.refSum]
    obtain ⟨_, _, _, hr, _, _, _⟩ := BeamDef.system_ok hsy
    refine BeamDef.completes_any hsy (exMB_nons hsy) ?_
    have : ∀ i, ¬ 0 < (exMB.toDef.moved 2).restraints.getD i 0 := by
      intro i
      rcases i with _ | _ | _ | _ | _ | _ | i <;> simp [exMB, BeamB.toDef, BeamDef.moved]
    simp only [System.validate, hr, this]
    simp
  have := C100_influence_partial exMBA anySolver_sound exMB exMB_forIL exMB_slender
    (some 1) 3 s s hc (by
      intro h0
      rw [h0] at hlen
      simp at hlen) 2 .R 0 (.inl ⟨rfl, rfl⟩) s.pos eta hord 1 n0 (fun _ => true) anySolver
    anySolver_sound res hmv
  obtain ⟨⟨η, φ, h1⟩, h2⟩ := this
  have h3 := (h2 η φ h1).imp fun y w h a c => h a c (BeamB.clearOfPins_of exMB
    (by simp [exMB, BeamB.toDef, zipMembers]) y)
  exact ⟨s, s, s.pos, eta, res, η, φ, hc, hord, hlen, h3.length_eq ▸ hlen, hmv, h1, h3⟩

end PyCBA
