import Verif.Analysis.Linear

/-!
Carrying deflection, rotation, shear and moment along a prismatic fixed-fixed
member: the stiffness equation of a member is equivalent to a transfer relation,
transfer relations compose, and so do the contributions of loads.  Used for
splitting spans (C50) and for refined meshes (C64, C70).
-/

set_option linter.unusedSectionVars false
set_option linter.unusedSimpArgs false

namespace PyCBA

open Matrix

variable {K : Type*} [Field K] [LinearOrder K] [IsStrictOrderedRing K]

/-- The right end of an elastic line from its left end, obtained by integrating
`EI v'' = -Ma + Va x` twice; `g` is what loads add to deflection, rotation, shear
and moment. -/
structure Transfer (EI L : K) (g d f : Vec4 K) : Prop where
  v : EI * d 2 = EI * d 0 + EI * d 1 * L - f 1 * L ^ 2 / 2 + f 0 * L ^ 3 / 6 + g 0
  t : EI * d 3 = EI * d 1 - f 1 * L + f 0 * L ^ 2 / 2 + g 1
  V : f 2 = -f 0 + g 2
  M : f 3 = -f 1 + f 0 * L + g 3

/-- What fixed-end forces add to the state at the right end. -/
def loadState (L : K) (r : Vec4 K) : Vec4 K :=
  ![r 1 * L ^ 2 / 2 - r 0 * L ^ 3 / 6, r 1 * L - r 0 * L ^ 2 / 2, r 0 + r 2, r 1 + r 3 - r 0 * L]

/-- The contributions of two consecutive pieces, the second of length `L2`. -/
def joinState (L2 : K) (g1 g2 : Vec4 K) : Vec4 K :=
  ![g1 0 + g1 1 * L2 + g1 3 * L2 ^ 2 / 2 - g1 2 * L2 ^ 3 / 6 + g2 0,
    g1 1 + g1 3 * L2 - g1 2 * L2 ^ 2 / 2 + g2 1, g1 2 + g2 2, g1 3 + g2 3 - g1 2 * L2]

theorem kFF_mulVec (EI L : K) (d : Vec4 K) : kFF EI L *ᵥ d
    = ![12 * EI / L ^ 3 * (d 0 - d 2) + 6 * EI / L ^ 2 * (d 1 + d 3),
        6 * EI / L ^ 2 * (d 0 - d 2) + 4 * EI / L * d 1 + 2 * EI / L * d 3,
        -(12 * EI / L ^ 3 * (d 0 - d 2) + 6 * EI / L ^ 2 * (d 1 + d 3)),
        6 * EI / L ^ 2 * (d 0 - d 2) + 2 * EI / L * d 1 + 4 * EI / L * d 3] := by
  ext p
  fin_cases p <;> simp [kFF, Matrix.mulVec, dotProduct, Fin.sum_univ_four] <;> ring

/-- The stiffness equation is the transfer relation. -/
theorem transfer_iff {EI L : K} (hL : L ≠ 0) (r d f : Vec4 K) :
    f = kFF EI L *ᵥ d + r ↔ Transfer EI L (loadState L r) d f := by
  rw [kFF_mulVec]
  constructor
  · rintro rfl
    constructor <;> simp [loadState] <;> field_simp <;> ring
  · rintro ⟨hv, ht, hV, hM⟩
    simp only [loadState, cons_val] at hv ht hV hM
    have e0 : f 0 = 12 * EI / L ^ 3 * (d 0 - d 2) + 6 * EI / L ^ 2 * (d 1 + d 3) + r 0 := by
      field_simp
      linear_combination 12 * hv - 6 * L * ht
    have e1 : f 1 = 6 * EI / L ^ 2 * (d 0 - d 2) + 4 * EI / L * d 1 + 2 * EI / L * d 3 + r 1 := by
      field_simp
      linear_combination 6 * hv - 2 * L * ht
    ext p
    fin_cases p
    · simpa using e0
    · simpa using e1
    · simp only [Fin.reduceFinMk, Pi.add_apply, cons_val]
      linear_combination hV - e0
    · simp only [Fin.reduceFinMk, Pi.add_apply, cons_val]
      rw [hM, e0, e1]
      field_simp
      ring

/-- Two consecutive pieces whose common node is free. -/
theorem Transfer.comp {EI L1 L2 : K} {g1 g2 d1 d2 f1 f2 : Vec4 K} (h1 : Transfer EI L1 g1 d1 f1)
    (h2 : Transfer EI L2 g2 d2 f2) (hv : d1 2 = d2 0) (ht : d1 3 = d2 1) (hV : f1 2 + f2 0 = 0)
    (hM : f1 3 + f2 1 = 0) : Transfer EI (L1 + L2) (joinState L2 g1 g2)
      ![d1 0, d1 1, d2 2, d2 3] ![f1 0, f1 1, f2 2, f2 3] := by
  obtain ⟨a1, a2, a3, a4⟩ := h1
  obtain ⟨b1, b2, b3, b4⟩ := h2
  constructor <;> simp only [joinState, cons_val]
  · linear_combination b1 + a1 - EI * hv - EI * L2 * ht + L2 * a2 + L2 ^ 2 / 2 * a4
      - L2 ^ 3 / 6 * a3 - L2 ^ 2 / 2 * hM + L2 ^ 3 / 6 * hV
  · linear_combination b2 + a2 - EI * ht + L2 * a4 - L2 ^ 2 / 2 * a3 - L2 * hM + L2 ^ 2 / 2 * hV
  · linear_combination b3 + a3 - hV
  · linear_combination b4 + a4 - L2 * a3 - hM + L2 * hV

/-! ### Loads -/

/-- The contribution of a force `P` at `a`. -/
def forceState (L P a : K) : Vec4 K :=
  ![-(P * (L - a) ^ 3 / 6), -(P * (L - a) ^ 2 / 2), P, -(P * (L - a))]

/-- The contribution of a couple `m` at `a`. -/
def coupleState (L m a : K) : Vec4 K := ![-(m * (L - a) ^ 2 / 2), -(m * (L - a)), 0, -m]

/-- The contribution of an intensity `w` from `a` to the end of the member,
growing at the rate `k`. -/
def rampState (L w k a : K) : Vec4 K :=
  ![-(w * (L - a) ^ 4 / 24 + k * (L - a) ^ 5 / 120), -(w * (L - a) ^ 3 / 6 + k * (L - a) ^ 4 / 24),
    w * (L - a) + k * (L - a) ^ 2 / 2, -(w * (L - a) ^ 2 / 2 + k * (L - a) ^ 3 / 6)]

theorem loadState_udl (w : K) {L : K} (hL : L ≠ 0) :
    loadState L (udlCnl w L).vec = rampState L w 0 0 := by
  ext p
  fin_cases p <;> simp [loadState, CNL.vec, udlCnl, rampState] <;> field_simp <;> ring

theorem loadState_pl (P : K) {a L : K} (hL : L ≠ 0) (ha : a ≤ L) :
    loadState L (plCnl P a L).vec = forceState L P a := by
  have h : max (L - a) 0 = L - a := max_eq_left (sub_nonneg.2 ha)
  ext p
  fin_cases p <;> simp [loadState, CNL.vec, plCnl, forceState, h] <;> field_simp <;> ring

theorem loadState_ml (m a : K) {L : K} (hL : L ≠ 0) :
    loadState L (mlCnl m a L).vec = coupleState L m a := by
  ext p
  fin_cases p <;> simp [loadState, CNL.vec, mlCnl, coupleState] <;> field_simp <;> ring

theorem loadState_pudl (w a c : K) {L : K} (hL : L ≠ 0) :
    loadState L (pudlCnl w a c L).vec = rampState L w 0 a - rampState L w 0 (a + c) := by
  ext p
  fin_cases p <;> simp [loadState, CNL.vec, pudlCnl, rampState] <;> field_simp <;> ring

theorem loadState_trapez (w1 w2 a : K) {c L : K} (hL : L ≠ 0) (hc : c ≠ 0) :
    loadState L (trapezCnl w1 w2 (w2 - w1) a c L).vec
      = rampState L w1 ((w2 - w1) / c) a - rampState L w2 ((w2 - w1) / c) (a + c) := by
  ext p
  fin_cases p <;> simp [loadState, CNL.vec, trapezCnl, rampState] <;> field_simp <;> ring

theorem join_force_left (x L P a : K) :
    joinState (L - x) (forceState x P a) 0 = forceState L P a := by
  ext p
  fin_cases p <;> simp [joinState, forceState] <;> ring

theorem join_force_right (x L P a : K) :
    joinState (L - x) 0 (forceState (L - x) P (a - x)) = forceState L P a := by
  ext p
  fin_cases p <;> simp [joinState, forceState]

theorem join_couple_left (x L P a : K) :
    joinState (L - x) (coupleState x P a) 0 = coupleState L P a := by
  ext p
  fin_cases p <;> simp [joinState, coupleState] <;> ring

theorem join_couple_right (x L P a : K) :
    joinState (L - x) 0 (coupleState (L - x) P (a - x)) = coupleState L P a := by
  ext p
  fin_cases p <;> simp [joinState, coupleState]

/-- A distributed load crossing the common node. -/
theorem join_ramp (x L w k a : K) :
    joinState (L - x) (rampState x w k a) (rampState (L - x) (w + k * (x - a)) k 0)
      = rampState L w k a := by
  ext p
  fin_cases p <;> simp [joinState, rampState] <;> ring

theorem join_ramp_right (x L w k a : K) :
    joinState (L - x) 0 (rampState (L - x) w k (a - x)) = rampState L w k a := by
  ext p
  fin_cases p <;> simp [joinState, rampState]

theorem join_add (L : K) (a b c d : Vec4 K) :
    joinState L (a + b) (c + d) = joinState L a c + joinState L b d := by
  ext p
  fin_cases p <;> simp [joinState] <;> ring

theorem join_sub (L : K) (a b c d : Vec4 K) :
    joinState L (a - b) (c - d) = joinState L a c - joinState L b d := by
  ext p
  fin_cases p <;> simp [joinState] <;> ring

theorem join_zero (L : K) : joinState L 0 0 = 0 := by
  ext p
  fin_cases p <;> simp [joinState]

theorem loadState_add (L : K) (a b : Vec4 K) : loadState L (a + b) = loadState L a + loadState L b := by
  ext p
  fin_cases p <;> simp [loadState] <;> ring

theorem loadState_zero (L : K) : loadState L 0 = 0 := by
  ext p
  fin_cases p <;> simp [loadState]

theorem rampState_end (L w k : K) : rampState L w k L = 0 := by
  ext p
  fin_cases p <;> simp [rampState]

/-! ### Dividing a load at a section -/

/-- What is left of a load on a span of length `L`, and what is right of it, when
the span is divided at `x`: distributed loads are cut there, forces and couples go
to the side they are on (to either one when exactly at `x`). -/
inductive Load.Split (x L : K) : Load K → Option (Load K) → Option (Load K) → Prop
  | udl (w) : Split x L (.udl w) (some (.udl w)) (some (.udl w))
  | plL (P a) : 0 ≤ a → a ≤ x → Split x L (.pl P a) (some (.pl P a)) none
  | plR (P a) : x ≤ a → a ≤ L → Split x L (.pl P a) none (some (.pl P (a - x)))
  | mlL (m a) : 0 ≤ a → a ≤ x → Split x L (.ml m a) (some (.ml m a)) none
  | mlR (m a) : x ≤ a → a ≤ L → Split x L (.ml m a) none (some (.ml m (a - x)))
  | pudlL (w a c) : 0 ≤ a → 0 ≤ c → a + c ≤ x →
      Split x L (.pudl w a c) (some (.pudl w a c)) none
  | pudlR (w a c) : x ≤ a → a ≤ L → 0 ≤ c →
      Split x L (.pudl w a c) none (some (.pudl w (a - x) c))
  | pudlM (w a c) : 0 ≤ a → a ≤ x → x ≤ a + c →
      Split x L (.pudl w a c) (some (.pudl w a (x - a))) (some (.pudl w 0 (a + c - x)))
  | trapezL (w1 w2 a c) : 0 ≤ a → 0 < c → a + c ≤ x →
      Split x L (.trapez w1 w2 a (some c)) (some (.trapez w1 w2 a (some c))) none
  | trapezR (w1 w2 a c) : x ≤ a → 0 < c → a + c ≤ L →
      Split x L (.trapez w1 w2 a (some c)) none (some (.trapez w1 w2 (a - x) (some c)))
  | trapezM (w1 w2 a c) : 0 ≤ a → a < x → x < a + c → a + c ≤ L →
      Split x L (.trapez w1 w2 a (some c))
        (some (.trapez w1 (w1 + (w2 - w1) * (x - a) / c) a (some (x - a))))
        (some (.trapez (w1 + (w2 - w1) * (x - a) / c) w2 0 (some (a + c - x))))

/-- Fixed-end forces of a load that may be absent. -/
def Member.refOpt (m : Member K) : Option (Load K) → Except PyErr (CNL K)
  | none => .ok ⟨0, 0, 0, 0⟩
  | some ld => m.ref ld

/-- A slender prismatic member with fixed ends. -/
def prism (EI L : K) : Member K := ⟨.const EI, L, .FF, none⟩

theorem prism_ref {EI L : K} {ld : Load K} {c : CNL K} (h : ld.getCnl L = .ok (.cnl c))
    (hic : ∀ k e, ld ≠ .ic k e) : ∃ c', (prism EI L).ref ld = .ok c' ∧ c'.vec = c.vec := by
  have h1 : (prism EI L).cnl ld = .ok c := by
    cases ld <;> first | exact absurd rfl (hic _ _) | simp [Member.cnl, prism, h]
  refine ⟨releaseCnl c L .FF, ?_, by simp [releaseCnl, CNL.vec]⟩
  simp only [Member.ref, h1]
  rfl

/-- Fixed-end forces of a partial uniform load, with the cover adjusted. -/
theorem pudl_getCnl (w a c L : K) (ha : a ≤ L) :
    (Load.pudl w a c).getCnl L = .ok (.cnl (pudlCnl w a (min c (L - a)) L)) := by
  simp only [Load.getCnl, if_neg (not_lt.2 ha)]
  congr 3
  by_cases h : L - (a + c) < 0
  · rw [if_pos h, min_eq_right (by linarith)]; ring
  · rw [if_neg h, min_eq_left (by linarith)]

theorem trapez_getCnl (w1 w2 a c L : K) (hc : 0 < c) (h : a + c ≤ L) :
    (Load.trapez w1 w2 a (some c)).getCnl L = .ok (.cnl (trapezCnl w1 w2 (w2 - w1) a c L)) := by
  have h1 : ¬ (L ≤ a ∨ c ≤ 0) := by
    rintro (h1 | h1) <;> linarith
  simp only [Load.getCnl, resolveTrapez, if_neg h1, if_neg (not_lt.2 h), if_neg (not_le.2 hc)]

/-- The fixed-end forces of the two parts of a load carry, along the two pieces of
the span, what the fixed-end forces of the whole load carry along the whole span. -/
theorem Load.Split.state {EI x L : K} (hx : 0 < x) (hxL : x < L) {ld : Load K}
    {o1 o2 : Option (Load K)} (h : ld.Split x L o1 o2) :
    ∃ c c1 c2, (prism EI L).ref ld = .ok c ∧ (prism EI x).refOpt o1 = .ok c1 ∧
      (prism EI (L - x)).refOpt o2 = .ok c2 ∧
      loadState L c.vec = joinState (L - x) (loadState x c1.vec) (loadState (L - x) c2.vec) := by
  have h0 : L ≠ 0 := (hx.trans hxL).ne'
  have h1 : x ≠ 0 := hx.ne'
  have h2 : L - x ≠ 0 := (sub_pos.2 hxL).ne'
  have z : (⟨0, 0, 0, 0⟩ : CNL K).vec = 0 := by ext p; fin_cases p <;> rfl
  have key : ∀ (ld : Load K) (o1 o2 : Option (Load K)) (g g1 g2 : Vec4 K)
      (_ : ∃ c, (prism EI L).ref ld = .ok c ∧ loadState L c.vec = g)
      (_ : ∃ c, (prism EI x).refOpt o1 = .ok c ∧ loadState x c.vec = g1)
      (_ : ∃ c, (prism EI (L - x)).refOpt o2 = .ok c ∧ loadState (L - x) c.vec = g2)
      (_ : joinState (L - x) g1 g2 = g), ∃ c c1 c2, (prism EI L).ref ld = .ok c ∧
        (prism EI x).refOpt o1 = .ok c1 ∧ (prism EI (L - x)).refOpt o2 = .ok c2 ∧
        loadState L c.vec = joinState (L - x) (loadState x c1.vec) (loadState (L - x) c2.vec) := by
    rintro ld o1 o2 g g1 g2 ⟨c, a1, a2⟩ ⟨c1, b1, b2⟩ ⟨c2, d1, d2⟩ hg
    exact ⟨c, c1, c2, a1, b1, d1, by rw [a2, b2, d2, hg]⟩
  have none' : ∀ l : K, ∃ c, (prism EI l).refOpt none = .ok c ∧ loadState l c.vec = 0 :=
    fun l => ⟨_, rfl, by rw [z, loadState_zero]⟩
  have udl' : ∀ (l w : K), l ≠ 0 → ∃ c, (prism EI l).ref (.udl w) = .ok c ∧
      loadState l c.vec = rampState l w 0 0 := by
    intro l w hl
    obtain ⟨c, e1, e2⟩ := prism_ref (EI := EI) (L := l) (ld := .udl w) (c := udlCnl w l) rfl
      (by simp)
    exact ⟨c, e1, by rw [e2, loadState_udl w hl]⟩
  have pl' : ∀ (l P a : K), l ≠ 0 → a ≤ l → ∃ c, (prism EI l).ref (.pl P a) = .ok c ∧
      loadState l c.vec = forceState l P a := by
    intro l P a hl ha
    obtain ⟨c, e1, e2⟩ := prism_ref (EI := EI) (L := l) (ld := .pl P a) (c := plCnl P a l) rfl
      (by simp)
    exact ⟨c, e1, by rw [e2, loadState_pl P hl ha]⟩
  have ml' : ∀ (l P a : K), l ≠ 0 → ∃ c, (prism EI l).ref (.ml P a) = .ok c ∧
      loadState l c.vec = coupleState l P a := by
    intro l P a hl
    obtain ⟨c, e1, e2⟩ := prism_ref (EI := EI) (L := l) (ld := .ml P a) (c := mlCnl P a l) rfl
      (by simp)
    exact ⟨c, e1, by rw [e2, loadState_ml P a hl]⟩
  have pudl' : ∀ (l w a c : K), l ≠ 0 → a ≤ l → ∃ k, (prism EI l).ref (.pudl w a c) = .ok k ∧
      loadState l k.vec = rampState l w 0 a - rampState l w 0 (min (a + c) l) := by
    intro l w a c hl ha
    obtain ⟨k, e1, e2⟩ := prism_ref (EI := EI) (L := l) (ld := .pudl w a c) (pudl_getCnl w a c l ha)
      (by simp)
    refine ⟨k, e1, ?_⟩
    rw [e2, loadState_pudl w a _ hl]
    congr 2
    rw [← min_add_add_left]
    congr 1
    ring
  have trapez' : ∀ (l w1 w2 a c : K), l ≠ 0 → 0 < c → a + c ≤ l → ∃ k,
      (prism EI l).ref (.trapez w1 w2 a (some c)) = .ok k ∧
      loadState l k.vec
        = rampState l w1 ((w2 - w1) / c) a - rampState l w2 ((w2 - w1) / c) (a + c) := by
    intro l w1 w2 a c hl hc ha
    obtain ⟨k, e1, e2⟩ := prism_ref (EI := EI) (L := l) (ld := .trapez w1 w2 a (some c))
      (trapez_getCnl w1 w2 a c l hc ha) (by simp)
    exact ⟨k, e1, by rw [e2, loadState_trapez w1 w2 a hl hc.ne']⟩
  cases h with
  | udl w =>
    refine key _ _ _ _ _ _ (udl' L w h0) (udl' x w h1) (udl' _ w h2) ?_
    rw [← join_ramp x L w 0 0]
    simp
  | plL P a ha hax =>
    exact key _ _ _ _ _ _ (pl' L P a h0 (by linarith)) (pl' x P a h1 hax) (none' _)
      (join_force_left x L P a)
  | plR P a ha hax =>
    exact key _ _ _ _ _ _ (pl' L P a h0 hax) (none' _) (pl' _ P _ h2 (by linarith))
      (join_force_right x L P a)
  | mlL P a ha hax =>
    exact key _ _ _ _ _ _ (ml' L P a h0) (ml' x P a h1) (none' _)
      (join_couple_left x L P a)
  | mlR P a ha hax =>
    exact key _ _ _ _ _ _ (ml' L P a h0) (none' _) (ml' _ P _ h2)
      (join_couple_right x L P a)
  | pudlL w a c ha hc hac =>
    refine key _ _ _ _ _ _ (pudl' L w a c h0 (by linarith)) (pudl' x w a c h1 (by linarith))
      (none' _) ?_
    rw [min_eq_left hac, min_eq_left (by linarith)]
    rw [← join_ramp x L w 0 a, ← join_ramp x L w 0 (a + c), ← join_sub]
    simp
  | pudlR w a c ha hc hac =>
    refine key _ _ _ _ _ _ (pudl' L w a c h0 (by linarith)) (none' _)
      (pudl' _ w _ c h2 (by linarith)) ?_
    have : min (a - x + c) (L - x) = min (a + c) L - x := by
      rw [← min_sub_sub_right]
      congr 1
      ring
    rw [this, ← join_ramp_right x L w 0 a, ← join_ramp_right x L w 0 (min (a + c) L), ← join_sub]
    simp
  | pudlM w a c ha hax hac =>
    refine key _ _ _ _ _ _ (pudl' L w a c h0 (by linarith)) (pudl' x w a _ h1 hax)
      (pudl' _ w _ _ h2 (by linarith)) ?_
    have e1 : min (a + (x - a)) x = x := by rw [add_sub_cancel, min_self]
    have e2 : min (0 + (a + c - x)) (L - x) = min (a + c) L - x := by
      rw [← min_sub_sub_right]
      congr 1
      ring
    rw [e1, e2, ← join_ramp x L w 0 a, ← join_ramp_right x L w 0 (min (a + c) L), ← join_sub,
      rampState_end]
    simp
  | trapezL w1 w2 a c ha hc hac =>
    refine key _ _ _ _ _ _ (trapez' L w1 w2 a c h0 hc (by linarith))
      (trapez' x w1 w2 a c h1 hc hac) (none' _) ?_
    rw [← join_ramp x L w1 _ a, ← join_ramp x L w2 _ (a + c), ← join_sub]
    congr 1
    have : w1 + (w2 - w1) / c * (x - a) = w2 + (w2 - w1) / c * (x - (a + c)) := by
      field_simp; ring
    rw [this, sub_self]
  | trapezR w1 w2 a c ha hc hac =>
    refine key _ _ _ _ _ _ (trapez' L w1 w2 a c h0 hc hac) (none' _)
      (trapez' _ w1 w2 _ c h2 hc (by linarith)) ?_
    have : a - x + c = a + c - x := by ring
    rw [this, ← join_ramp_right x L w1 _ a, ← join_ramp_right x L w2 _ (a + c), ← join_sub, sub_self]
  | trapezM w1 w2 a c ha hax hxc hac =>
    have hc : 0 < c := by linarith
    have hxa : 0 < x - a := by linarith
    have hcx : 0 < a + c - x := by linarith
    refine key _ _ _ _ _ _ (trapez' L w1 w2 a c h0 hc hac) (trapez' x w1 _ a _ h1 hxa (by linarith))
      (trapez' _ _ w2 0 _ h2 hcx (by linarith)) ?_
    have e1 : (w1 + (w2 - w1) * (x - a) / c - w1) / (x - a) = (w2 - w1) / c := by
      field_simp; ring
    have e2 : (w2 - (w1 + (w2 - w1) * (x - a) / c)) / (a + c - x) = (w2 - w1) / c := by
      rw [div_eq_div_iff hcx.ne' hc.ne']
      field_simp
      ring
    have e3 : a + (x - a) = x := by ring
    have e4 : 0 + (a + c - x) = a + c - x := by ring
    have e5 : w1 + (w2 - w1) * (x - a) / c = w1 + (w2 - w1) / c * (x - a) := by ring
    rw [e1, e2, e3, e4, rampState_end, ← join_ramp x L w1 _ a, ← join_ramp_right x L w2 _ (a + c),
      ← join_sub, e5]

end PyCBA
