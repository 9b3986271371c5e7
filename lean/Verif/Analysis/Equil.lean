import Verif.Analysis.Lemmas
import Verif.Load.Props

set_option linter.unusedSectionVars false
set_option linter.unusedSimpArgs false

/-!
Properties of a completed analysis: prescribed displacements (C16), equilibrium
of the free degrees of freedom (C17), global equilibrium (C18, C19).
-/

namespace PyCBA

open Matrix Finset

section general

variable {K : Type*} [Field K] [LinearOrder K] [IsStrictOrderedRing K]

/-! ### Solvers for the examples -/

theorem ok_of_map {α β ε : Type*} {x : Except ε α} {f : α → β} {y : β}
    (h : x.toOption.map f = some y) : ∃ r, x = .ok r ∧ f r = y := by
  cases x with
  | error e => cases h
  | ok r => exact ⟨r, rfl, by simpa [Except.toOption] using h⟩

/-- A solver that returns `x` when it is a solution and raises otherwise (used for
the concrete cases beside the theorems). -/
def trySolver (x : ℕ → K) : Solver K := fun N A b =>
  if ∀ p < N, mulN N A x p = b p then .ok x else .error .valueError

theorem trySolver_sound (x : ℕ → K) : (trySolver x).Sound := by
  intro N A b y h
  unfold trySolver at h
  split at h
  · cases h; assumption
  · cases h

theorem System.analyze_try (s : System K) (x : ℕ → K) (hv : s.validate s.forces = true)
    (h1 : ∀ p < s.N, ∀ v, s.constr p = some v → x p = v)
    (h2 : ∀ p < s.N, s.constr p = none → s.residual x p = 0) :
    s.analyze (trySolver x) = .ok ⟨x, s.reactions x, s.springForces x, s.endForces x⟩ := by
  have h3 := (s.reduced_iff s.assemble s.forces x).2 ⟨h1, fun p hp hc => by
    have := h2 p hp hc
    simp only [System.residual] at this
    exact sub_eq_zero.1 this⟩
  simp only [System.analyze, hv, if_true, trySolver]
  rw [if_pos h3]

/-! ## C16 -/

/-- **C16**: a completed analysis meets every prescribed displacement exactly, and
rigid supports without a prescribed value do not move, whatever the solver. -/
theorem C16_prescribed_met (b : BeamDef K) (stable : System K → Bool) (solve : Solver K)
    (hs : solve.Sound) (res : Result K) (h : b.analyze stable solve = .ok res)
    (i : ℕ) (hi : i < 2 * b.members.length + 2) :
    (∀ v, b.presc[i]? = some (some v) → res.d i = v) ∧
    (∀ ρ, b.restraints[i]? = some ρ → ρ < 0 → b.presc[i]? = some none → res.d i = 0) := by
  obtain ⟨s, h1, h2⟩ := BeamDef.analyze_ok h
  obtain ⟨hn, _, _, hr, hp, _, _⟩ := BeamDef.system_ok h1
  obtain ⟨⟨hd, _⟩, _⟩ := System.analyze_ok hs h2
  have hi' : i < s.N := by simp only [System.N, hn]; omega
  constructor
  · intro v hv
    apply hd i hi'
    simp [System.constr, hp, List.getD_eq_getElem?_getD, hv]
  · intro ρ hρ hneg hv
    apply hd i hi'
    simp [System.constr, hp, hr, List.getD_eq_getElem?_getD, hv, hρ, hneg]

/-! ## C17 -/

/-- **C17**: at every node of a completed analysis, each component (`c = 0`
vertical, `c = 1` rotation) that is neither rigidly restrained nor prescribed is in
equilibrium: the reported end forces of the members meeting there and the force of
the spring, if there is one, add up to zero. -/
theorem C17_free_equilibrium (b : BeamDef K) (stable : System K → Bool) (solve : Solver K)
    (hs : solve.Sound) (res : Result K) (h : b.analyze stable solve = .ok res)
    (j : ℕ) (hj : j ≤ b.members.length) (c : Fin 2) (ρ : K)
    (hρ : b.restraints[2 * j + (c : ℕ)]? = some ρ) (hfree : 0 ≤ ρ)
    (hpr : b.presc[2 * j + (c : ℕ)]? = some none) :
    (if 0 < j then res.fmbr (j - 1) ⟨2 + c, by omega⟩ else 0)
      + (if j < b.members.length then res.fmbr j ⟨c, by omega⟩ else 0)
      + ρ * res.d (2 * j + c) = 0 := by
  obtain ⟨s, h1, h2⟩ := BeamDef.analyze_ok h
  obtain ⟨hn, _, _, hr, hp, _, _⟩ := BeamDef.system_ok h1
  obtain ⟨⟨_, hf⟩, _, _, hfm, _⟩ := System.analyze_ok hs h2
  have hc := c.isLt
  have h3 := hf (2 * j + c) (by simp only [System.N, hn]; omega) (by
    simp [System.constr, hp, hr, List.getD_eq_getElem?_getD, hρ, hpr, not_lt.mpr hfree])
  rw [s.residual_node res.d j (by omega) c] at h3
  rw [hfm, ← hn]
  have hspring : s.spring (2 * j + c) = ρ := by
    simp only [System.spring, hr, List.getD_eq_getElem?_getD, hρ, Option.getD_some]
    rcases hfree.lt_or_eq with h4 | h4
    · rw [if_pos h4]
    · rw [← h4]; simp
  rw [hspring] at h3
  exact h3

/-! ## Global equilibrium -/

/-- The reported reactions with the number of their degree of freedom (`2 j`:
vertical at node `j`; `2 j + 1`: rotation at node `j`): the `r` array belongs, in
order, to the restraints that are negative, the `rs` array to the positive ones. -/
def BeamDef.reported (b : BeamDef K) (res : Result K) : List (ℕ × K) :=
  let dofs := List.range (2 * b.members.length + 2)
  (dofs.filter fun i => b.restraints.getD i 0 < 0).zip res.r
    ++ (dofs.filter fun i => 0 < b.restraints.getD i 0).zip res.rs

/-- Position of node `j` along the beam. -/
def BeamDef.nodeX (b : BeamDef K) (j : ℕ) : K := ((b.members.take j).map Member.L).sum

theorem zip_map_sum {α : Type*} (l : List α) (f g : α → K) :
    ((l.zip (l.map f)).map fun q => g q.1 * q.2).sum = (l.map fun i => g i * f i).sum := by
  induction l with
  | nil => rfl
  | cons a l ih => simp [ih]

theorem filter_range_sum (N : ℕ) (P : ℕ → Prop) [DecidablePred P] (f : ℕ → K) :
    (((List.range N).filter fun i => P i).map f).sum = ∑ p ∈ range N, if P p then f p else 0 := by
  induction N with
  | zero => simp
  | succ N ih =>
    rw [List.range_succ, List.filter_append, List.map_append, List.sum_append, ih,
      Finset.sum_range_succ]
    by_cases h : P N <;> simp [h]

/-- Work of the reported reactions in a motion `u` that strains no member. -/
theorem System.reaction_work (s : System K) (d u : ℕ → K)
    (hfree : ∀ p < s.N, s.constr p = none → s.residual d p = 0)
    (hpr : ∀ p < s.N, (s.presc p).isSome → s.r p < 0)
    (hu : ∀ i < s.n, elemVec u i ⬝ᵥ (s.kb i *ᵥ elemVec d i) = 0) :
    (((((List.range s.N).filter fun i => s.r i < 0).zip (s.reactions d)).map
        fun q => u q.1 * q.2).sum
      + ((((List.range s.N).filter fun i => 0 < s.r i).zip (s.springForces d)).map
        fun q => u q.1 * q.2).sum)
      = ∑ i ∈ range s.n, elemVec u i ⬝ᵥ s.ref i := by
  simp only [System.reactions, System.springForces]
  rw [zip_map_sum, zip_map_sum, filter_range_sum, filter_range_sum]
  have h1 : ∑ p ∈ range s.N, (if s.r p < 0 then u p * s.residual d p else 0)
      = ∑ p ∈ range s.N, u p * s.residual d p := by
    apply Finset.sum_congr rfl
    intro p hp
    split
    · rfl
    · rename_i hr
      rw [hfree p (Finset.mem_range.1 hp), mul_zero]
      rcases hc : s.presc p with _ | v
      · simp [System.constr, hc, hr]
      · exact absurd (hpr p (Finset.mem_range.1 hp) (by simp [hc])) hr
  have h2 : ∑ p ∈ range s.N, (if 0 < s.r p then u p * (-s.r p * d p) else 0)
      = -∑ p ∈ range s.N, s.spring p * u p * d p := by
    rw [← Finset.sum_neg_distrib]
    apply Finset.sum_congr rfl
    intro p _
    simp only [System.spring]
    split <;> ring
  rw [h1, h2]
  simp only [System.residual, mul_sub, Finset.sum_sub_distrib]
  rw [s.virtual_work, s.forces_work, Finset.sum_eq_zero fun i hi => hu i (Finset.mem_range.1 hi)]
  ring

/-- A rigid motion strains no usable member. -/
theorem rigid_no_work {m : Member K} (hm : m.Good) {k : Mat4 K} (hk : m.spanK = .ok k)
    (a t : K) (v : Vec4 K) : rigidMotion a t m.L ⬝ᵥ (k *ᵥ v) = 0 := by
  obtain ⟨k', h1, h2⟩ := C12_rigid_body m hm a t
  rw [hk] at h1
  cases h1
  have hsym : kᵀ = k := by
    ext p q
    exact C11_stiffness_symmetric m k hk q p
  rw [dotProduct_mulVec, ← hsym, vecMul_transpose, h2]
  simp

/-- Displacements of the rigid motion with translation `a` and rotation `t`. -/
def BeamDef.rigid (b : BeamDef K) (a t : K) (p : ℕ) : K :=
  if p % 2 = 0 then a + t * b.nodeX (p / 2) else t

theorem BeamDef.nodeX_succ (b : BeamDef K) (i : ℕ) (hi : i < b.members.length) :
    b.nodeX (i + 1) = b.nodeX i + b.members[i].L := by
  simp only [BeamDef.nodeX, List.take_succ, List.getElem?_eq_getElem hi, Option.toList_some,
    List.map_append, List.sum_append, List.map_cons, List.map_nil, List.sum_cons, List.sum_nil,
    add_zero]

theorem BeamDef.rigid_elem (b : BeamDef K) (a t : K) (i : ℕ) (hi : i < b.members.length) :
    elemVec (b.rigid a t) i = rigidMotion (a + t * b.nodeX i) t b.members[i].L := by
  ext p
  have e1 : (2 * i + 1) % 2 = 1 := by omega
  have e2 : (2 * i + 2) % 2 = 0 := by omega
  have e3 : (2 * i + 3) % 2 = 1 := by omega
  have e4 : (2 * i + 2) / 2 = i + 1 := by omega
  fin_cases p
  · simp [elemVec, BeamDef.rigid, rigidMotion]
  · simp [elemVec, BeamDef.rigid, rigidMotion, e1]
  · simp [elemVec, BeamDef.rigid, rigidMotion, e2, e4, b.nodeX_succ i hi]
    ring
  · simp [elemVec, BeamDef.rigid, rigidMotion, e3]

/-- The reported reactions do as much work in a rigid motion as the fixed-end
forces of the members. -/
theorem BeamDef.reported_work (b : BeamDef K) (hgood : ∀ m ∈ b.members, m.Good)
    (stable : System K → Bool) (solve : Solver K) (hs : solve.Sound) (res : Result K)
    (h : b.analyze stable solve = .ok res)
    (hpr : ∀ (i : ℕ) (v : K), b.presc[i]? = some (some v) → b.restraints.getD i 0 < 0) (a t : K) :
    ∃ s : System K, b.system = .ok s ∧
    ((b.reported res).map fun q => b.rigid a t q.1 * q.2).sum
      = ∑ i ∈ range b.members.length, elemVec (b.rigid a t) i ⬝ᵥ s.ref i := by
  obtain ⟨s, h1, h2⟩ := BeamDef.analyze_ok h
  obtain ⟨hn, hk, _, hr, hp, hl1, hl2⟩ := BeamDef.system_ok h1
  obtain ⟨⟨_, hf⟩, hr1, hr2, _, _⟩ := System.analyze_ok hs h2
  refine ⟨s, h1, ?_⟩
  have := s.reaction_work res.d (b.rigid a t) hf (fun p hpN hsome => by
      rw [hr]
      rw [hp, List.getD_eq_getElem?_getD] at hsome
      rcases hq : b.presc[p]? with _ | (_ | v)
      · simp [hq] at hsome
      · simp [hq] at hsome
      · exact hpr p v hq) (fun i hi => by
      rw [hn] at hi
      rw [b.rigid_elem a t i hi]
      exact rigid_no_work (hgood _ (List.getElem_mem hi)) (hk i hi) _ _ _)
  rw [← hr1, ← hr2] at this
  simp only [System.N, hn, hr] at this
  simp only [BeamDef.reported, List.map_append, List.sum_append]
  exact this

end general

section loads

variable {K : Type*} [Field K] [LinearOrder K] [IsStrictOrderedRing K]

theorem releaseRef_equil (ref c' : CNL K) (F : Matrix (Fin 2) (Fin 2) K) (L : K) (hL : L ≠ 0)
    (et : EType) (h : releaseRef ref (match inv2 F with
      | .error e => .error e
      | .ok Kth => condenseFor (TtKT Kth L) .FF) L et = .ok c') :
    c'.Va + c'.Vb = ref.Va + ref.Vb ∧
      (et ≠ .PP → c'.Ma + c'.Mb + c'.Vb * L = ref.Ma + ref.Mb + ref.Vb * L) := by
  cases et with
  | FF => cases h; simp
  | PP => cases h; simp
  | FP =>
    simp only [releaseRef] at h
    split at h
    · cases h
    · rename_i kff hk
      split at h
      · cases h
      · cases h
        split at hk
        · cases hk
        · cases hk
          rename_i Kth _
          rw [TtKT_apply]
          simp
          constructor
          · ring
          · field_simp
            ring
  | PF =>
    simp only [releaseRef] at h
    split at h
    · cases h
    · rename_i kff hk
      split at h
      · cases h
      · cases h
        split at hk
        · cases hk
        · cases hk
          rename_i Kth _
          rw [TtKT_apply]
          simp
          constructor
          · ring
          · field_simp
            ring

theorem refFF_equil (c : CNL K) (Ma Mb L : K) (hL : L ≠ 0) :
    (refFF c Ma Mb L).Va + (refFF c Ma Mb L).Vb = c.Va + c.Vb ∧
    (refFF c Ma Mb L).Ma + (refFF c Ma Mb L).Mb + (refFF c Ma Mb L).Vb * L
      = c.Ma + c.Mb + c.Vb * L := by
  simp only [refFF]
  constructor
  · ring
  · field_simp
    ring

/-- The released end forces of a member balance the same load as the clamped
slender ones; for the moment, unless the member is pinned-pinned. -/
theorem Member.ref_equil (m : Member K) (hL : m.L ≠ 0) (ld : Load K) (c c' : CNL K)
    (hc : m.cnl ld = .ok c) (h : m.ref ld = .ok c') :
    c'.Va + c'.Vb = c.Va + c.Vb ∧
      (m.et ≠ .PP → c'.Ma + c'.Mb + c'.Vb * m.L = c.Ma + c.Mb + c.Vb * m.L) := by
  have hrel : ∀ (Ma Mb : K) (F : Matrix (Fin 2) (Fin 2) K) (c' : CNL K),
      releaseRef (refFF c Ma Mb m.L) (match inv2 F with
        | .error e => .error e
        | .ok Kth => condenseFor (TtKT Kth m.L) .FF) m.L m.et = .ok c' →
      c'.Va + c'.Vb = c.Va + c.Vb ∧
      (m.et ≠ .PP → c'.Ma + c'.Mb + c'.Vb * m.L = c.Ma + c.Mb + c.Vb * m.L) := by
    intro Ma Mb F c' h
    obtain ⟨e1, e2⟩ := releaseRef_equil _ _ _ _ hL _ h
    obtain ⟨e3, e4⟩ := refFF_equil c Ma Mb m.L hL
    exact ⟨e1.trans e3, fun het => (e2 het).trans e4⟩
  obtain ⟨EI, L, et, GAv⟩ := m
  simp only at *
  cases GAv with
  | none =>
    cases EI with
    | const e =>
      simp only [Member.ref, hc] at h
      cases h
      cases et <;> simp only [releaseCnl] <;> constructor <;>
        first
          | ring1
          | (intro h; exact absurd rfl h)
          | (intro; ring1)
          | (intro; field_simp; ring1)
    | «section» s =>
      simp only [Member.ref, hc] at h
      split at h
      · cases h
      · exact hrel _ _ _ _ h
  | some g =>
    have hvar : ∀ EI g, (match inv2 (timoFlexibility EI g L) with
        | .error e => Except.error e
        | .ok Kth =>
          let t := theta0 ld EI (some g) L
          releaseRef (refFF c (Kth 0 0 * t.1 + Kth 0 1 * t.2) (Kth 1 0 * t.1 + Kth 1 1 * t.2) L)
            (kTimoshenko EI g L .FF) L et) = .ok c' →
        c'.Va + c'.Vb = c.Va + c.Vb ∧
        (et ≠ .PP → c'.Ma + c'.Mb + c'.Vb * L = c.Ma + c.Mb + c.Vb * L) := by
      intro EI g h
      split at h
      · cases h
      · exact hrel _ _ _ _ h
    cases EI with
    | const e =>
      cases g with
      | const g =>
        simp only [Member.ref, hc] at h
        exact hrel _ _ _ _ h
      | «section» gs =>
        simp only [Member.ref, hc] at h
        exact hvar _ _ h
    | «section» s =>
      simp only [Member.ref, hc] at h
      exact hvar _ _ h

/-- The load's position makes sense on a span of length `L` (a distributed load
may overhang the right end, which is what `Starts` allows). -/
def Load.Placed (L : K) : Load K → Prop
  | .ic _ _ => True
  | ld => ld.Starts L

theorem Member.ref_total (m : Member ℝ) (hL : 0 < m.L) (ld : Load ℝ) (hp : ld.Placed m.L)
    (c' : CNL ℝ) (h : m.ref ld = .ok c') :
    c'.Va + c'.Vb = ld.total m.L ∧
      (m.et ≠ .PP → c'.Ma + c'.Mb + c'.Vb * m.L = ld.momentAboutLeft m.L) := by
  have hcnl : ∃ c, m.cnl ld = .ok c := by
    unfold Member.ref at h
    split at h
    · cases h
    · exact ⟨_, by assumption⟩
  obtain ⟨c, hc⟩ := hcnl
  have hcc : c.Va + c.Vb = ld.total m.L ∧ c.Ma + c.Mb + c.Vb * m.L = ld.momentAboutLeft m.L := by
    have H := C01_fixed_end_equilibrium ld m.L hL
    cases ld with
    | ic k EI =>
      have hz : Load.total m.L (.ic k EI) = 0 ∧ Load.momentAboutLeft m.L (.ic k EI) = 0 := by
        simp [Load.total, Load.momentAboutLeft, Load.intensity, Load.forces, Load.couples]
      rw [hz.1, hz.2]
      have hL0 := hL.ne'
      simp only [Member.cnl] at hc
      split at hc
      · rename_i k' EI' s hk hE
        simp only [icCnlSection] at hc
        split at hc
        · cases hc
        · cases hc
          simp only
          constructor
          · ring
          · field_simp
            ring
      · cases hc
        simp only [icCnl]
        constructor
        · ring
        · field_simp
          ring
      · rename_i hh1 hh2
        rcases hE : m.EI with e | s
        · exact absurd hE (hh2 _ _ e rfl)
        · exact absurd hE (hh1 _ _ s rfl)
    | _ =>
      obtain ⟨c1, h3, h4⟩ := H hp
      rcases hE : m.EI with e | s <;> simp only [Member.cnl, hE, h3] at hc <;> cases hc <;>
        exact h4
  obtain ⟨e1, e2⟩ := m.ref_equil hL.ne' ld c c' hc h
  exact ⟨e1.trans hcc.1, fun het => (e2 het).trans hcc.2⟩

/-- What a linear functional takes on the summed fixed-end forces of a member. -/
theorem Member.refSum_lin (m : Member K) (i : ℕ) (φ : CNL K → K) (h0 : φ ⟨0, 0, 0, 0⟩ = 0)
    (hadd : ∀ c t : CNL K, φ ⟨c.Va + t.Va, c.Ma + t.Ma, c.Vb + t.Vb, c.Mb + t.Mb⟩ = φ c + φ t)
    (ψ : SpanLoad K → K) (ls : List (SpanLoad K))
    (hφ : ∀ l ∈ ls, l.iSpan = (i : ℤ) → ∀ c, m.ref l.load = .ok c → φ c = ψ l)
    (c : CNL K) (h : m.refSum i ls = .ok c) :
    φ c = ((ls.filter fun l => l.iSpan = (i : ℤ)).map ψ).sum := by
  induction ls generalizing c with
  | nil => cases h; simpa using h0
  | cons l ls ih =>
    simp only [Member.refSum] at h
    have ih' := ih fun l' hl' => hφ l' (List.mem_cons_of_mem _ hl')
    by_cases hl : l.iSpan = (i : ℤ)
    · rw [if_pos hl] at h
      split at h
      · cases h
      · rename_i c1 hc1
        split at h
        · cases h
        · rename_i t ht
          cases h
          rw [hadd, hφ l (by simp) hl c1 hc1, ih' t ht]
          simp [hl]
    · rw [if_neg hl] at h
      rw [ih' c h]
      simp [hl]

/-- Summing over the spans what each load contributes to its own span. -/
theorem sum_by_span (n : ℕ) (ls : List (SpanLoad K))
    (hr : ∀ l ∈ ls, 0 ≤ l.iSpan ∧ l.iSpan < n) (ψ : ℕ → SpanLoad K → K) :
    ∑ i ∈ range n, ((ls.filter fun l => l.iSpan = (i : ℤ)).map (ψ i)).sum
      = (ls.map fun l => ψ l.iSpan.toNat l).sum := by
  induction ls with
  | nil => simp
  | cons l ls ih =>
    have ih' := ih fun l' hl' => hr l' (List.mem_cons_of_mem _ hl')
    obtain ⟨h1, h2⟩ := hr l (by simp)
    rw [List.map_cons, List.sum_cons, ← ih']
    have : ∀ i ∈ range n, (((l :: ls).filter fun l => l.iSpan = (i : ℤ)).map (ψ i)).sum
        = (if i = l.iSpan.toNat then ψ i l else 0)
          + ((ls.filter fun l => l.iSpan = (i : ℤ)).map (ψ i)).sum := by
      intro i _
      by_cases hl : l.iSpan = (i : ℤ)
      · simp [hl]
      · have : ¬ i = l.iSpan.toNat := by omega
        simp [hl, this]
    rw [Finset.sum_congr rfl this, Finset.sum_add_distrib, Finset.sum_ite_eq']
    rw [if_pos]
    simp only [Finset.mem_range]
    omega

end loads

/-! ## C18, C19 -/

/-- Every load row names a span of the beam and its load is placed on that span. -/
def BeamDef.LoadsPlaced (b : BeamDef ℝ) (ls : List (SpanLoad ℝ)) : Prop :=
  ∀ l ∈ ls, 0 ≤ l.iSpan ∧ l.iSpan < b.members.length ∧ l.load.Placed (b.spanL l.iSpan.toNat)

/-- Total of the applied loads. -/
noncomputable def BeamDef.totalLoad (b : BeamDef ℝ) (ls : List (SpanLoad ℝ)) : ℝ :=
  (ls.map fun l => l.load.total (b.spanL l.iSpan.toNat)).sum

/-- Moment of the applied loads about the left end of the beam. -/
noncomputable def BeamDef.totalMoment (b : BeamDef ℝ) (ls : List (SpanLoad ℝ)) : ℝ :=
  (ls.map fun l => b.nodeX l.iSpan.toNat * l.load.total (b.spanL l.iSpan.toNat)
    + l.load.momentAboutLeft (b.spanL l.iSpan.toNat)).sum

theorem BeamDef.spanL_eq (b : BeamDef ℝ) (i : ℕ) (hi : i < b.members.length) :
    b.spanL i = b.members[i].L := by
  simp [BeamDef.spanL, List.getD_eq_getElem?_getD, List.getElem?_eq_getElem, hi]

/-- **C18**: the reported vertical reactions, of rigid supports and of springs, add
up to the total applied load.  Displacements may be prescribed at rigid supports;
at other degrees of freedom no reaction is reported for them and the claim fails,
see `C18_prescribed_without_support`. -/
theorem C18_vertical_equilibrium_partial (b : BeamDef ℝ) (hgood : ∀ m ∈ b.members, m.Good)
    (stable : System ℝ → Bool) (solve : Solver ℝ) (hs : solve.Sound) (res : Result ℝ)
    (h : b.analyze stable solve = .ok res)
    (hpr : ∀ (i : ℕ) (v : ℝ), b.presc[i]? = some (some v) → b.restraints.getD i 0 < 0)
    (ls : List (SpanLoad ℝ)) (hls : parseLM b.LM = .ok ls) (hpl : b.LoadsPlaced ls) :
    (((b.reported res).filter fun q => q.1 % 2 = 0).map Prod.snd).sum = b.totalLoad ls := by
  obtain ⟨s, h1, h2⟩ := b.reported_work hgood stable solve hs res h hpr 1 0
  obtain ⟨hn, _, ⟨ls', hl', hc⟩, _⟩ := BeamDef.system_ok h1
  have hll : ls' = ls := by
    unfold BeamDef.setLoads at hl'
    rw [hls] at hl'
    simp only at hl'
    split at hl'
    · cases hl'; rfl
    · cases hl'
  subst hll
  have e1 : (((b.reported res).filter fun q => q.1 % 2 = 0).map Prod.snd).sum
      = ((b.reported res).map fun q => b.rigid 1 0 q.1 * q.2).sum := by
    generalize b.reported res = l
    induction l with
    | nil => rfl
    | cons q l ih =>
      by_cases hq : q.1 % 2 = 0
      · simp [hq, BeamDef.rigid] at ih ⊢
        exact ih
      · simp [hq, BeamDef.rigid] at ih ⊢
        exact ih
  rw [e1, h2, BeamDef.totalLoad,
    ← sum_by_span b.members.length ls' (fun l hl => ⟨(hpl l hl).1, (hpl l hl).2.1⟩)
      fun i l => l.load.total (b.spanL i)]
  apply Finset.sum_congr rfl
  intro i hi
  have hi' := Finset.mem_range.1 hi
  obtain ⟨c, hc1, hc2⟩ := hc i hi'
  rw [b.rigid_elem 1 0 i hi', hc2]
  have := (b.members[i]).refSum_lin i (fun c => c.Va + c.Vb) (by simp) (by intros; simp; ring)
    (fun l => l.load.total (b.spanL i)) ls' (by
      intro l hl hli c hc
      obtain ⟨_, _, h3⟩ := hpl l hl
      rw [hli, Int.toNat_natCast, b.spanL_eq i hi'] at h3
      rw [b.spanL_eq i hi']
      exact ((b.members[i]).ref_total (hgood _ (List.getElem_mem hi')).1 l.load h3 c hc).1) c hc1
  rw [← this]
  simp [rigidMotion, dot4, CNL.vec]

/-- **C19**: the moment of all reported reactions about the left end of the beam is
that of the applied loads, for beams without pinned-pinned members.  The full claim
covers those too; there it is false, see `C19_pinned_pinned_violation`. -/
theorem C19_moment_equilibrium_partial (b : BeamDef ℝ)
    (hgood : ∀ m ∈ b.members, m.Good ∧ m.et ≠ .PP)
    (stable : System ℝ → Bool) (solve : Solver ℝ) (hs : solve.Sound) (res : Result ℝ)
    (h : b.analyze stable solve = .ok res)
    (hpr : ∀ (i : ℕ) (v : ℝ), b.presc[i]? = some (some v) → b.restraints.getD i 0 < 0)
    (ls : List (SpanLoad ℝ)) (hls : parseLM b.LM = .ok ls) (hpl : b.LoadsPlaced ls) :
    ((b.reported res).map fun q =>
        if q.1 % 2 = 0 then b.nodeX (q.1 / 2) * q.2 else q.2).sum = b.totalMoment ls := by
  obtain ⟨s, h1, h2⟩ := b.reported_work (fun m hm => (hgood m hm).1) stable solve hs res h hpr 0 1
  obtain ⟨hn, _, ⟨ls', hl', hc⟩, _⟩ := BeamDef.system_ok h1
  have hll : ls' = ls := by
    unfold BeamDef.setLoads at hl'
    rw [hls] at hl'
    simp only at hl'
    split at hl'
    · cases hl'; rfl
    · cases hl'
  subst hll
  have e1 : ((b.reported res).map fun q =>
        if q.1 % 2 = 0 then b.nodeX (q.1 / 2) * q.2 else q.2)
      = (b.reported res).map fun q => b.rigid 0 1 q.1 * q.2 := by
    apply List.map_congr_left
    intro q _
    by_cases hq : q.1 % 2 = 0 <;> simp [hq, BeamDef.rigid]
  rw [e1, h2, BeamDef.totalMoment,
    ← sum_by_span b.members.length ls' (fun l hl => ⟨(hpl l hl).1, (hpl l hl).2.1⟩)
      fun i l => b.nodeX i * l.load.total (b.spanL i) + l.load.momentAboutLeft (b.spanL i)]
  apply Finset.sum_congr rfl
  intro i hi
  have hi' := Finset.mem_range.1 hi
  obtain ⟨c, hc1, hc2⟩ := hc i hi'
  rw [b.rigid_elem 0 1 i hi', hc2]
  have := (b.members[i]).refSum_lin i
    (fun c => b.nodeX i * (c.Va + c.Vb) + (c.Ma + c.Mb + c.Vb * b.spanL i)) (by simp)
    (by intros; simp; ring)
    (fun l => b.nodeX i * l.load.total (b.spanL i) + l.load.momentAboutLeft (b.spanL i)) ls' (by
      intro l hl hli c hc
      obtain ⟨_, _, h3⟩ := hpl l hl
      rw [hli, Int.toNat_natCast, b.spanL_eq i hi'] at h3
      rw [b.spanL_eq i hi']
      obtain ⟨hg1, hg2⟩ := hgood _ (List.getElem_mem hi')
      obtain ⟨e2, e3⟩ := (b.members[i]).ref_total hg1.1 l.load h3 c hc
      rw [e2, e3 hg2]) c hc1
  rw [← this, b.spanL_eq i hi']
  simp [rigidMotion, dot4, CNL.vec]
  ring

/-! ### Violations and concrete cases -/

/-- A propped cantilever of length 2 with `EI = 6`: clamped left, restraint `ρ` and
displacement `v` at the right end. -/
def exBeam (ρ : ℚ) (v : Option ℚ) (LM : List (Row ℚ)) : BeamDef ℚ :=
  ⟨[exPrismatic .FF], [-1, -1, ρ, 0], [none, none, v, none], LM⟩

/-- **C18 fails** when a displacement is prescribed at a degree of freedom without
support: the analysis completes, but the force holding that displacement is not
reported, and the reported vertical reactions of an unloaded beam add up to -9/4. -/
theorem C18_prescribed_without_support :
    ∃ (b : BeamDef ℚ) (solve : Solver ℚ) (res : Result ℚ), solve.Sound ∧ b.LM = [] ∧
      (∀ m ∈ b.members, m.Good) ∧ b.analyze (fun _ => true) solve = .ok res ∧
      (((b.reported res).filter fun q => q.1 % 2 = 0).map Prod.snd).sum = -9 / 4 := by
  obtain ⟨res, h1, h2⟩ := ok_of_map
    (x := (exBeam 0 (some 1) []).analyze (fun _ => true)
      (trySolver fun p => [0, 0, 1, 3 / 4].getD p 0))
    (f := fun res => ((((exBeam 0 (some 1) []).reported res).filter
      fun q => q.1 % 2 = 0).map Prod.snd).sum)
    (y := -9 / 4) (by decide +kernel)
  exact ⟨_, _, res, trySolver_sound _, rfl, by simp [exBeam, exPrismatic_good], h1, h2⟩

/-- A pinned-pinned span of 4 hung between two cantilevers, with a point load of 10
at its quarter point. -/
def exHinged : BeamDef ℚ :=
  ⟨[exPrismatic .FF, ⟨.const 6, 4, .PP, none⟩, exPrismatic .FF], [-1, -1, 0, 0, 0, 0, -1, -1],
    List.replicate 8 none, [⟨2, 2, [10, 1]⟩]⟩

/-- **C19 fails** for a beam with a pinned-pinned member: the load of 10 stands at
3 from the left end, moment 30, but the reported reactions have moment 45/2. -/
theorem C19_pinned_pinned_violation :
    ∃ (b : BeamDef ℚ) (solve : Solver ℚ) (res : Result ℚ), solve.Sound ∧
      b.members.map Member.L = [2, 4, 2] ∧ b.LM = [⟨2, 2, [10, 1]⟩] ∧
      (∀ m ∈ b.members, m.Good) ∧ b.analyze (fun _ => true) solve = .ok res ∧
      ((b.reported res).map fun q =>
        if q.1 % 2 = 0 then b.nodeX (q.1 / 2) * q.2 else q.2).sum = 45 / 2 := by
  obtain ⟨res, h1, h2⟩ := ok_of_map
    (x := exHinged.analyze (fun _ => true)
      (trySolver fun p => [0, 0, -25 / 6, -25 / 8, -5 / 18, 5 / 24, 0, 0].getD p 0))
    (f := fun res => ((exHinged.reported res).map fun q =>
        if q.1 % 2 = 0 then exHinged.nodeX (q.1 / 2) * q.2 else q.2).sum)
    (y := 45 / 2) (by decide +kernel)
  refine ⟨_, _, res, trySolver_sound _, rfl, rfl, ?_, h1, h2⟩
  simp [exHinged, exPrismatic_good]
  norm_num [Member.Good, Rigidity.Good]
  intro g hg
  cases hg

/-- A propped cantilever of length 2 and `EI = 6` under a UDL of 12, over ℝ. -/
noncomputable def exPropped : BeamDef ℝ :=
  ⟨[⟨.const 6, 2, .FF, none⟩], [-1, -1, -1, 0], [none, none, none, none], [⟨1, 1, [12]⟩]⟩

/-- It is analysed to the textbook rotation `wL³/48EI = 1/3` at the prop. -/
theorem exPropped_ok : ∃ res, exPropped.analyze (fun _ => true)
    (trySolver fun p => [0, 0, 0, 1 / 3].getD p 0) = .ok res := by
  have hs : ∃ s, exPropped.system = .ok s := ⟨_, rfl⟩
  obtain ⟨s, hs⟩ := hs
  simp only [BeamDef.analyze, hs, not_true_eq_false, and_false, if_false]
  obtain ⟨hn, hk, ⟨ls, hl, hc⟩, hr, hp, _⟩ := BeamDef.system_ok hs
  have hn1 : s.n = 1 := hn
  have hN : s.N = 4 := by simp [System.N, hn1]
  have hpn : ∀ p, s.presc p = none := by
    intro p
    rw [hp]
    rcases p with _ | _ | _ | _ | p <;> simp [exPropped]
  have hk0 : s.kb 0 = kFF 6 2 := by
    have := hk 0 (by simp [exPropped])
    simp [exPropped, Member.spanK] at this
    exact this.symm
  have hl' : ls = [⟨0, .udl 12⟩] := by
    have : exPropped.setLoads = .ok [⟨0, .udl 12⟩] := rfl
    rw [this] at hl
    cases hl; rfl
  have hr0 : s.ref 0 = ![12, 4, 12, -4] := by
    obtain ⟨c, h1, h2⟩ := hc 0 (by simp [exPropped])
    subst hl'
    simp [Member.refSum, exPropped, Member.ref, Member.cnl, Load.getCnl, releaseCnl, udlCnl] at h1
    rw [h2, ← h1]
    simp [CNL.vec]
    norm_num
  refine ⟨_, s.analyze_try _ ?_ ?_ ?_⟩
  · simp [System.validate, hpn]
  · intro p hpN v hv
    simp only [System.constr, hpn, hr, exPropped] at hv
    rw [hN] at hpN
    interval_cases p <;> simp at hv ⊢ <;> exact hv
  · intro p hpN hv
    simp only [System.constr, hpn, hr, exPropped] at hv
    rw [hN] at hpN
    interval_cases p
    · simp at hv
    · simp at hv
    · simp at hv
    · have := s.residual_node (fun p => [0, 0, 0, 1 / 3].getD p 0) 1 (by omega) 1
      norm_num [hn1, System.endForces, hk0, hr0, elemVec, System.spring, hr, exPropped, mulVec4,
        kFF] at this ⊢
      rw [this]
      simp [vecHead, vecTail, elemVec]
      norm_num

/-- C18 and C19 at that beam: both reactions and the clamping moment balance 24 at
mid-span. -/
example : ∃ res, exPropped.analyze (fun _ => true)
      (trySolver fun p => [0, 0, 0, 1 / 3].getD p 0) = .ok res ∧
    (((exPropped.reported res).filter fun q => q.1 % 2 = 0).map Prod.snd).sum = 24 ∧
    ((exPropped.reported res).map fun q =>
        if q.1 % 2 = 0 then exPropped.nodeX (q.1 / 2) * q.2 else q.2).sum = 24 := by
  obtain ⟨res, h⟩ := exPropped_ok
  have hg : ∀ m ∈ exPropped.members, m.Good ∧ m.et ≠ .PP := by
    simp [exPropped, Member.Good, Rigidity.Good]
  have hpr : ∀ (i : ℕ) (v : ℝ), exPropped.presc[i]? = some (some v) →
      exPropped.restraints.getD i 0 < 0 := by
    intro i v hv
    rcases i with _ | _ | _ | _ | i <;> simp [exPropped] at hv
  have hls : parseLM exPropped.LM = .ok [⟨0, .udl 12⟩] := rfl
  have hpl : exPropped.LoadsPlaced [⟨0, .udl 12⟩] := by
    simp [BeamDef.LoadsPlaced, exPropped, Load.Placed, Load.Starts]
  refine ⟨res, h, ?_, ?_⟩
  · rw [C18_vertical_equilibrium_partial _ (fun m hm => (hg m hm).1) _ _ (trySolver_sound _) res h
      hpr _ hls hpl]
    norm_num [BeamDef.totalLoad, Load.total, Load.intensity, Load.forces, BeamDef.spanL, exPropped]
  · rw [C19_moment_equilibrium_partial _ hg _ _ (trySolver_sound _) res h hpr _ hls hpl]
    norm_num [BeamDef.totalMoment, Load.total, Load.momentAboutLeft, Load.couples, Load.intensity,
      Load.forces, BeamDef.spanL, BeamDef.nodeX, exPropped]

/-- C16 and C17 at the propped cantilever: the analysis can complete, and whatever
solver completes it, the prop does not move and no moment acts on the propped end. -/
example : (∃ res, exPropped.analyze (fun _ => true)
      (trySolver fun p => [0, 0, 0, 1 / 3].getD p 0) = .ok res) ∧
    ∀ (solve : Solver ℝ) (res : Result ℝ), solve.Sound →
      exPropped.analyze (fun _ => true) solve = .ok res → res.d 2 = 0 ∧ res.fmbr 0 3 = 0 := by
  refine ⟨exPropped_ok, fun solve res hs h => ⟨?_, ?_⟩⟩
  · exact (C16_prescribed_met exPropped _ solve hs res h 2 (by simp [exPropped])).2 (-1)
      (by simp [exPropped]) (by norm_num) (by simp [exPropped])
  · have := C17_free_equilibrium exPropped _ solve hs res h 1 (by simp [exPropped]) 1 0
      (by simp [exPropped]) le_rfl (by simp [exPropped])
    simpa [exPropped] using this

end PyCBA
