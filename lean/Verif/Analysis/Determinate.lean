import Verif.Results.Props
import Verif.Similar.Units
import Verif.Exact.Report

/-!
C134: what does not depend on the stiffness.  On a statically determinate beam the member end
forces, the reactions and the shear and moment diagrams follow from equilibrium alone, so the
rigidities, the nature of the supports (rigid or spring), settlements and imposed curvatures
do not change them; on every beam a common factor on all stiffnesses leaves them unchanged and
divides the displacements.
-/

set_option linter.unusedSectionVars false
set_option linter.unusedSimpArgs false

namespace PyCBA

open Matrix Finset

/-! ### Specification -/

section spec

variable {K : Type*} [Field K] [LinearOrder K]

/-- Sum of the member end forces at a degree of freedom: component `c` (`0` vertical, `1`
moment) at node `j` of a beam of `n` members. -/
def nodeForce (n : ℕ) (f : ℕ → Vec4 K) (j : ℕ) (c : Fin 2) : K :=
  (if 0 < j then f (j - 1) ⟨2 + c, by omega⟩ else 0) + (if j < n then f j ⟨c, by omega⟩ else 0)

/-- End forces in equilibrium without any load: on every member they balance, released ends
carry no moment, and at a node they balance in every direction that has no support. -/
structure BeamDef.SelfStress (b : BeamDef K) (f : ℕ → Vec4 K) : Prop where
  vert : ∀ i (_ : i < b.members.length), f i 0 + f i 2 = 0
  mom : ∀ i (hi : i < b.members.length), f i 1 + f i 3 + b.members[i].L * f i 2 = 0
  left : ∀ i (hi : i < b.members.length),
    b.members[i].et = .PF ∨ b.members[i].et = .PP → f i 1 = 0
  right : ∀ i (hi : i < b.members.length),
    b.members[i].et = .FP ∨ b.members[i].et = .PP → f i 3 = 0
  node : ∀ j ≤ b.members.length, ∀ c : Fin 2, b.restraints.getD (2 * j + c) 0 = 0 →
    nodeForce b.members.length f j c = 0

/-- A beam is statically determinate when it has no state of self-stress. -/
def BeamDef.Determinate (b : BeamDef K) : Prop :=
  ∀ f, b.SelfStress f → ∀ i < b.members.length, f i = 0

/-- Same spans, same hinges, supports at the same places: rigidities, spring stiffnesses,
settlements and loads may differ, and a rigid support may face a spring. -/
structure SameFrame (b b' : BeamDef K) : Prop where
  L : b'.members.map Member.L = b.members.map Member.L
  et : b'.members.map Member.et = b.members.map Member.et
  supports : ∀ p < 2 * b.members.length + 2,
    (b'.restraints.getD p 0 = 0 ↔ b.restraints.getD p 0 = 0)

/-- The loads of span `i` other than imposed curvatures. -/
def forceLoads (i : ℕ) (ls : List (SpanLoad K)) : List (Load K) :=
  (ownLoads i ls).filter fun ld => match ld with | .ic _ _ => false | _ => true

end spec

/-- Resultant of the loads on span `i`. -/
noncomputable def spanTotal (b : BeamDef ℝ) (ls : List (SpanLoad ℝ)) (i : ℕ) : ℝ :=
  ((ownLoads i ls).map fun ld => ld.total (b.spanL i)).sum

/-- Their moment about the left end of the span. -/
noncomputable def turning (b : BeamDef ℝ) (ls : List (SpanLoad ℝ)) (i : ℕ) : ℝ :=
  ((ownLoads i ls).map fun ld => ld.momentAboutLeft (b.spanL i)).sum

/-! ### What an analysis says about its end forces -/

section state

variable {K : Type*} [Field K] [LinearOrder K] [IsStrictOrderedRing K]

theorem Member.ref_released (m : Member K) (hm : m.Good) (het : m.et ≠ .PP) (ld : Load K)
    (c' : CNL K) (h : m.ref ld = .ok c') : ∀ r ∈ m.et.released, c'.vec r = 0 := by
  have hcnl : ∃ c, m.cnl ld = .ok c := by
    unfold Member.ref at h
    split at h
    · cases h
    · exact ⟨_, by assumption⟩
  obtain ⟨c, hc⟩ := hcnl
  obtain ⟨kff, c0, c1, _, _, h3, ⟨th, t1, t2⟩, h5⟩ := C04_member_release_partial m hm het ld c hc
  rw [h] at h3
  cases h3
  intro r hr
  rw [h5 th t1 t2]
  exact t2 r hr

theorem Member.refSum_of_none (m : Member K) (i : ℕ) (ls : List (SpanLoad K))
    (h : ownLoads i ls = []) : m.refSum i ls = .ok ⟨0, 0, 0, 0⟩ := by
  induction ls with
  | nil => rfl
  | cons l ls ih =>
    simp only [ownLoads, List.map_eq_nil_iff, List.filter_eq_nil_iff, List.mem_cons,
      decide_eq_true_eq] at h ih
    rw [Member.refSum, if_neg (h l (by simp)), ih fun x hx => h x (by simp [hx])]

/-- The reported reactions are the sums of the member end forces at the supports, of both
kinds, when displacements are prescribed at rigid supports only. -/
theorem BeamDef.reported_mem (b : BeamDef K) (stable : System K → Bool) (solve : Solver K)
    (hs : solve.Sound) (res : Result K) (h : b.analyze stable solve = .ok res)
    (hpr : ∀ (i : ℕ) (v : K), b.presc[i]? = some (some v) → b.restraints.getD i 0 < 0)
    (q : ℕ × K) :
    q ∈ b.reported res ↔ ∃ j ≤ b.members.length, ∃ c : Fin 2, q.1 = 2 * j + c ∧
      b.restraints.getD q.1 0 ≠ 0 ∧ q.2 = nodeForce b.members.length res.fmbr j c := by
  obtain ⟨s, h1, h2⟩ := BeamDef.analyze_ok h
  obtain ⟨hn, hk, _, hr, hp, hl1, hl2⟩ := BeamDef.system_ok h1
  obtain ⟨⟨_, hf⟩, hr1, hr2, hfm, _⟩ := System.analyze_ok hs h2
  have hN : 2 * b.members.length + 2 = s.N := by simp [System.N, hn]
  have hzip : ∀ (l : List ℕ) (g : ℕ → K) (q : ℕ × K),
      q ∈ l.zip (l.map g) ↔ q.1 ∈ l ∧ q.2 = g q.1 := by
    intro l g q
    induction l with
    | nil => simp
    | cons a l ih =>
      simp only [List.map_cons, List.zip_cons_cons, List.mem_cons, ih, Prod.ext_iff]
      constructor
      · rintro (⟨h1, h2⟩ | ⟨h1, h2⟩)
        · exact ⟨.inl h1, by rw [h1, h2]⟩
        · exact ⟨.inr h1, h2⟩
      · rintro ⟨h1 | h1, h2⟩
        · exact .inl ⟨h1, by rw [h2, h1]⟩
        · exact .inr ⟨h1, h2⟩
  have hnode : ∀ j ≤ b.members.length, ∀ c : Fin 2, s.residual res.d (2 * j + c)
      = nodeForce b.members.length res.fmbr j c + s.spring (2 * j + c) * res.d (2 * j + c) := by
    intro j hj c
    rw [s.residual_node res.d j (by omega) c, nodeForce, hfm, hn]
  have hdof : ∀ p < s.N, ∃ j ≤ b.members.length, ∃ c : Fin 2, p = 2 * j + c := by
    intro p hp
    exact ⟨p / 2, by omega, ⟨p % 2, by omega⟩, by simp; omega⟩
  have hval : ∀ j ≤ b.members.length, ∀ c : Fin 2,
      (b.restraints.getD (2 * j + c) 0 < 0 →
        s.residual res.d (2 * j + c) = nodeForce b.members.length res.fmbr j c) ∧
      (0 < b.restraints.getD (2 * j + c) 0 →
        -s.r (2 * j + c) * res.d (2 * j + c) = nodeForce b.members.length res.fmbr j c) := by
    intro j hj c
    have hc := c.isLt
    constructor
    · intro hneg
      rw [hnode j hj c, System.spring, if_neg (by rw [hr]; exact hneg.le.not_gt)]
      ring
    · intro hpos
      have h0 : s.residual res.d (2 * j + c) = 0 := by
        apply hf _ (by omega)
        simp only [System.constr, hp, hr, List.getD_eq_getElem?_getD]
        rcases hq : b.presc[2 * j + (c : ℕ)]? with _ | (_ | v)
        · rw [List.getD_eq_getElem?_getD] at hpos
          simp [hpos.le.not_gt]
        · rw [List.getD_eq_getElem?_getD] at hpos
          simp [hpos.le.not_gt]
        · exact absurd (hpr _ v hq) hpos.le.not_gt
      rw [hnode j hj c, System.spring, if_pos (by rw [hr]; exact hpos)] at h0
      linear_combination -h0
  simp only [BeamDef.reported, hr1, hr2, System.reactions, System.springForces, hN, ← hr,
    List.mem_append, hzip, List.mem_filter, List.mem_range, decide_eq_true_eq]
  constructor
  · rintro (⟨⟨a1, a2⟩, a3⟩ | ⟨⟨a1, a2⟩, a3⟩)
    · obtain ⟨j, hj, c, hc⟩ := hdof _ a1
      rw [hc] at a2 a3 ⊢
      exact ⟨j, hj, c, rfl, a2.ne, a3.trans ((hval j hj c).1 (by rw [← hr]; exact a2))⟩
    · obtain ⟨j, hj, c, hc⟩ := hdof _ a1
      rw [hc] at a2 a3 ⊢
      exact ⟨j, hj, c, rfl, a2.ne', a3.trans ((hval j hj c).2 (by rw [← hr]; exact a2))⟩
  · rintro ⟨j, hj, c, hc, h3, h4⟩
    have hlt := c.isLt
    rw [hc] at h3 ⊢
    rcases lt_or_gt_of_ne h3 with h5 | h5
    · exact .inl ⟨⟨by omega, h5⟩, by rw [h4, (hval j hj c).1 (by rw [← hr]; exact h5)]⟩
    · exact .inr ⟨⟨by omega, h5⟩, by rw [h4, (hval j hj c).2 (by rw [← hr]; exact h5)]⟩

end state

/-- A beam for which C134 is claimed: usable members, displacements prescribed at rigid
supports only, every load on its span, no load on a pinned-pinned member (its end forces are
wrong, `C19_pinned_pinned_violation`). -/
structure BeamDef.Sound (b : BeamDef ℝ) (ls : List (SpanLoad ℝ)) : Prop where
  good : ∀ m ∈ b.members, m.Good
  presc : ∀ (i : ℕ) (v : ℝ), b.presc[i]? = some (some v) → b.restraints.getD i 0 < 0
  loads : parseLM b.LM = .ok ls
  placed : b.LoadsPlaced ls
  pinned : ∀ i (hi : i < b.members.length), b.members[i].et = .PP → ownLoads i ls = []

theorem setLoads_of_parse {b : BeamDef ℝ} {ls ls' : List (SpanLoad ℝ)}
    (h : parseLM b.LM = .ok ls) (h' : b.setLoads = .ok ls') : ls' = ls := by
  unfold BeamDef.setLoads at h'
  rw [h] at h'
  simp only at h'
  split at h'
  · cases h'; rfl
  · cases h'

/-- The equilibrium of the end forces of a completed analysis. -/
theorem BeamDef.endForces_equil (b : BeamDef ℝ) (ls : List (SpanLoad ℝ)) (hb : b.Sound ls)
    (stable : System ℝ → Bool) (solve : Solver ℝ) (hs : solve.Sound) (res : Result ℝ)
    (h : b.analyze stable solve = .ok res) :
    (∀ i (_ : i < b.members.length), res.fmbr i 0 + res.fmbr i 2 = spanTotal b ls i) ∧
    (∀ i (hi : i < b.members.length),
      res.fmbr i 1 + res.fmbr i 3 + b.members[i].L * res.fmbr i 2 = turning b ls i) ∧
    (∀ i (hi : i < b.members.length), ∀ r ∈ b.members[i].et.released, res.fmbr i r = 0) ∧
    ∀ j ≤ b.members.length, ∀ c : Fin 2, b.restraints.getD (2 * j + c) 0 = 0 →
      nodeForce b.members.length res.fmbr j c = 0 := by
  obtain ⟨s, h1, h2⟩ := BeamDef.analyze_ok h
  obtain ⟨hn, hk, ⟨ls', hl', hc⟩, hr, hp, hl1, hl2⟩ := BeamDef.system_ok h1
  obtain ⟨⟨_, hf⟩, _, _, hfm, _⟩ := System.analyze_ok hs h2
  have hll := setLoads_of_parse hb.loads hl'
  subst hll
  have hrig : ∀ i (hi : i < b.members.length), ∀ a t : ℝ,
      rigidMotion a t b.members[i].L ⬝ᵥ res.fmbr i
        = rigidMotion a t b.members[i].L ⬝ᵥ s.ref i := by
    intro i hi a t
    rw [hfm, System.endForces, dotProduct_add,
      rigid_no_work (hb.good _ (List.getElem_mem hi)) (hk i hi), zero_add]
  have hplaced : ∀ i (hi : i < b.members.length), ∀ l ∈ ls', l.iSpan = (i : ℤ) →
      l.load.Placed b.members[i].L := by
    intro i hi l hl hli
    obtain ⟨_, _, h3⟩ := hb.placed l hl
    rwa [hli, Int.toNat_natCast, b.spanL_eq i hi] at h3
  have htot : ∀ i (hi : i < b.members.length),
      s.ref i 0 + s.ref i 2 = spanTotal b ls' i ∧
      s.ref i 1 + s.ref i 3 + b.members[i].L * s.ref i 2 = turning b ls' i := by
    intro i hi
    obtain ⟨c, hc1, hc2⟩ := hc i hi
    have hg := hb.good _ (List.getElem_mem hi)
    rw [hc2]
    by_cases het : b.members[i].et = .PP
    · have hn := hb.pinned i hi het
      rw [Member.refSum_of_none _ _ _ hn] at hc1
      cases hc1
      simp [CNL.vec, spanTotal, turning, hn]
    have e1 := (b.members[i]).refSum_lin i (fun c => c.Va + c.Vb) (by simp)
      (by intros; simp; ring) (fun l => l.load.total (b.spanL i)) ls' (by
        intro l hl hli c hc
        rw [b.spanL_eq i hi]
        exact ((b.members[i]).ref_total hg.1 l.load (hplaced i hi l hl hli) c hc).1) c hc1
    have e2 := (b.members[i]).refSum_lin i (fun c => c.Ma + c.Mb + c.Vb * b.members[i].L) (by simp)
      (by intros; simp; ring) (fun l => l.load.momentAboutLeft (b.spanL i)) ls' (by
        intro l hl hli c hc
        rw [b.spanL_eq i hi]
        exact ((b.members[i]).ref_total hg.1 l.load (hplaced i hi l hl hli) c hc).2 het) c hc1
    simp only [spanTotal, turning, ownLoads, List.map_map, Function.comp_def]
    refine ⟨by simpa [CNL.vec] using e1, ?_⟩
    rw [← e2]
    simp [CNL.vec]
    ring
  refine ⟨fun i hi => ?_, fun i hi => ?_, fun i hi r hrel => ?_, fun j hj c h0 => ?_⟩
  · have := hrig i hi 1 0
    rw [dot4, dot4] at this
    simp [rigidMotion] at this
    rw [this, (htot i hi).1]
  · have := hrig i hi 0 1
    rw [dot4, dot4] at this
    simp [rigidMotion] at this
    rw [← (htot i hi).2]
    linear_combination this
  · have hg := hb.good _ (List.getElem_mem hi)
    obtain ⟨_, k, _, hk2, _, hk4⟩ := C14_release_is_condensation b.members[i] hg
    rw [hk i hi] at hk2
    cases hk2
    obtain ⟨c, hc1, hc2⟩ := hc i hi
    rw [hfm, System.endForces, Pi.add_apply, hk4 r hrel, zero_add, hc2]
    by_cases het : b.members[i].et = .PP
    · rw [Member.refSum_of_none _ _ _ (hb.pinned i hi het)] at hc1
      cases hc1
      fin_cases r <;> rfl
    · have := (b.members[i]).refSum_lin i (fun c => c.vec r) (by fin_cases r <;> rfl)
        (by intro c t; fin_cases r <;> rfl) (fun _ => 0) ls' (by
          intro l hl hli c hc
          exact (b.members[i]).ref_released hg het l.load c hc r hrel) c hc1
      simpa using this
  · have hc := c.isLt
    have h3 := hf (2 * j + c) (by simp only [System.N, hn]; omega) (by
      simp only [System.constr, hp, hr, h0]
      rcases hq : b.presc[2 * j + (c : ℕ)]? with _ | (_ | v)
      · simp [List.getD_eq_getElem?_getD, hq]
      · simp [List.getD_eq_getElem?_getD, hq]
      · have := hb.presc _ v hq
        rw [h0] at this
        exact absurd this (lt_irrefl _))
    rw [s.residual_node res.d j (by omega) c, System.spring, hr, h0, if_neg (lt_irrefl _)] at h3
    rw [nodeForce, hfm, ← hn]
    linear_combination h3

/-! ## C134 -/

/-- **C134** (end forces and reactions): two analyses of a statically determinate frame under
loads with the same resultants on every span report the same member end forces and the same
reactions, whatever the rigidities, the kind of supports, the settlements and the imposed
curvatures. -/
theorem C134_determinate (b b' : BeamDef ℝ) (hd : b.Determinate) (hsame : SameFrame b b')
    (ls ls' : List (SpanLoad ℝ)) (hb : b.Sound ls) (hb' : b'.Sound ls')
    (hT : ∀ i < b.members.length, spanTotal b' ls' i = spanTotal b ls i)
    (hM : ∀ i < b.members.length, turning b' ls' i = turning b ls i)
    (stable stable' : System ℝ → Bool) (solve solve' : Solver ℝ) (hs : solve.Sound)
    (hs' : solve'.Sound) (res res' : Result ℝ) (h : b.analyze stable solve = .ok res)
    (h' : b'.analyze stable' solve' = .ok res') :
    (∀ i < b.members.length, res'.fmbr i = res.fmbr i) ∧
    ∀ q, q ∈ b'.reported res' ↔ q ∈ b.reported res := by
  obtain ⟨a1, a2, a3, a4⟩ := b.endForces_equil ls hb stable solve hs res h
  obtain ⟨c1, c2, c3, c4⟩ := b'.endForces_equil ls' hb' stable' solve' hs' res' h'
  have hlen : b'.members.length = b.members.length := by
    simpa using congrArg List.length hsame.L
  have hL : ∀ i (hi : i < b.members.length), (b'.members[i]'(by omega)).L = b.members[i].L := by
    intro i hi
    have := congrArg (fun l => l[i]?) hsame.L
    simpa [hi, hlen] using this
  have het : ∀ i (hi : i < b.members.length), (b'.members[i]'(by omega)).et = b.members[i].et := by
    intro i hi
    have := congrArg (fun l => l[i]?) hsame.et
    simpa [hi, hlen] using this
  have hnf : ∀ j c, nodeForce b.members.length (fun i => res'.fmbr i - res.fmbr i) j c
      = nodeForce b.members.length res'.fmbr j c - nodeForce b.members.length res.fmbr j c := by
    intro j c
    simp only [nodeForce, Pi.sub_apply]
    split <;> split <;> ring
  have key : ∀ i < b.members.length, res'.fmbr i = res.fmbr i := by
    intro i hi
    rw [← sub_eq_zero]
    refine hd (fun i => res'.fmbr i - res.fmbr i) ⟨?_, ?_, ?_, ?_, ?_⟩ i hi
    · intro i hi
      have e1 := a1 i hi
      have e2 := c1 i (by omega)
      rw [hT i hi] at e2
      simp only [Pi.sub_apply]
      linear_combination e2 - e1
    · intro i hi
      have e1 := a2 i hi
      have e2 := c2 i (by omega)
      rw [hM i hi, hL i hi] at e2
      simp only [Pi.sub_apply]
      linear_combination e2 - e1
    · intro i hi hh
      have hr : (1 : Fin 4) ∈ b.members[i].et.released := by
        rcases hh with hh | hh <;> simp [hh, EType.released]
      rw [Pi.sub_apply, a3 i hi 1 hr, c3 i (by omega) 1 (by rw [het i hi]; exact hr), sub_zero]
    · intro i hi hh
      have hr : (3 : Fin 4) ∈ b.members[i].et.released := by
        rcases hh with hh | hh <;> simp [hh, EType.released]
      rw [Pi.sub_apply, a3 i hi 3 hr, c3 i (by omega) 3 (by rw [het i hi]; exact hr), sub_zero]
    · intro j hj c h0
      have hc := c.isLt
      have e1 := c4 j (by omega) c ((hsame.supports _ (by omega)).2 h0)
      rw [hlen] at e1
      rw [hnf, a4 j hj c h0, e1, sub_zero]
  refine ⟨key, fun q => ?_⟩
  have hnode : ∀ j ≤ b.members.length, ∀ c, nodeForce b.members.length res'.fmbr j c
      = nodeForce b.members.length res.fmbr j c := by
    intro j hj c
    simp only [nodeForce]
    congr 1
    · by_cases hj0 : 0 < j
      · rw [if_pos hj0, if_pos hj0, key _ (by omega)]
      · rw [if_neg hj0, if_neg hj0]
    · by_cases hjn : j < b.members.length
      · rw [if_pos hjn, if_pos hjn, key _ hjn]
      · rw [if_neg hjn, if_neg hjn]
  rw [b.reported_mem stable solve hs res h hb.presc, b'.reported_mem stable' solve' hs' res' h'
    hb'.presc, hlen]
  constructor
  · rintro ⟨j, hj, c, e1, e2, e3⟩
    refine ⟨j, hj, c, e1, fun h0 => e2 ?_, by rw [e3, hnode j hj c]⟩
    have hc := c.isLt
    exact (hsame.supports _ (by omega)).2 h0
  · rintro ⟨j, hj, c, e1, e2, e3⟩
    refine ⟨j, hj, c, e1, fun h0 => e2 ?_, by rw [e3, hnode j hj c]⟩
    have hc := c.isLt
    exact (hsame.supports _ (by omega)).1 h0

theorem sum_forceLoads (i : ℕ) (ls : List (SpanLoad ℝ)) (φ : Load ℝ → ℝ)
    (h : ∀ k E, φ (.ic k E) = 0) : ((ownLoads i ls).map φ).sum = ((forceLoads i ls).map φ).sum := by
  unfold forceLoads
  generalize ownLoads i ls = l
  induction l with
  | nil => rfl
  | cons a l ih =>
    cases a with
    | ic k E => simp [h, ih]
    | _ => simp [ih]

/-- **C134** (diagrams): under the same forces and couples, and any imposed curvatures, the
shear force and bending moment diagrams of the two analyses are the same at every station. -/
theorem C134_diagrams (b b' : BeamDef ℝ) (hd : b.Determinate) (hsame : SameFrame b b')
    (ls ls' : List (SpanLoad ℝ)) (hb : b.Sound ls) (hb' : b'.Sound ls')
    (hl : ∀ i < b.members.length, forceLoads i ls' = forceLoads i ls)
    (stable stable' : System ℝ → Bool) (solve solve' : Solver ℝ) (hs : solve.Sound)
    (hs' : solve'.Sound) (res res' : Result ℝ) (h : b.analyze stable solve = .ok res)
    (h' : b'.analyze stable' solve' = .ok res') (npts : ℕ) (sp : ℕ → List ℝ)
    (rs rs' : List (MRes ℝ)) (hr : b.memberResults res npts sp = .ok rs)
    (hr' : b'.memberResults res' npts sp = .ok rs') :
    rs'.length = rs.length ∧ ∀ i (hi : i < rs.length) (hi' : i < rs'.length),
      rs'[i].n = rs[i].n ∧ rs'[i].x = rs[i].x ∧ rs'[i].V = rs[i].V ∧ rs'[i].M = rs[i].M := by
  have hlen : b'.members.length = b.members.length := by
    simpa using congrArg List.length hsame.L
  have hL : ∀ i (hi : i < b.members.length), (b'.members[i]'(by omega)).L = b.members[i].L := by
    intro i hi
    have := congrArg (fun l => l[i]?) hsame.L
    simpa [hi, hlen] using this
  have hspan : ∀ i, i < b.members.length → b'.spanL i = b.spanL i := by
    intro i hi
    rw [b.spanL_eq i hi, b'.spanL_eq i (by omega), hL i hi]
  have hsum : ∀ i < b.members.length, ∀ φ : Load ℝ → ℝ, (∀ k E, φ (.ic k E) = 0) →
      ((ownLoads i ls').map φ).sum = ((ownLoads i ls).map φ).sum := by
    intro i hi φ hφ
    rw [sum_forceLoads i ls' φ hφ, sum_forceLoads i ls φ hφ, hl i hi]
  obtain ⟨hf, _⟩ := C134_determinate b b' hd hsame ls ls' hb hb' (by
      intro i hi
      unfold spanTotal
      rw [hspan i hi]
      exact hsum i hi _ (by
        intro k E
        simp [Load.total, Load.intensity, Load.forces]))
    (by
      intro i hi
      unfold turning
      rw [hspan i hi]
      exact hsum i hi _ (by
        intro k E
        simp [Load.momentAboutLeft, Load.intensity, Load.forces, Load.couples]))
    stable stable' solve solve' hs hs' res res' h h'
  obtain ⟨n1, l1, hl1, c1⟩ := BeamDef.memberResults_ok hr
  obtain ⟨n2, l2, hl2, c2⟩ := BeamDef.memberResults_ok hr'
  have := setLoads_of_parse hb.loads hl1
  subst this
  have := setLoads_of_parse hb'.loads hl2
  subst this
  refine ⟨by omega, fun i hi hi' => ?_⟩
  have hin : i < b.members.length := by omega
  obtain ⟨c, e1, e2⟩ := c1 i hin hi
  obtain ⟨c', e1', e2'⟩ := c2 i (by omega) hi'
  obtain ⟨m1, m2, m3, m4, m5, m6, _⟩ := Member.ctx_ok e1
  obtain ⟨m1', m2', m3', m4', m5', m6', _⟩ := Member.ctx_ok e1'
  have hg : c'.grid = c.grid := by simp only [MCtx.grid, m1, m1', m5, m5', m6, m6', hL i hin]
  have hcn : c'.n = c.n := by simp only [MCtx.n, hg]
  have hcx : c'.x = c.x := by simp only [MCtx.x, hg]
  have hnode : b'.nodeX i = b.nodeX i := by
    simp only [BeamDef.nodeX, List.map_take, hsame.L]
  have hend : ∀ k, c'.IsEnd k ↔ c.IsEnd k := by
    intro k
    simp only [MCtx.IsEnd, hcn]
  rw [e2, e2']
  refine ⟨hcn, by simp only [hcx, hnode], ?_, ?_⟩
  · funext k
    simp only [MCtx.result, MCtx.V, hend, hcx, m1, m1', m2, m2', m3, m3', hf i hin, hL i hin]
    rw [hsum i hin _ fun k E => by simp [Load.ssV, Load.stn]]
  · funext k
    simp only [MCtx.result, MCtx.M, hend, hcx, m1, m1', m2, m2', m3, m3', hf i hin, hL i hin]
    rw [hsum i hin _ fun k E => by simp [Load.ssM, Load.stn]]

/-- **C134** (self-stress): settlements of the supports and imposed curvatures cause neither
end forces nor reactions in a statically determinate beam. -/
theorem C134_no_self_stress (b : BeamDef ℝ) (hd : b.Determinate) (ls : List (SpanLoad ℝ))
    (hb : b.Sound ls) (hl : ∀ i < b.members.length, forceLoads i ls = [])
    (stable : System ℝ → Bool) (solve : Solver ℝ) (hs : solve.Sound)
    (res : Result ℝ) (h : b.analyze stable solve = .ok res) :
    (∀ i < b.members.length, res.fmbr i = 0) ∧ ∀ q ∈ b.reported res, q.2 = 0 := by
  obtain ⟨a1, a2, a3, a4⟩ := b.endForces_equil ls hb stable solve hs res h
  have key : ∀ i < b.members.length, res.fmbr i = 0 := by
    refine hd _ ⟨fun i hi => ?_, fun i hi => ?_, fun i hi hh => a3 i hi 1 ?_,
      fun i hi hh => a3 i hi 3 ?_, a4⟩
    · rw [a1 i hi, spanTotal, sum_forceLoads i ls _ fun k E => by
        simp [Load.total, Load.intensity, Load.forces], hl i hi]
      rfl
    · rw [a2 i hi, turning, sum_forceLoads i ls _ fun k E => by
        simp [Load.momentAboutLeft, Load.intensity, Load.forces, Load.couples], hl i hi]
      rfl
    · rcases hh with hh | hh <;> simp [hh, EType.released]
    · rcases hh with hh | hh <;> simp [hh, EType.released]
  refine ⟨key, fun q hq => ?_⟩
  obtain ⟨j, hj, c, _, _, e⟩ := (b.reported_mem stable solve hs res h hb.presc q).1 hq
  rw [e, nodeForce]
  have e1 : (if 0 < j then res.fmbr (j - 1) ⟨2 + c, by omega⟩ else 0) = 0 := by
    by_cases hj0 : 0 < j
    · rw [if_pos hj0, key _ (by omega)]; rfl
    · rw [if_neg hj0]
  have e2 : (if j < b.members.length then res.fmbr j ⟨c, by omega⟩ else 0) = 0 := by
    by_cases hjn : j < b.members.length
    · rw [if_pos hjn, key _ hjn]; rfl
    · rw [if_neg hjn]
  rw [e1, e2, add_zero]

/-! ### A common factor on all stiffnesses -/

section scaling

variable {K : Type*} [Field K] [LinearOrder K] [IsStrictOrderedRing K]

/-- The beam with all rigidities and spring stiffnesses multiplied by `g` and the settlements
divided by it. -/
def BeamDef.stiffened (g : K) (b : BeamDef K) : BeamDef K :=
  ⟨b.members.map (Member.units 1 g), b.restraints.map (g * ·),
    b.presc.map (fun v => v.map (· / g)), b.LM⟩

variable {g : K} (hg : 0 < g)

include hg

theorem Member.ref_stiffened (m : Member K) (hm : m.Regular) (ld : Load K)
    (hld : ∀ k E, ld ≠ .ic k E) : (m.units 1 g).ref ld = m.ref ld := by
  have h1 := Member.ref_units (l := 1) one_pos hg m hm ld
  have h2 : ld.units 1 g = ld.scale g := by
    cases ld with
    | ic k E => exact absurd rfl (hld k E)
    | trapez w1 w2 a c => cases c <;> simp [Load.units, Load.scale]
    | _ => simp [Load.units, Load.scale]
  rw [h2, Member.ref_scale] at h1
  cases ha : (m.units 1 g).ref ld with
  | error e =>
    rw [ha] at h1
    cases hb : m.ref ld with
    | error e' => rw [hb] at h1; simpa [Except.map] using h1
    | ok c => rw [hb] at h1; simp [Except.map] at h1
  | ok c' =>
    rw [ha] at h1
    cases hb : m.ref ld with
    | error e' => rw [hb] at h1; simp [Except.map] at h1
    | ok c =>
      rw [hb] at h1
      obtain ⟨a1, a2, a3, a4⟩ := c
      obtain ⟨b1, b2, b3, b4⟩ := c'
      simpa [Except.map, CNL.units, CNL.smul_def, hg.ne'] using h1

theorem Member.refSum_stiffened (m : Member K) (hm : m.Regular) (i : ℕ) (ls : List (SpanLoad K))
    (hld : ∀ l ∈ ls, ∀ k E, l.load ≠ .ic k E) : (m.units 1 g).refSum i ls = m.refSum i ls := by
  induction ls with
  | nil => rfl
  | cons l ls ih =>
    rw [Member.refSum, Member.refSum, Member.ref_stiffened hg m hm l.load (hld l (by simp)),
      ih fun l' hl' => hld l' (by simp [hl'])]

/-- What the two systems have to do with each other. -/
theorem BeamDef.system_stiffened (b : BeamDef K) (hb : ∀ m ∈ b.members, m.Regular)
    (ls : List (SpanLoad K)) (hls : parseLM b.LM = .ok ls)
    (hld : ∀ l ∈ ls, ∀ k E, l.load ≠ .ic k E) (s s' : System K) (h : b.system = .ok s)
    (h' : (b.stiffened g).system = .ok s') :
    s'.n = s.n ∧ (∀ i < s.n, s'.kb i = g • s.kb i) ∧ (∀ i < s.n, s'.ref i = s.ref i) ∧
    (∀ p, s'.r p = g * s.r p) ∧ ∀ p, s'.presc p = (s.presc p).map (· / g) := by
  obtain ⟨n1, k1, ⟨l1, hl1, c1⟩, r1, q1, _⟩ := BeamDef.system_ok h
  obtain ⟨n2, k2, ⟨l2, hl2, c2⟩, r2, q2, _⟩ := BeamDef.system_ok h'
  have hparse : ∀ (b : BeamDef K) l, parseLM b.LM = .ok ls → b.setLoads = .ok l → l = ls := by
    intro b l h1 h2
    unfold BeamDef.setLoads at h2
    rw [h1] at h2
    simp only at h2
    split at h2
    · cases h2; rfl
    · cases h2
  have := hparse b l1 hls hl1
  subst this
  have := hparse _ l2 (show parseLM (b.stiffened g).LM = _ from hls) hl2
  subst this
  have hlen : (b.stiffened g).members.length = b.members.length := by simp [BeamDef.stiffened]
  have hm : ∀ i (hi : i < b.members.length),
      (b.stiffened g).members[i]'(by omega) = (b.members[i]).units 1 g := by
    intro i hi
    simp [BeamDef.stiffened]
  refine ⟨by omega, fun i hi => ?_, fun i hi => ?_, fun p => ?_, fun p => ?_⟩
  · rw [n1] at hi
    have hreg := hb _ (List.getElem_mem hi)
    have e := k2 i (by omega)
    rw [hm i hi, Member.spanK_units (l := 1) one_pos hg _ hreg.L.ne' hreg.G, k1 i hi] at e
    simp only [Except.map, Except.ok.injEq] at e
    rw [← e]
    ext a c
    simp [matUnits, forceUnit, dispUnit]
  · rw [n1] at hi
    have hreg := hb _ (List.getElem_mem hi)
    obtain ⟨c, e1, e2⟩ := c1 i hi
    obtain ⟨c', e1', e2'⟩ := c2 i (by omega)
    rw [hm i hi, Member.refSum_stiffened hg _ hreg i _ hld, e1] at e1'
    cases e1'
    rw [e2, e2']
  · rw [r1, r2]
    simp only [BeamDef.stiffened, List.getD_eq_getElem?_getD, List.getElem?_map]
    cases b.restraints[p]? <;> simp
  · rw [q1, q2]
    simp only [BeamDef.stiffened, List.getD_eq_getElem?_getD, List.getElem?_map]
    cases b.presc[p]? <;> simp

/-- **C134** (factor): multiplying all rigidities and spring stiffnesses by the same factor
(and dividing the settlements by it) divides all displacements by that factor and leaves the
member end forces and the reactions as they are, on every beam without imposed curvatures. -/
theorem C134_stiffness_factor (b : BeamDef K) (hb : ∀ m ∈ b.members, m.Regular)
    (ls : List (SpanLoad K)) (hls : parseLM b.LM = .ok ls)
    (hld : ∀ l ∈ ls, ∀ k E, l.load ≠ .ic k E)
    (stable stable' : System K → Bool) (solve solve' : Solver K) (hs : solve.Sound)
    (hs' : solve'.Sound) (res res' : Result K) (h : b.analyze stable solve = .ok res)
    (h' : (b.stiffened g).analyze stable' solve' = .ok res')
    (hns : ∀ s, b.system = .ok s → s.Nonsingular) :
    (∀ p < 2 * b.members.length + 2, res'.d p = res.d p / g) ∧
    res'.r = res.r ∧ res'.rs = res.rs ∧ ∀ i < b.members.length, res'.fmbr i = res.fmbr i := by
  obtain ⟨s, h1, h2⟩ := BeamDef.analyze_ok h
  obtain ⟨s', h1', h2'⟩ := BeamDef.analyze_ok h'
  obtain ⟨en, ek, er, err, ep⟩ := BeamDef.system_stiffened hg b hb ls hls hld s s' h1 h1'
  obtain ⟨a1, a2, a3, a4, _⟩ := System.analyze_ok hs h2
  obtain ⟨b1, b2, b3, b4, _⟩ := System.analyze_ok hs' h2'
  obtain ⟨hn, _⟩ := BeamDef.system_ok h1
  have hg0 := hg.ne'
  have hN : s'.N = s.N := by simp [System.N, en]
  have r1 : ∀ p, (s'.r p < 0 ↔ s.r p < 0) := by
    intro p
    rw [err, ← not_le, ← not_le, mul_nonneg_iff_of_pos_left hg]
  have r2 : ∀ p, (0 < s'.r p ↔ 0 < s.r p) := by
    intro p
    rw [err, mul_pos_iff_of_pos_left hg]
  have helem : ∀ d d' : ℕ → K, (∀ p < s.N, d' p = g⁻¹ * d p) → ∀ i < s.n,
      s'.kb i *ᵥ elemVec d' i = s.kb i *ᵥ elemVec d i := by
    intro d d' hd i hi
    have : elemVec d' i = g⁻¹ • elemVec d i := by
      ext a
      have := a.isLt
      simp only [elemVec, Pi.smul_apply, smul_eq_mul]
      rw [hd _ (by simp only [System.N]; omega)]
    rw [this, ek i hi, Matrix.mulVec_smul, Matrix.smul_mulVec, smul_smul, inv_mul_cancel₀ hg0,
      one_smul]
  have hres : ∀ d d' : ℕ → K, (∀ p < s.N, d' p = g⁻¹ * d p) → ∀ p < s.N,
      s'.residual d' p = s.residual d p := by
    intro d d' hd p hp
    rw [System.residual, System.residual, s'.mulN_assemble d' p (by rw [hN]; exact hp),
      s.mulN_assemble d p hp, s'.forces_eq, s.forces_eq, en]
    have e1 : ∑ i ∈ range s.n, blockVec (2 * i) (s'.kb i *ᵥ elemVec d' i) p
        = ∑ i ∈ range s.n, blockVec (2 * i) (s.kb i *ᵥ elemVec d i) p :=
      Finset.sum_congr rfl fun i hi => by rw [helem d d' hd i (Finset.mem_range.1 hi)]
    have e2 : ∑ i ∈ range s.n, blockVec (2 * i) (s'.ref i) p
        = ∑ i ∈ range s.n, blockVec (2 * i) (s.ref i) p :=
      Finset.sum_congr rfl fun i hi => by rw [er i (Finset.mem_range.1 hi)]
    have e3 : s'.spring p = g * s.spring p := by
      simp only [System.spring, r2]
      by_cases hr : 0 < s.r p
      · rw [if_pos hr, if_pos hr, err]
      · rw [if_neg hr, if_neg hr, mul_zero]
    rw [e1, e2, e3, hd p hp]
    field_simp
  have himg : System.Image id (fun _ => g⁻¹) (fun _ => 1) s s' := by
    refine ⟨hN, fun p hp => hp, fun p _ => rfl, fun _ => inv_ne_zero hg0, fun _ => one_ne_zero,
      ?_, ?_⟩
    · intro d d' hd p hp
      rw [hres d d' hd p hp, one_mul, id]
    · intro p _
      simp only [System.constr, ep, r1, id]
      cases s.presc p with
      | none => by_cases hr : s.r p < 0 <;> simp [hr]
      | some v => simp [div_eq_inv_mul]
  obtain ⟨d1, d2⟩ := himg.results (hns s h1) a1 b1
  simp only [id, one_mul] at d1 d2
  have f1 : (List.range s.N).filter (fun i => decide (s'.r i < 0))
      = (List.range s.N).filter (fun i => decide (s.r i < 0)) :=
    List.filter_congr fun p _ => by simp only [r1 p]
  have f2 : (List.range s.N).filter (fun i => decide (0 < s'.r i))
      = (List.range s.N).filter (fun i => decide (0 < s.r i)) :=
    List.filter_congr fun p _ => by simp only [r2 p]
  refine ⟨fun p hp => ?_, ?_, ?_, fun i hi => ?_⟩
  · rw [d1 p (by simp only [System.N]; omega), div_eq_inv_mul]
  · rw [a2, b2, System.reactions, System.reactions, hN, f1]
    apply List.map_congr_left
    intro p hp
    exact d2 p (List.mem_range.1 (List.mem_filter.1 hp).1)
  · rw [a3, b3, System.springForces, System.springForces, hN, f2]
    apply List.map_congr_left
    intro p hp
    rw [d1 p (List.mem_range.1 (List.mem_filter.1 hp).1), err]
    field_simp
  · rw [a4, b4, System.endForces, System.endForces, helem res.d res'.d d1 i (by omega),
      er i (by omega)]

end scaling

/-! ### Concrete cases -/

/-- A span of 4, pinned at the left, on a roller of restraint `ρ` at the right, settling by
`v` at the left, with rigidity `e`, under a load of 10 at its quarter point and, if `ic`, a
uniform imposed curvature. -/
noncomputable def exDet (e ρ v : ℝ) (ic : Bool) : BeamDef ℝ :=
  ⟨[⟨.const e, 4, .FF, none⟩], [-1, 0, ρ, 0], [some v, none, none, none],
    ⟨1, 2, [10, 1]⟩ :: if ic then [⟨1, 6, [1 / 100]⟩] else []⟩

theorem exDet_determinate (e ρ v : ℝ) (ic : Bool) : (exDet e ρ v ic).Determinate := by
  intro f hf i hi
  have h1 := hf.vert 0 (by simp [exDet])
  have h2 := hf.mom 0 (by simp [exDet])
  have h3 := hf.node 0 (by simp) 1 (by simp [exDet])
  have h4 := hf.node 1 (by simp [exDet]) 1 (by simp [exDet])
  simp [exDet, nodeForce] at h1 h2 h3 h4 hi
  subst hi
  have e2 : f 0 2 = 0 := by
    have : (4 : ℝ) * f 0 2 = 0 := by rw [h3, h4] at h2; linarith
    linarith
  ext a
  fin_cases a
  · simp only [Fin.zero_eta, Pi.zero_apply]; rw [e2, add_zero] at h1; exact h1
  · exact h3
  · exact e2
  · exact h4

/-- Loads of the span. -/
noncomputable def exDetLoads (ic : Bool) : List (SpanLoad ℝ) :=
  ⟨0, .pl 10 1⟩ :: if ic then [⟨0, .ic [1 / 100] none⟩] else []

theorem exDet_sound (e v : ℝ) (he : 0 < e) (ic : Bool) :
    (exDet e (-1) v ic).Sound (exDetLoads ic) := by
  refine ⟨by simp [exDet, Member.Good, Rigidity.Good, he], ?_, ?_, ?_, ?_⟩
  · intro i w h
    rcases i with _ | _ | _ | _ | i <;> simp [exDet] at h ⊢
  · cases ic <;> simp [exDet, exDetLoads, parseLM, parseRow]
  · intro l hl
    cases ic <;> simp [exDetLoads] at hl
    · subst hl
      simp [exDet, BeamDef.spanL, Load.Placed, Load.Starts]
    · rcases hl with rfl | rfl <;> simp [exDet, BeamDef.spanL, Load.Placed, Load.Starts]
  · intro i hi h
    have : i = 0 := by simpa [exDet] using hi
    subst this
    simp [exDet] at h

theorem exDet_analysed (e v : ℝ) (he : 0 < e) (ic : Bool) :
    ∃ solve : Solver ℝ, solve.Sound ∧ ∃ res,
      (exDet e (-1) v ic).analyze (fun _ => true) solve = .ok res := by
  obtain ⟨s, hs⟩ : ∃ s, (exDet e (-1) v ic).system = .ok s := by
    cases ic <;> exact ⟨_, rfl⟩
  have hns := C77_adequate_supports (exDet e (-1) v ic)
    (by simp [exDet, Member.Good, Rigidity.Good, he]) s hs 0 1 (by simp) (by simp [exDet])
    (by simp [exDet]) (Or.inl (by simp [exDet]))
  obtain ⟨hn, _, _, hr, _⟩ := BeamDef.system_ok hs
  refine BeamDef.completes hs hns ?_
  have : ∀ i, ¬ 0 < (exDet e (-1) v ic).restraints.getD i 0 := by
    intro i
    rcases i with _ | _ | _ | _ | i <;> simp [exDet]
  simp only [System.validate, hr, this]
  simp

/-- The span of rigidity 6 on firm supports against the same span of rigidity 11 whose left
support settles and which is warmed from one side. -/
example : ∃ (solve solve' : Solver ℝ) (res res' : Result ℝ),
    (exDet 6 (-1) 0 false).analyze (fun _ => true) solve = .ok res ∧
    (exDet 11 (-1) (1 / 10) true).analyze (fun _ => true) solve' = .ok res' ∧
    res'.fmbr 0 = res.fmbr 0 ∧ res'.d 0 ≠ res.d 0 := by
  obtain ⟨solve, hs, res, h⟩ := exDet_analysed 6 0 (by norm_num) false
  obtain ⟨solve', hs', res', h'⟩ := exDet_analysed 11 (1 / 10) (by norm_num) true
  have hframe : SameFrame (exDet 6 (-1) 0 false) (exDet 11 (-1) (1 / 10) true) :=
    ⟨rfl, rfl, fun _ _ => Iff.rfl⟩
  have hc := C134_determinate _ _ (exDet_determinate 6 (-1) 0 false) hframe _ _
    (exDet_sound 6 0 (by norm_num) false) (exDet_sound 11 (1 / 10) (by norm_num) true)
    (by
      intro i hi
      have : i = 0 := by simpa [exDet] using hi
      subst this
      simp [spanTotal, ownLoads, exDetLoads, Load.total, Load.intensity, Load.forces])
    (by
      intro i hi
      have : i = 0 := by simpa [exDet] using hi
      subst this
      simp [turning, ownLoads, exDetLoads, Load.momentAboutLeft, Load.intensity, Load.forces,
        Load.couples])
    _ _ solve solve' hs hs' res res' h h'
  refine ⟨solve, solve', res, res', h, h', hc.1 0 (by simp [exDet]), ?_⟩
  have e1 := C16_prescribed_met _ _ solve hs res h 0 (by simp [exDet])
  have e2 := C16_prescribed_met _ _ solve' hs' res' h' 0 (by simp [exDet])
  have f1 := e1.1 0 (by simp [exDet])
  have f2 := e2.1 (1 / 10) (by simp [exDet])
  rw [f1, f2]
  norm_num

/-- Determinacy is needed: in the propped cantilever a settlement of the prop does cause end
forces. -/
theorem C134_indeterminate_witness :
    ∃ (b : BeamDef ℚ) (solve : Solver ℚ) (res : Result ℚ), solve.Sound ∧ b.LM = [] ∧
      (∀ m ∈ b.members, m.Good) ∧ b.analyze (fun _ => true) solve = .ok res ∧
      res.fmbr 0 1 = -9 / 2 := by
  obtain ⟨res, h1, h2⟩ := ok_of_map
    (x := (exBeam (-1) (some 1) []).analyze (fun _ => true)
      (trySolver fun p => [0, 0, 1, 3 / 4].getD p 0))
    (f := fun res => res.fmbr 0 1) (y := -9 / 2) (by decide +kernel)
  exact ⟨_, _, res, trySolver_sound _, rfl, by simp [exBeam, exPrismatic_good], h1, h2⟩

/-- A two-span beam hinged over nothing: the left member is fixed at the left end and
pinned-ended at the hinge, the right member rests on a roller; it is determinate. -/
theorem exHingedDet :
    (⟨[⟨.const 6, 2, .FP, none⟩, ⟨.const 6, 3, .FF, none⟩], [-1, -1, 0, 0, -1, 0],
      List.replicate 6 none, []⟩ : BeamDef ℚ).Determinate := by
  intro f hf i hi
  have v0 := hf.vert 0 (by simp)
  have m0 := hf.mom 0 (by simp)
  have v1 := hf.vert 1 (by simp)
  have m1 := hf.mom 1 (by simp)
  have r0 := hf.right 0 (by simp) (by simp)
  have n1 := hf.node 1 (by simp) 0 (by simp)
  have n1' := hf.node 1 (by simp) 1 (by simp)
  have n2 := hf.node 2 (by simp) 1 (by simp)
  simp [nodeForce] at v0 m0 v1 m1 r0 n1 n1' n2 hi
  have a3 : f 1 1 = 0 := by linarith
  have a4 : f 1 2 = 0 := by linarith
  have a5 : f 1 0 = 0 := by linarith
  have a6 : f 0 2 = 0 := by linarith
  have a7 : f 0 0 = 0 := by linarith
  have a8 : f 0 1 = 0 := by linarith
  rcases (by omega : i = 0 ∨ i = 1) with rfl | rfl
  · ext a
    fin_cases a
    · exact a7
    · exact a8
    · exact a6
    · exact r0
  · ext a
    fin_cases a
    · exact a5
    · exact a3
    · exact a4
    · exact n2

/-- C134 (factor) at the simple span, doubled in stiffness. -/
example (res res' : Result ℝ) (solve solve' : Solver ℝ) (hs : solve.Sound) (hs' : solve'.Sound)
    (h : (exDet 6 (-1) 1 false).analyze (fun _ => true) solve = .ok res)
    (h' : ((exDet 6 (-1) 1 false).stiffened 2).analyze (fun _ => true) solve' = .ok res') :
    res'.d 1 = res.d 1 / 2 ∧ res'.r = res.r := by
  have := C134_stiffness_factor (g := (2 : ℝ)) (by norm_num) (exDet 6 (-1) 1 false) (by
      intro m hm
      simp [exDet] at hm
      subst hm
      exact ⟨by norm_num, by simp, by simp [Rigidity.Within, Rigidity.bps], by simp⟩)
    (exDetLoads false) (exDet_sound 6 1 (by norm_num) false).loads (by simp [exDetLoads]) _ _
    solve solve' hs hs' res res' h h' (fun s hs => C77_adequate_supports _
      (by simp [exDet, Member.Good, Rigidity.Good]) s hs 0 1 (by simp) (by simp [exDet])
      (by simp [exDet]) (Or.inl (by simp [exDet])))
  exact ⟨this.1 1 (by simp [exDet]), this.2.1⟩

end PyCBA
