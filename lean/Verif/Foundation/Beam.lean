import Verif.Foundation.Recover
import Verif.Analysis.Stability

/-!
Beams with members on an elastic foundation (`beam.py` 682-752, 884-892, `results.py`
180-186): the complete analysis.

C110: reactions, loads and the pressure of the foundation are in equilibrium.
C111: the condensed analysis is the analysis of the whole mesh.
C112: a foundation holds the beam.
-/

set_option linter.unusedSectionVars false
set_option linter.unusedSimpArgs false

namespace PyCBA

open Matrix Finset

/-! ### Model -/

/-- `Beam` with the foundation moduli `mbr_kf` of its members, `beam.py` 95-153. -/
structure FBeam extends BeamDef ℝ where
  kf : List (Option ℝ)

/-- The modulus of member `i`: `beam.py` 739, 891 (`i_span < len(self.mbr_kf) and
self.mbr_kf[i_span] is not None`). -/
def FBeam.kfAt (b : FBeam) (i : ℕ) : Option ℝ := b.kf.getD i none

/-- `_forces` and `_assemble`, `analysis.py` 603-612, 672-686, with `Beam.get_ref` and
`Beam.get_span_k` for any member (`beam.py` 716-752, 884-918).  The cache of the
super-elements is the subject of C115. -/
noncomputable def FBeam.system (b : FBeam) (inv : Inverter ℝ) : Except PyErr (System ℝ) :=
  match b.setLoads with
  | .error e => .error e
  | .ok ls =>
    match mapE (fun mi : Member ℝ × ℕ => spanRef inv mi.1 mi.2 ls (b.kfAt mi.2)) b.members.zipIdx with
    | .error e => .error e
    | .ok refs =>
      match mapE (fun mi : Member ℝ × ℕ => spanKf inv mi.1 (b.kfAt mi.2)) b.members.zipIdx with
      | .error e => .error e
      | .ok ks =>
        if b.restraints.length < 2 * b.members.length + 2 ∨
            b.presc.length < 2 * b.members.length + 2 then .error .indexError
        else .ok
          { n := b.members.length
            kb := fun i => ks.getD i 0
            ref := fun i => refs.getD i 0
            r := fun i => b.restraints.getD i 0
            presc := fun i => b.presc.getD i none }

/-- `BeamAnalysis.analyze`, `analysis.py` 447-466. -/
noncomputable def FBeam.analyze (b : FBeam) (inv : Inverter ℝ) (stable : System ℝ → Bool)
    (solve : Solver ℝ) : Except PyErr (Result ℝ) :=
  match b.system inv with
  | .error e => .error e
  | .ok s =>
    if s.validate s.forces ∧ ¬ stable s then .error .valueError
    else s.analyze solve

theorem FBeam.system_ok {b : FBeam} {inv : Inverter ℝ} {s : System ℝ} (h : b.system inv = .ok s) :
    s.n = b.members.length ∧
    (∀ i (hi : i < b.members.length), spanKf inv b.members[i] (b.kfAt i) = .ok (s.kb i)) ∧
    (∃ ls, b.setLoads = .ok ls ∧ ∀ i (hi : i < b.members.length),
      spanRef inv b.members[i] i ls (b.kfAt i) = .ok (s.ref i)) ∧
    (∀ i, s.r i = b.restraints.getD i 0) ∧ (∀ i, s.presc i = b.presc.getD i none) ∧
    s.N ≤ b.restraints.length ∧ s.N ≤ b.presc.length := by
  unfold FBeam.system at h
  split at h
  · cases h
  rename_i ls hls
  split at h
  · cases h
  rename_i refs hrefs
  split at h
  · cases h
  rename_i ks hks
  split at h
  · cases h
  rename_i hlen
  cases h
  obtain ⟨r1, r2⟩ := mapE_ok hrefs
  obtain ⟨k1, k2⟩ := mapE_ok hks
  simp only [List.length_zipIdx] at r1 r2 k1 k2
  refine ⟨rfl, ?_, ⟨ls, hls, ?_⟩, fun _ => rfl, fun _ => rfl, ?_, ?_⟩
  · intro i hi
    have := k2 i hi (by omega)
    simp only [List.getElem_zipIdx, Nat.zero_add] at this
    rw [this]
    simp only
    rw [List.getD_eq_getElem?_getD, List.getElem?_eq_getElem (by omega), Option.getD_some]
  · intro i hi
    have := r2 i hi (by omega)
    simp only [List.getElem_zipIdx, Nat.zero_add] at this
    rw [this]
    simp only
    rw [List.getD_eq_getElem?_getD, List.getElem?_eq_getElem (by omega), Option.getD_some]
  · simp only [System.N]; omega
  · simp only [System.N]; omega

theorem FBeam.analyze_ok {b : FBeam} {inv : Inverter ℝ} {stable : System ℝ → Bool}
    {solve : Solver ℝ} {res : Result ℝ} (h : b.analyze inv stable solve = .ok res) :
    ∃ s, b.system inv = .ok s ∧ s.analyze solve = .ok res := by
  unfold FBeam.analyze at h
  split at h
  · cases h
  · rename_i s hs
    split at h
    · cases h
    · exact ⟨s, hs, h⟩

/-- Without foundations it is the analysis of the plain beam. -/
theorem FBeam.system_plain (b : BeamDef ℝ) (inv : Inverter ℝ) :
    (FBeam.mk b []).system inv = b.system := by
  have h1 : ∀ ls, ∀ l : List (Member ℝ × ℕ),
      mapE (fun mi : Member ℝ × ℕ => spanRef inv mi.1 mi.2 ls none) l
        = match mapE (fun mi : Member ℝ × ℕ => mi.1.refSum mi.2 ls) l with
          | .error e => .error e
          | .ok cs => .ok (cs.map CNL.vec) := by
    intro ls l
    induction l with
    | nil => rfl
    | cons a l ih =>
      simp only [mapE, spanRef]
      cases a.1.refSum a.2 ls with
      | error e => rfl
      | ok c =>
        simp only
        have ih' := ih
        simp only [spanRef] at ih'
        rw [ih']
        cases mapE (fun mi : Member ℝ × ℕ => mi.1.refSum mi.2 ls) l <;> rfl
  have h2 : ∀ (l : List (Member ℝ)) (k : ℕ),
      mapE (fun mi : Member ℝ × ℕ => spanKf inv mi.1 none) (l.zipIdx k) = mapE Member.spanK l := by
    intro l
    induction l with
    | nil => intro k; rfl
    | cons a l ih =>
      intro k
      simp only [List.zipIdx_cons, mapE, spanKf]
      have := ih (k + 1)
      simp only [spanKf] at this
      rw [this]
  unfold FBeam.system BeamDef.system
  have hk : ∀ i, (FBeam.mk b []).kfAt i = none := fun i => rfl
  simp only [hk]
  cases b.setLoads with
  | error e => rfl
  | ok ls =>
    simp only
    rw [h1]
    cases mapE (fun mi : Member ℝ × ℕ => mi.1.refSum mi.2 ls) b.members.zipIdx with
    | error e => rfl
    | ok cs =>
      simp only
      rw [h2]
      cases mapE Member.spanK b.members with
      | error e => rfl
      | ok ks =>
        simp only
        split
        · rfl
        · congr 2
          funext i
          rw [List.getD_eq_getElem?_getD, List.getD_eq_getElem?_getD, List.getElem?_map]
          cases cs[i]? with
          | none => ext a; fin_cases a <;> rfl
          | some c => rfl

/-- The results of the analysis without foundations are those of the plain beam. -/
theorem FBeam.analyze_plain (b : BeamDef ℝ) (inv : Inverter ℝ) (stable : System ℝ → Bool)
    (solve : Solver ℝ) : (FBeam.mk b []).analyze inv stable solve = b.analyze stable solve := by
  unfold FBeam.analyze BeamDef.analyze
  rw [FBeam.system_plain]
  cases b.system <;> rfl

/-! ### The line of a foundation member -/

/-- The piece of a foundation member at `x`. -/
noncomputable def Found.pieceAt (F : Found ℝ) (x : ℝ) : ℕ := min ⌊x / F.h⌋₊ (F.n - 1)

/-- The deflection of a foundation member whose mesh has the displacements `D`: a cubic in
every piece with the displacements and slopes of the nodes. -/
noncomputable def Found.line (F : Found ℝ) (D : ℕ → ℝ) (x : ℝ) : ℝ :=
  cubic F.h (elemVec D (F.pieceAt x)) (x - F.pieceAt x * F.h)

theorem Found.pieceAt_eq (F : Found ℝ) (hn : 0 < F.n) (hL : 0 < F.L) {e : ℕ} (he : e < F.n) {x : ℝ}
    (h0 : (e : ℝ) * F.h ≤ x) (h1 : x < ((e : ℝ) + 1) * F.h) : F.pieceAt x = e := by
  have hh := F.h_pos hn hL
  have h2 : ⌊x / F.h⌋₊ = e := by
    rw [Nat.floor_eq_iff (div_nonneg (le_trans (by positivity) h0) hh.le)]
    exact ⟨(le_div_iff₀ hh).2 h0, (div_lt_iff₀ hh).2 h1⟩
  rw [Found.pieceAt, h2]
  omega

theorem cubic_continuous (h : ℝ) (d : Vec4 ℝ) : Continuous (cubic h d) := by
  unfold cubic
  fun_prop

theorem Found.line_ae (F : Found ℝ) (hn : 0 < F.n) (hL : 0 < F.L) (D : ℕ → ℝ) (g : ℝ → ℝ) {e : ℕ}
    (he : e < F.n) : ∀ᵐ x ∂MeasureTheory.volume,
      x ∈ Set.uIoc (((e : ℕ) : ℝ) * F.h) (((e + 1 : ℕ) : ℝ) * F.h) →
      g x * F.line D x = g x * cubic F.h (elemVec D e) (x - (e : ℝ) * F.h) := by
  have hh := F.h_pos hn hL
  filter_upwards [MeasureTheory.compl_mem_ae_iff.2
    (MeasureTheory.measure_singleton (((e : ℝ) + 1) * F.h))] with x hx hm
  push_cast at hm
  have hne : x ≠ ((e : ℝ) + 1) * F.h := hx
  rw [Set.uIoc_of_le (by nlinarith)] at hm
  rw [Found.line, F.pieceAt_eq hn hL he hm.1.le (lt_of_le_of_ne hm.2 hne)]

theorem Found.line_piece_integrable (F : Found ℝ) (hn : 0 < F.n) (hL : 0 < F.L) (D : ℕ → ℝ)
    (g : ℝ → ℝ) (hg : Continuous g) {e : ℕ} (he : e < F.n) :
    IntervalIntegrable (fun x => g x * F.line D x) MeasureTheory.volume
      (((e : ℕ) : ℝ) * F.h) (((e + 1 : ℕ) : ℝ) * F.h) := by
  have hc : Continuous fun x => g x * cubic F.h (elemVec D e) (x - (e : ℝ) * F.h) := by
    have := cubic_continuous F.h (elemVec D e)
    fun_prop
  refine (hc.intervalIntegrable _ _).congr_ae ?_
  rw [Filter.EventuallyEq, MeasureTheory.ae_restrict_iff' measurableSet_uIoc]
  filter_upwards [F.line_ae hn hL D g he] with x hx hm
  exact (hx hm).symm

theorem Found.line_integrable (F : Found ℝ) (hn : 0 < F.n) (hL : 0 < F.L) (D : ℕ → ℝ)
    (g : ℝ → ℝ) (hg : Continuous g) :
    IntervalIntegrable (fun x => g x * F.line D x) MeasureTheory.volume 0 F.L := by
  have := IntervalIntegrable.trans_iterate (a := fun e : ℕ => (e : ℝ) * F.h) (n := F.n)
    fun e he => F.line_piece_integrable hn hL D g hg he
  simpa only [Nat.cast_zero, zero_mul, F.n_h hn] using this

/-- Integrals over the member are sums of integrals over its pieces. -/
theorem Found.integral_line (F : Found ℝ) (hn : 0 < F.n) (hL : 0 < F.L) (D : ℕ → ℝ) (g : ℝ → ℝ)
    (hg : Continuous g) :
    ∫ x in (0 : ℝ)..F.L, g x * F.line D x
      = ∑ e ∈ range F.n, ∫ x in (0 : ℝ)..F.h,
          g (x + (e : ℝ) * F.h) * cubic F.h (elemVec D e) x := by
  have key := intervalIntegral.sum_integral_adjacent_intervals (a := fun e : ℕ => (e : ℝ) * F.h)
    (n := F.n) fun e he => F.line_piece_integrable hn hL D g hg he
  rw [F.n_h hn] at key
  simp only [Nat.cast_zero, zero_mul] at key
  rw [← key]
  refine Finset.sum_congr rfl fun e he => ?_
  have he' := Finset.mem_range.1 he
  rw [intervalIntegral.integral_congr_ae (F.line_ae hn hL D g he')]
  have := intervalIntegral.integral_comp_add_right
    (a := (0 : ℝ)) (b := F.h) (fun x => g x * cubic F.h (elemVec D e) (x - (e : ℝ) * F.h)) ((e : ℝ) * F.h)
  simp only [add_sub_cancel_right] at this
  rw [this]
  congr 1
  · ring
  · push_cast; ring

/-- The line of a member with the displacements of the nodes at its ends. -/
theorem Found.line_ends (F : Found ℝ) (hn : 0 < F.n) (hL : 0 < F.L) (D : ℕ → ℝ) :
    F.line D 0 = D 0 ∧ F.line D F.L = D (2 * F.n) := by
  have hh := F.h_pos hn hL
  constructor
  · rw [Found.line, F.pieceAt_eq hn hL hn (by simp) (by simpa using hh)]
    simpa [elemVec] using (cubic_ends hh.ne' (elemVec D 0)).1
  · have h1 : F.pieceAt F.L = F.n - 1 := by
      have : ⌊F.L / F.h⌋₊ = F.n := by
        rw [← F.n_h hn, mul_div_cancel_right₀ _ hh.ne', Nat.floor_natCast]
      rw [Found.pieceAt, this]
      omega
    have h2 : ((F.n - 1 : ℕ) : ℝ) = F.n - 1 := by
      rw [Nat.cast_sub hn]; simp
    rw [Found.line, h1, h2, ← F.n_h hn, show (F.n : ℝ) * F.h - (F.n - 1) * F.h = F.h by ring,
      (cubic_ends hh.ne' _).2.2.1]
    simp only [elemVec]
    congr 1
    simp
    omega

/-! ### C110 -/

/-- Work of the reported reactions in any motion `u`: that of the member end forces. -/
theorem System.reaction_work_ends {K : Type*} [Field K] [LinearOrder K] [IsStrictOrderedRing K]
    (s : System K) (d u : ℕ → K)
    (hfree : ∀ p < s.N, s.constr p = none → s.residual d p = 0)
    (hpr : ∀ p < s.N, (s.presc p).isSome → s.r p < 0) :
    (((((List.range s.N).filter fun i => s.r i < 0).zip (s.reactions d)).map
        fun q => u q.1 * q.2).sum
      + ((((List.range s.N).filter fun i => 0 < s.r i).zip (s.springForces d)).map
        fun q => u q.1 * q.2).sum)
      = ∑ i ∈ range s.n, elemVec u i ⬝ᵥ s.endForces d i := by
  simp only [System.reactions, System.springForces]
  rw [zip_map_sum, zip_map_sum, filter_range_sum, filter_range_sum]
  have h1 : ∑ p ∈ range s.N, (if s.r p < 0 then u p * s.residual d p else 0)
      = ∑ p ∈ range s.N, u p * s.residual d p := by
    apply Finset.sum_congr rfl
    intro p hp
    split
    · rfl
    · rename_i hr
      rw [hfree p (Finset.mem_range.1 hp), mul_zero]
      rcases hc : s.presc p with _ | v
      · simp [System.constr, hc, hr]
      · exact absurd (hpr p (Finset.mem_range.1 hp) (by simp [hc])) hr
  have h2 : ∑ p ∈ range s.N, (if 0 < s.r p then u p * (-s.r p * d p) else 0)
      = -∑ p ∈ range s.N, s.spring p * u p * d p := by
    rw [← Finset.sum_neg_distrib]
    apply Finset.sum_congr rfl
    intro p _
    simp only [System.spring]
    split <;> ring
  rw [h1, h2]
  simp only [System.residual, mul_sub, Finset.sum_sub_distrib]
  rw [s.virtual_work, s.forces_work]
  simp only [System.endForces, dotProduct_add, Finset.sum_add_distrib]
  ring

/-- A foundation member as the analysis sees it: its super-element and the fixed-end forces
of the pieces. -/
theorem spanFoundation_ok {inv : Inverter ℝ} {m : Member ℝ} {kf : ℝ} {E : FoundEl ℝ}
    (h : spanFoundation inv m kf = .ok E) :
    0 < E.n ∧ E.toFound.build inv = .ok E := by
  unfold spanFoundation at h
  split at h
  · cases h
  · cases h
  · rename_i e h1 h2 h3
    split at h
    · cases h
    · rename_i n hn
      have h' := h
      unfold Found.build at h
      split at h
      · cases h
      · cases h
        refine ⟨?_, h'⟩
        unfold autoSubdivisions at hn
        split at hn
        · cases hn
        split at hn
        · cases hn
        split at hn
        · cases hn
        cases hn
        simp only
        omega
  · cases h

/-- The loads are on their spans and, on foundation members, clear of the tolerances with
which the loads are divided between the pieces (see `C64_load_violation`). -/
def FBeam.LoadsClear (b : FBeam) (inv : Inverter ℝ) (ls : List (SpanLoad ℝ)) : Prop :=
  ∀ l ∈ ls, 0 ≤ l.iSpan ∧ l.iSpan < b.members.length ∧
    (b.kfAt l.iSpan.toNat = none → l.load.Placed (b.spanL l.iSpan.toNat)) ∧
    ∀ k, b.kfAt l.iSpan.toNat = some k → l.load.OnSpan (b.spanL l.iSpan.toNat) ∧
      ∀ hi : l.iSpan.toNat < b.members.length, ∀ E,
        spanFoundation inv b.members[l.iSpan.toNat] k = .ok E → E.Clear l.load

/-- `w` is the deflection the analysis recovers along foundation member `i`: in every piece
the cubic through the displacements of the mesh nodes. -/
def FBeam.IsLine (b : FBeam) (inv : Inverter ℝ) (ls : List (SpanLoad ℝ)) (res : Result ℝ) (i : ℕ)
    (w : ℝ → ℝ) : Prop :=
  ∀ (hi : i < b.members.length) (k : ℝ), b.kfAt i = some k → ∃ E refs,
    spanFoundation inv b.members[i] k = .ok E ∧ E.refs (ownLoads i ls) = .ok refs ∧
    w = E.line (E.mesh refs (elemVec res.d i))

/-- Balance of one member of an analysed beam. -/
theorem FBeam.span_balance (b : FBeam) (inv : Inverter ℝ) (hS : inv.Sound)
    (hgood : ∀ m ∈ b.members, m.Good) {s : System ℝ} (h1 : b.system inv = .ok s)
    (ls : List (SpanLoad ℝ)) (hls : b.setLoads = .ok ls) (hpl : b.LoadsClear inv ls) (res : Result ℝ)
    (i : ℕ) (hi : i < b.members.length) :
    ∃ w, b.IsLine inv ls res i w ∧
      (∀ k, b.kfAt i = some k → w 0 = res.d (2 * i) ∧ w (b.spanL i) = res.d (2 * i + 2)) ∧
      (∀ g : ℝ → ℝ, Continuous g → IntervalIntegrable
        (fun x => g x * ((b.kfAt i).getD 0 * w x)) MeasureTheory.volume 0 (b.spanL i)) ∧
      s.endForces res.d i 0 + s.endForces res.d i 2
        = ((ls.filter fun l => l.iSpan = (i : ℤ)).map fun l => l.load.total (b.spanL i)).sum
          + ∫ x in (0 : ℝ)..b.spanL i, (b.kfAt i).getD 0 * w x ∧
      (b.members[i].et ≠ .PP →
        s.endForces res.d i 1 + s.endForces res.d i 3 + s.endForces res.d i 2 * b.spanL i
        = ((ls.filter fun l => l.iSpan = (i : ℤ)).map
            fun l => l.load.momentAboutLeft (b.spanL i)).sum
          + ∫ x in (0 : ℝ)..b.spanL i, x * ((b.kfAt i).getD 0 * w x)) := by
  obtain ⟨hn, hk, ⟨ls', hl', hc⟩, -⟩ := FBeam.system_ok h1
  obtain rfl : ls' = ls := by rw [hls] at hl'; cases hl'; rfl
  have hLi := b.spanL_eq i hi
  have hL : 0 < b.members[i].L := (hgood _ (List.getElem_mem hi)).1
  have hki := hk i hi
  have hci := hc i hi
  rcases hkf : b.kfAt i with _ | k
  · refine ⟨fun _ => 0, ?_, ?_, ?_, ?_, ?_⟩
    · intro _ k hk
      rw [hkf] at hk
      cases hk
    · intro k hk
      cases hk
    · intro g _
      simp only [mul_zero]
      exact intervalIntegrable_const
    · rw [hkf] at hki hci
      simp only [spanKf] at hki
      simp only [spanRef] at hci
      split at hci
      · cases hci
      rename_i c hcc
      have hcv : s.ref i = c.vec := (Except.ok.inj hci).symm
      have r0 := rigid_no_work (hgood _ (List.getElem_mem hi)) hki 1 0 (elemVec res.d i)
      have q := (b.members[i]).refSum_lin i (fun c => c.Va + c.Vb) (by simp) (by intros; simp; ring)
        (fun l => l.load.total (b.spanL i)) ls' (by
          intro l hl hli c hc
          obtain ⟨_, _, h3, _⟩ := hpl l hl
          rw [hli, Int.toNat_natCast] at h3
          have h3 := h3 hkf
          rw [hLi] at h3 ⊢
          exact ((b.members[i]).ref_total hL l.load h3 c hc).1) c hcc
      simp only [Option.getD_none, zero_mul, mul_zero, intervalIntegral.integral_zero, add_zero]
      rw [← q]
      simp only [System.endForces, hcv, Pi.add_apply]
      generalize s.kb i *ᵥ elemVec res.d i = v at r0 ⊢
      rw [dot4] at r0
      simp only [rigidMotion, Matrix.cons_val] at r0
      have e0 : c.vec 0 = c.Va := rfl
      have e2 : c.vec 2 = c.Vb := rfl
      rw [e0, e2]
      linarith
    · intro het
      rw [hkf] at hki hci
      simp only [spanKf] at hki
      simp only [spanRef] at hci
      split at hci
      · cases hci
      rename_i c hcc
      have hcv : s.ref i = c.vec := (Except.ok.inj hci).symm
      have r0 := rigid_no_work (hgood _ (List.getElem_mem hi)) hki 0 1 (elemVec res.d i)
      have q := (b.members[i]).refSum_lin i (fun c => c.Ma + c.Mb + c.Vb * b.spanL i) (by simp)
        (by intros; simp; ring)
        (fun l => l.load.momentAboutLeft (b.spanL i)) ls' (by
          intro l hl hli c hc
          obtain ⟨_, _, h3, _⟩ := hpl l hl
          rw [hli, Int.toNat_natCast] at h3
          have h3 := h3 hkf
          rw [hLi] at h3 ⊢
          exact ((b.members[i]).ref_total hL l.load h3 c hc).2 het) c hcc
      simp only [Option.getD_none, zero_mul, mul_zero, intervalIntegral.integral_zero, add_zero]
      rw [← q]
      simp only [System.endForces, hcv, Pi.add_apply]
      generalize s.kb i *ᵥ elemVec res.d i = v at r0 ⊢
      rw [dot4] at r0
      simp only [rigidMotion, Matrix.cons_val] at r0
      have e1 : c.vec 1 = c.Ma := rfl
      have e2 : c.vec 2 = c.Vb := rfl
      have e3 : c.vec 3 = c.Mb := rfl
      rw [e1, e2, e3, hLi]
      linarith
  · rw [hkf] at hki hci
    simp only [spanKf] at hki
    simp only [spanRef] at hci
    split at hki
    · cases hki
    rename_i E hE
    rw [hE] at hci
    simp only at hci
    have hkE : s.kb i = E.k := (Except.ok.inj hki).symm
    obtain ⟨hn0, hb⟩ := spanFoundation_ok hE
    obtain ⟨-, -, -, hEL, hEk, -⟩ := C64_scope inv _ k E hE
    have hr : ∃ refs, E.refs (ownLoads i ls') = .ok refs ∧ s.ref i = E.refOf refs := by
      unfold FoundEl.ref at hci
      split at hci
      · cases hci
      · rename_i refs hr
        exact ⟨refs, hr, (Except.ok.inj hci).symm⟩
    obtain ⟨refs, hr, hrr⟩ := hr
    have hLE : b.spanL i = E.L := by rw [hLi, hEL]
    have hL' : 0 < E.L := by rw [hEL]; exact hL
    have hown : ∀ l ∈ ownLoads i ls', l.OnSpan E.L ∧ E.Clear l := by
      intro l hl
      obtain ⟨l', hl1, rfl⟩ := List.mem_map.1 hl
      obtain ⟨hl2, hl3⟩ := List.mem_filter.1 hl1
      have hli : l'.iSpan = (i : ℤ) := by simpa using hl3
      obtain ⟨_, _, _, h4⟩ := hpl l' hl2
      rw [hli, Int.toNat_natCast] at h4
      obtain ⟨h5, h6⟩ := h4 k hkf
      exact ⟨hLE ▸ h5, h6 hi E hE⟩
    obtain ⟨-, q1, q2⟩ := C64_balance E.toFound hn0 hL' inv hS E hb (ownLoads i ls')
      (fun l hl => (hown l hl).1) (fun l hl => (hown l hl).2) refs hr (elemVec res.d i)
    have hm := (C64_mesh_equilibrium E.toFound hn0 inv hS E hb refs (by
      unfold Found.refs at hr
      split at hr
      · cases hr
      · simpa using (mapE_ok hr).1) (elemVec res.d i)).1
    set D := E.mesh refs (elemVec res.d i) with hD
    have hend := E.line_ends hn0 hL' D
    have hf : s.endForces res.d i = E.k *ᵥ elemVec res.d i + E.refOf refs := by
      rw [System.endForces, hkE, hrr]
    refine ⟨E.line D, ?_, ?_, ?_, ?_, ?_⟩
    · intro _ k' hk'
      rw [hkf] at hk'
      cases hk'
      exact ⟨E, refs, hE, hr, rfl⟩
    · intro k' _
      rw [hLE, hend.1, hend.2]
      exact ⟨hm 0, hm 2⟩
    · intro g hg
      have := E.line_integrable hn0 hL' D (fun x => g x * k) (by fun_prop)
      simp only [mul_assoc] at this
      rw [hLE]
      exact this
    · rw [hf, q1, hLE, ownLoads, List.map_map]
      simp only [Option.getD_some, ← hEk]
      rw [E.integral_line hn0 hL' D (fun _ => E.kf) continuous_const]
      rfl
    · intro _
      have hi2 := E.integral_line hn0 hL' D (fun x => x * E.kf) (by fun_prop)
      have hi3 : ∀ e ∈ range E.n, ∫ x in (0 : ℝ)..E.h, (x + (e : ℝ) * E.h) * E.kf * cubic E.h (elemVec D e) x
          = (∫ x in (0 : ℝ)..E.h, x * (E.kf * cubic E.h (elemVec D e) x))
            + (e : ℝ) * E.h * ∫ x in (0 : ℝ)..E.h, E.kf * cubic E.h (elemVec D e) x := by
        intro e _
        have hc := cubic_continuous E.h (elemVec D e)
        rw [← intervalIntegral.integral_const_mul, ← intervalIntegral.integral_add
          ((by fun_prop : Continuous _).intervalIntegrable _ _)
          ((by fun_prop : Continuous _).intervalIntegrable _ _)]
        congr 1
        funext x
        ring
      rw [Finset.sum_congr rfl hi3] at hi2
      rw [hf, hLE, q2, ← hi2, ownLoads, List.map_map]
      simp only [Option.getD_some, ← hEk, mul_assoc]
      rfl

/-- **C110**: in every completed analysis of a beam with any mix of foundation members and
other members, the reported reactions and the pressure of the foundation under the recovered
deflection carry together exactly the applied loads: vertical forces, and moments about the
left end of the beam unless there is a pinned-pinned member (see C19).  The recovered
deflection has the displacements of the nodes at the ends of the member.  As for C18,
displacements may be prescribed at rigid supports only. -/
theorem C110_equilibrium (b : FBeam) (hgood : ∀ m ∈ b.members, m.Good) (inv : Inverter ℝ)
    (hS : inv.Sound) (stable : System ℝ → Bool) (solve : Solver ℝ) (hs : solve.Sound) (res : Result ℝ)
    (h : b.analyze inv stable solve = .ok res)
    (hpr : ∀ (i : ℕ) (v : ℝ), b.presc[i]? = some (some v) → b.restraints.getD i 0 < 0)
    (ls : List (SpanLoad ℝ)) (hls : parseLM b.LM = .ok ls) (hpl : b.LoadsClear inv ls) :
    ∃ w : ℕ → ℝ → ℝ,
      (∀ i < b.members.length, b.IsLine inv ls res i (w i) ∧
        ∀ k, b.kfAt i = some k → w i 0 = res.d (2 * i) ∧ w i (b.spanL i) = res.d (2 * i + 2)) ∧
      (((b.reported res).filter fun q => q.1 % 2 = 0).map Prod.snd).sum
        + ∑ i ∈ range b.members.length, ∫ x in (0 : ℝ)..b.spanL i, -((b.kfAt i).getD 0 * w i x)
        = b.totalLoad ls ∧
      ((∀ m ∈ b.members, m.et ≠ .PP) →
        ((b.reported res).map fun q =>
            if q.1 % 2 = 0 then b.nodeX (q.1 / 2) * q.2 else q.2).sum
          + ∑ i ∈ range b.members.length,
              ∫ x in (0 : ℝ)..b.spanL i, (b.nodeX i + x) * -((b.kfAt i).getD 0 * w i x)
          = b.totalMoment ls) := by
  obtain ⟨s, h1, h2⟩ := FBeam.analyze_ok h
  obtain ⟨hn, hk, ⟨ls', hl', hc⟩, hr, hp, hl1, hl2⟩ := FBeam.system_ok h1
  obtain ⟨⟨_, hf⟩, hr1, hr2, _, _⟩ := System.analyze_ok hs h2
  obtain rfl : ls' = ls := by
    unfold BeamDef.setLoads at hl'
    rw [hls] at hl'
    simp only at hl'
    split at hl'
    · cases hl'; rfl
    · cases hl'
  have hbal := fun i hi => b.span_balance inv hS hgood h1 ls' hl' hpl res i hi
  choose w hw using fun i => (if hi : i < b.members.length then
    ⟨_, fun _ => (hbal i hi).choose_spec⟩ else ⟨fun _ => 0, fun h => absurd h hi⟩ :
      ∃ w : ℝ → ℝ, ∀ hi : i < b.members.length, b.IsLine inv ls' res i w ∧
      (∀ k, b.kfAt i = some k → w 0 = res.d (2 * i) ∧ w (b.spanL i) = res.d (2 * i + 2)) ∧
      (∀ g : ℝ → ℝ, Continuous g → IntervalIntegrable
        (fun x => g x * ((b.kfAt i).getD 0 * w x)) MeasureTheory.volume 0 (b.spanL i)) ∧
      s.endForces res.d i 0 + s.endForces res.d i 2
        = ((ls'.filter fun l => l.iSpan = (i : ℤ)).map fun l => l.load.total (b.spanL i)).sum
          + ∫ x in (0 : ℝ)..b.spanL i, (b.kfAt i).getD 0 * w x ∧
      (b.members[i].et ≠ .PP →
        s.endForces res.d i 1 + s.endForces res.d i 3 + s.endForces res.d i 2 * b.spanL i
        = ((ls'.filter fun l => l.iSpan = (i : ℤ)).map
            fun l => l.load.momentAboutLeft (b.spanL i)).sum
          + ∫ x in (0 : ℝ)..b.spanL i, x * ((b.kfAt i).getD 0 * w x)))
  have work : ∀ a t : ℝ, ((b.reported res).map fun q => b.rigid a t q.1 * q.2).sum
      = ∑ i ∈ range b.members.length, ((a + t * b.nodeX i)
          * (s.endForces res.d i 0 + s.endForces res.d i 2)
        + t * (s.endForces res.d i 1 + s.endForces res.d i 3 + s.endForces res.d i 2 * b.spanL i)) := by
    intro a t
    have := s.reaction_work_ends res.d (b.rigid a t) hf (fun p hpN hsome => by
        rw [hr]
        rw [hp, List.getD_eq_getElem?_getD] at hsome
        rcases hq : b.presc[p]? with _ | (_ | v)
        · simp [hq] at hsome
        · simp [hq] at hsome
        · exact hpr p v hq)
    rw [← hr1, ← hr2] at this
    simp only [System.N, hn, hr] at this
    simp only [BeamDef.reported, List.map_append, List.sum_append]
    rw [this]
    refine Finset.sum_congr rfl fun i hi => ?_
    have hi' := Finset.mem_range.1 hi
    rw [b.rigid_elem a t i hi', b.spanL_eq i hi']
    rw [dot4]
    simp only [rigidMotion, Matrix.cons_val]
    ring
  have hrep : ∀ l : List (ℕ × ℝ), ((l.filter fun q => q.1 % 2 = 0).map Prod.snd).sum
      = (l.map fun q => b.rigid 1 0 q.1 * q.2).sum := by
    intro l
    induction l with
    | nil => rfl
    | cons q l ih =>
      by_cases hq : q.1 % 2 = 0
      · simp [hq, BeamDef.rigid] at ih ⊢
        exact ih
      · simp [hq, BeamDef.rigid] at ih ⊢
        exact ih
  have hrep' : ((b.reported res).map fun q =>
      if q.1 % 2 = 0 then b.nodeX (q.1 / 2) * q.2 else q.2).sum
      = ((b.reported res).map fun q => b.rigid 0 1 q.1 * q.2).sum := by
    congr 1
    apply List.map_congr_left
    intro q _
    simp only [BeamDef.rigid]
    split <;> ring
  have hsp : ∀ l ∈ ls', 0 ≤ l.iSpan ∧ l.iSpan < (b.members.length : ℤ) :=
    fun l hl => ⟨(hpl l hl).1, (hpl l hl).2.1⟩
  refine ⟨w, fun i hi => ⟨(hw i hi).1, (hw i hi).2.1⟩, ?_, ?_⟩
  · rw [hrep, work 1 0, BeamDef.totalLoad, ← Finset.sum_add_distrib,
      ← sum_by_span b.members.length ls' hsp fun i l => l.load.total (b.spanL i)]
    refine Finset.sum_congr rfl fun i hi => ?_
    obtain ⟨-, -, -, q, -⟩ := hw i (Finset.mem_range.1 hi)
    rw [intervalIntegral.integral_neg, q]
    ring
  · intro hPP
    rw [hrep', work 0 1, BeamDef.totalMoment, ← Finset.sum_add_distrib,
      ← sum_by_span b.members.length ls' hsp fun i l =>
        b.nodeX i * l.load.total (b.spanL i) + l.load.momentAboutLeft (b.spanL i)]
    refine Finset.sum_congr rfl fun i hi => ?_
    have hi' := Finset.mem_range.1 hi
    obtain ⟨-, -, q0, q1, q2⟩ := hw i hi'
    have q2 := q2 (hPP _ (List.getElem_mem hi'))
    have e : ∫ x in (0 : ℝ)..b.spanL i, (b.nodeX i + x) * -((b.kfAt i).getD 0 * w i x)
        = -(b.nodeX i * ∫ x in (0 : ℝ)..b.spanL i, (b.kfAt i).getD 0 * w i x)
          - ∫ x in (0 : ℝ)..b.spanL i, x * ((b.kfAt i).getD 0 * w i x) := by
      have a := intervalIntegral.integral_sub (q0 (fun _ => b.nodeX i) continuous_const).neg
        (q0 (fun x => x) continuous_id)
      simp only [Pi.neg_apply] at a
      rw [← intervalIntegral.integral_const_mul, ← intervalIntegral.integral_neg, ← a]
      congr 1
      funext x
      ring
    rw [e, q1, q2, List.sum_map_add, List.sum_map_mul_left]
    ring

/-! ### C111 -/

/-- The pieces of the members of a beam: member `i` consists of `n i` pieces, each with the
stiffness `k i`; piece `e` has the fixed-end forces `r i e`. -/
structure BeamMesh where
  n : ℕ → ℕ
  k : ℕ → Mat4 ℝ
  r : ℕ → ℕ → Vec4 ℝ

/-- The pieces belong to the beam under the loads `ls`: a foundation member is divided into
equal pieces, in bending on their part of the foundation, that carry their parts of the
loads; any other member is a single piece. -/
structure FBeam.HasMesh (b : FBeam) (ls : List (SpanLoad ℝ)) (m : BeamMesh) : Prop where
  plain : ∀ i (hi : i < b.members.length), b.kfAt i = none → m.n i = 1 ∧
    b.members[i].spanK = .ok (m.k i) ∧ ∃ c, b.members[i].refSum i ls = .ok c ∧ m.r i 0 = c.vec
  found : ∀ i (hi : i < b.members.length) kf, b.kfAt i = some kf → 0 < m.n i ∧
    ∃ EI, b.members[i].EI = .const EI ∧
    m.k i = kEbeam EI (b.members[i].L / m.n i) + mConsistent kf (b.members[i].L / m.n i) ∧
    ∃ per, (⟨b.members[i].L, EI, kf, m.n i⟩ : Found ℝ).subLoads (ownLoads i ls) = .ok per ∧
      ∀ e < m.n i, pieceRef (b.members[i].L / m.n i) (per e) = .ok (m.r i e)

/-- The end forces of piece `e` of member `i`. -/
noncomputable def BeamMesh.force (m : BeamMesh) (D : ℕ → ℕ → ℝ) (i e : ℕ) : Vec4 ℝ :=
  m.k i *ᵥ elemVec (D i) e + m.r i e

/-- The solution of the whole mesh without any condensation: `d` at the nodes of the beam,
`D i` at the mesh nodes of member `i`.  Every mesh node inside a member is in equilibrium, and
every component at a node of the beam is either prescribed or in equilibrium. -/
structure FBeam.MeshSolution (b : FBeam) (m : BeamMesh) (d : ℕ → ℝ) (D : ℕ → ℕ → ℝ) : Prop where
  ends : ∀ i < b.members.length, ∀ c : Fin 2,
    D i c = d (2 * i + c) ∧ D i (2 * m.n i + c) = d (2 * i + 2 + c)
  inner : ∀ i < b.members.length, ∀ j, 0 < j → j < m.n i → ∀ c : Fin 2,
    m.force D i (j - 1) ⟨2 + c, by omega⟩ + m.force D i j ⟨c, by omega⟩ = 0
  prescribed : ∀ p < 2 * b.members.length + 2, ∀ v, b.presc.getD p none = some v → d p = v
  rigid : ∀ p < 2 * b.members.length + 2, b.presc.getD p none = none → b.restraints.getD p 0 < 0 →
    d p = 0
  free : ∀ k ≤ b.members.length, ∀ c : Fin 2, b.presc.getD (2 * k + c) none = none →
    0 ≤ b.restraints.getD (2 * k + c) 0 →
    (if 0 < k then m.force D (k - 1) (m.n (k - 1) - 1) ⟨2 + c, by omega⟩ else 0)
      + (if k < b.members.length then m.force D k 0 ⟨c, by omega⟩ else 0)
      + b.restraints.getD (2 * k + c) 0 * d (2 * k + c) = 0

/-- What the analysis works with for the member `i` of a mesh. -/
theorem FBeam.member_mesh (b : FBeam) (inv : Inverter ℝ)
    {s : System ℝ} (h1 : b.system inv = .ok s) (ls : List (SpanLoad ℝ)) (hls : b.setLoads = .ok ls)
    (i : ℕ) (hi : i < b.members.length) (kf : ℝ) (hkf : b.kfAt i = some kf) :
    ∃ (E : FoundEl ℝ) (refs : List (Vec4 ℝ)) (per : ℕ → List (Load ℝ)),
      spanFoundation inv b.members[i] kf = .ok E ∧ E.refs (ownLoads i ls) = .ok refs ∧
      0 < E.n ∧ E.toFound.build inv = .ok E ∧ refs.length = E.n ∧
      b.members[i].EI = .const E.EI ∧ E.L = b.members[i].L ∧ E.kf = kf ∧
      autoSubdivisions b.members[i].L E.EI kf = .ok E.n ∧
      s.kb i = E.k ∧ s.ref i = E.refOf refs ∧
      E.subLoads (ownLoads i ls) = .ok per ∧
      ∀ e < E.n, pieceRef E.h (per e) = .ok (refs.getD e 0) := by
  obtain ⟨hn, hk, ⟨ls', hl', hc⟩, -⟩ := FBeam.system_ok h1
  obtain rfl : ls' = ls := by rw [hls] at hl'; cases hl'; rfl
  have hki := hk i hi
  have hci := hc i hi
  rw [hkf] at hki hci
  simp only [spanKf] at hki
  simp only [spanRef] at hci
  split at hki
  · cases hki
  rename_i E hE
  rw [hE] at hci
  simp only at hci
  obtain ⟨hn0, hb⟩ := spanFoundation_ok hE
  obtain ⟨-, -, hEI, hEL, hEk, hEn⟩ := C64_scope inv _ kf E hE
  have hr : ∃ refs, E.refs (ownLoads i ls') = .ok refs ∧ s.ref i = E.refOf refs := by
    unfold FoundEl.ref at hci
    split at hci
    · cases hci
    · rename_i refs hr
      exact ⟨refs, hr, (Except.ok.inj hci).symm⟩
  obtain ⟨refs, hr, hrr⟩ := hr
  have hr' := hr
  unfold Found.refs at hr
  split at hr
  · cases hr
  rename_i per hper
  obtain ⟨m1, m2⟩ := mapE_ok hr
  rw [List.length_range] at m1
  refine ⟨E, refs, per, hE, hr', hn0, hb, m1, hEI, hEL, hEk, hEn, (Except.ok.inj hki).symm, hrr,
    hper, ?_⟩
  intro e he
  have := m2 e (by simpa using he) (by omega)
  rw [List.getElem_range] at this
  rw [this, List.getD_eq_getElem?_getD, List.getElem?_eq_getElem (by omega : e < refs.length)]
  rfl

/-- The pieces of a foundation member are those of the element of the code. -/
theorem FBeam.HasMesh.link {b : FBeam} {ls : List (SpanLoad ℝ)} {m : BeamMesh} (hm : b.HasMesh ls m)
    (hauto : ∀ i (hi : i < b.members.length) kf EI, b.kfAt i = some kf →
      b.members[i].EI = .const EI → autoSubdivisions b.members[i].L EI kf = .ok (m.n i))
    (i : ℕ) (hi : i < b.members.length) (kf : ℝ) (hkf : b.kfAt i = some kf) (E : FoundEl ℝ)
    (hEI : b.members[i].EI = .const E.EI) (hEL : E.L = b.members[i].L) (hEk : E.kf = kf)
    (hEn : autoSubdivisions b.members[i].L E.EI kf = .ok E.n) (per : ℕ → List (Load ℝ))
    (hper : E.subLoads (ownLoads i ls) = .ok per) (refs : List (Vec4 ℝ))
    (hr : ∀ e < E.n, pieceRef E.h (per e) = .ok (refs.getD e 0)) :
    m.n i = E.n ∧ ∀ D : ℕ → ℕ → ℝ, ∀ e < E.n, m.force D i e = (E.sys refs).endForces (D i) e := by
  have h1 := hauto i hi kf E.EI hkf hEI
  rw [hEn] at h1
  have hn : m.n i = E.n := (Except.ok.inj h1).symm
  obtain ⟨-, EI, e1, e2, per', e3, e4⟩ := hm.found i hi kf hkf
  rw [hEI] at e1
  cases e1
  have hF : (⟨b.members[i].L, E.EI, kf, m.n i⟩ : Found ℝ) = E.toFound := by
    rw [hn, ← hEL, ← hEk]
  rw [hF, hper] at e3
  cases e3
  refine ⟨hn, fun D e he => ?_⟩
  have e5 := e4 e (by omega)
  rw [hn, ← hEL] at e5
  have e6 := hr e he
  rw [Found.h, e5] at e6
  unfold BeamMesh.force System.endForces
  rw [Except.ok.inj e6, e2, hn, ← hEL, ← hEk]
  rfl

/-- One member of the mesh against the member of the analysis: the displacements of the ends
determine those inside and the end forces. -/
theorem FBeam.member_iff (b : FBeam) (inv : Inverter ℝ) (hS : inv.Sound)
    {s : System ℝ} (h1 : b.system inv = .ok s) (ls : List (SpanLoad ℝ)) (hls : b.setLoads = .ok ls)
    {m : BeamMesh} (hm : b.HasMesh ls m)
    (hauto : ∀ i (hi : i < b.members.length) kf EI, b.kfAt i = some kf →
      b.members[i].EI = .const EI → autoSubdivisions b.members[i].L EI kf = .ok (m.n i))
    (d : ℕ → ℝ) (i : ℕ) (hi : i < b.members.length) :
    ∃ Di : ℕ → ℝ,
      (∀ c : Fin 2, Di c = d (2 * i + c) ∧ Di (2 * m.n i + c) = d (2 * i + 2 + c)) ∧
      (∀ D : ℕ → ℕ → ℝ, D i = Di → ∀ j, 0 < j → j < m.n i → ∀ c : Fin 2,
        m.force D i (j - 1) ⟨2 + c, by omega⟩ + m.force D i j ⟨c, by omega⟩ = 0) ∧
      (∀ D : ℕ → ℕ → ℝ,
        (∀ c : Fin 2, D i c = d (2 * i + c) ∧ D i (2 * m.n i + c) = d (2 * i + 2 + c)) →
        (∀ j, 0 < j → j < m.n i → ∀ c : Fin 2,
          m.force D i (j - 1) ⟨2 + c, by omega⟩ + m.force D i j ⟨c, by omega⟩ = 0) →
        (∀ p ≤ 2 * m.n i + 1, D i p = Di p) ∧
        ∀ c : Fin 2, m.force D i 0 ⟨c, by omega⟩ = s.endForces d i ⟨c, by omega⟩ ∧
          m.force D i (m.n i - 1) ⟨2 + c, by omega⟩ = s.endForces d i ⟨2 + c, by omega⟩) ∧
      ∀ kf, b.kfAt i = some kf → ∀ E refs, spanFoundation inv b.members[i] kf = .ok E →
        E.refs (ownLoads i ls) = .ok refs → Di = E.mesh refs (elemVec d i) := by
  cases hkf : b.kfAt i with
  | none =>
    obtain ⟨hn1, hk1, c1, hc1, hr1⟩ := hm.plain i hi hkf
    obtain ⟨hn, hk, ⟨ls', hl', hc⟩, -⟩ := FBeam.system_ok h1
    obtain rfl : ls' = ls := by rw [hls] at hl'; cases hl'; rfl
    have hki := hk i hi
    have hci := hc i hi
    rw [hkf] at hki hci
    simp only [spanKf] at hki
    simp only [spanRef, hc1] at hci
    rw [hk1] at hki
    refine ⟨fun p => d (2 * i + p), ?_, ?_, ?_, fun _ h => by cases h⟩
    · intro c
      rw [hn1]
      exact ⟨rfl, by simp only; congr 1; ring⟩
    · intro D _ j h0 hj
      omega
    · intro D hD _
      rw [hn1] at hD ⊢
      have hv : elemVec (D i) 0 = elemVec d i := by
        funext a
        have q0 := hD 0
        have q1 := hD 1
        fin_cases a
        · simpa [elemVec] using q0.1
        · simpa [elemVec] using q1.1
        · simpa [elemVec] using q0.2
        · simpa [elemVec] using q1.2
      have hf : m.force D i 0 = s.endForces d i := by
        unfold BeamMesh.force System.endForces
        rw [hv, hr1, ← Except.ok.inj hki, ← Except.ok.inj hci]
      refine ⟨?_, fun c => ⟨by rw [hf], by rw [hf]⟩⟩
      intro p hp
      have := congrFun hv ⟨p, by omega⟩
      simpa [elemVec] using this
  | some kf =>
    obtain ⟨E, refs, per, hE, hr, hn0, hb, hrl, hEI, hEL, hEk, hEn, hk, href, hper, hpr⟩ :=
      b.member_mesh inv h1 ls hls i hi kf hkf
    obtain ⟨hn, hforce⟩ := hm.link hauto i hi kf hkf E hEI hEL hEk hEn per hper refs hpr
    obtain ⟨g1, g2, g3, g4⟩ := C64_mesh_equilibrium E.toFound hn0 inv hS E hb refs hrl (elemVec d i)
    have ho := (Found.build_ok hS hb).2
    have hends : ∀ c : Fin 2, E.mesh refs (elemVec d i) c = d (2 * i + c) ∧
        E.mesh refs (elemVec d i) (2 * m.n i + c) = d (2 * i + 2 + c) := by
      intro c
      have a0 := g1 0
      have a1 := g1 1
      have a2 := g1 2
      have a3 := g1 3
      rw [hn]
      fin_cases c
      · exact ⟨a0, a2⟩
      · exact ⟨a1, a3⟩
    refine ⟨E.mesh refs (elemVec d i), hends, ?_, ?_, ?_⟩
    · intro D hD j h0 hj c
      rw [hn] at hj
      rw [hforce D _ (by omega), hforce D _ hj, hD]
      exact g2 j h0 hj c
    · intro D hD hin
      have huniq : ∀ p ≤ 2 * m.n i + 1, D i p = E.mesh refs (elemVec d i) p := by
        have hv : (fun a => D i (E.ret a)) = elemVec d i := by
          funext a
          rw [Found.ret_eq]
          have q0 := hD 0
          have q1 := hD 1
          rw [hn] at q0 q1
          fin_cases a
          · simpa [elemVec] using q0.1
          · simpa [elemVec] using q1.1
          · simpa [elemVec] using q0.2
          · simpa [elemVec] using q1.2
        have hu := E.mesh_unique hn0 ho refs hrl (D i) (fun p hp hne => by
          have hp' : p < 2 * E.n + 2 := by
            have := hp
            rw [Found.ndof] at this
            omega
          have e0 := hne 0
          have e1 := hne 1
          have e2 := hne 2
          have e3 := hne 3
          rw [Found.ret_eq] at e0 e1 e2 e3
          simp at e0 e1 e2 e3
          have hres := (E.sys refs).residual_node (D i) (p / 2)
            (by change p / 2 ≤ E.n; omega) ⟨p % 2, by omega⟩
          have hsp : ∀ q, (E.sys refs).spring q = 0 := by
            intro q
            simp [System.spring, Found.sys]
          rw [if_pos (by omega), if_pos (by change p / 2 < E.n; omega), hsp, zero_mul, add_zero] at hres
          have hi2 := hin (p / 2) (by omega) (by omega) ⟨p % 2, by omega⟩
          rw [hforce D _ (by omega), hforce D _ (by omega)] at hi2
          rw [hi2] at hres
          have : 2 * (p / 2) + p % 2 = p := by omega
          simpa [this] using hres)
        intro p hp
        rw [hn] at hp
        rw [← hu p (by rw [Found.ndof]; omega), hv]
      refine ⟨huniq, fun c => ?_⟩
      have hc := c.isLt
      have hel : ∀ e < E.n, elemVec (D i) e = elemVec (E.mesh refs (elemVec d i)) e := by
        intro e he
        funext a
        have := a.isLt
        exact huniq _ (by omega)
      have hfe : ∀ e < E.n, m.force D i e = (E.sys refs).endForces (E.mesh refs (elemVec d i)) e := by
        intro e he
        rw [hforce D e he]
        unfold System.endForces
        rw [hel e he]
      have hend : s.endForces d i = E.k *ᵥ elemVec d i + E.refOf refs := by
        unfold System.endForces
        rw [hk, href]
      rw [hn, hfe 0 hn0, hfe (E.n - 1) (by omega), hend]
      exact ⟨g3 c, g4 c⟩
    · intro kf' hkf' E' refs' hE' hr'
      cases hkf'
      rw [hE] at hE'
      cases hE'
      rw [hr] at hr'
      cases hr'
      rfl

/-- The conditions on the nodes of the beam in the words of the model of the solve. -/
theorem FBeam.constr_eq {b : FBeam} {inv : Inverter ℝ} {s : System ℝ} (h : b.system inv = .ok s)
    (p : ℕ) :
    (∀ v, s.constr p = some v ↔ b.presc.getD p none = some v ∨
      (b.presc.getD p none = none ∧ b.restraints.getD p 0 < 0 ∧ v = 0)) ∧
    (s.constr p = none ↔ b.presc.getD p none = none ∧ 0 ≤ b.restraints.getD p 0) := by
  obtain ⟨-, -, -, hr, hp, -⟩ := FBeam.system_ok h
  unfold System.constr
  rw [hr, hp]
  cases b.presc.getD p none with
  | some v => simp
  | none =>
    by_cases hc : b.restraints.getD p 0 < 0
    · simp only [hc, if_true]
      refine ⟨fun v => ?_, ?_⟩
      · simp [eq_comm]
      · simp
        exact hc
    · simp only [hc, if_false]
      simp
      exact not_lt.1 hc

/-- The whole mesh and the analysis have the same solutions. -/
theorem FBeam.meshSolution_iff (b : FBeam) (inv : Inverter ℝ) (hS : inv.Sound)
    {s : System ℝ} (h1 : b.system inv = .ok s) (ls : List (SpanLoad ℝ)) (hls : b.setLoads = .ok ls)
    {m : BeamMesh} (hm : b.HasMesh ls m)
    (hauto : ∀ i (hi : i < b.members.length) kf EI, b.kfAt i = some kf →
      b.members[i].EI = .const EI → autoSubdivisions b.members[i].L EI kf = .ok (m.n i))
    (d : ℕ → ℝ) (D : ℕ → ℕ → ℝ)
    (hends : ∀ i < b.members.length, ∀ c : Fin 2,
      D i c = d (2 * i + c) ∧ D i (2 * m.n i + c) = d (2 * i + 2 + c))
    (hinner : ∀ i < b.members.length, ∀ j, 0 < j → j < m.n i → ∀ c : Fin 2,
      m.force D i (j - 1) ⟨2 + c, by omega⟩ + m.force D i j ⟨c, by omega⟩ = 0) :
    b.MeshSolution m d D ↔ s.IsSolution d := by
  have hf : ∀ i < b.members.length, ∀ c : Fin 2,
      m.force D i 0 ⟨c, by omega⟩ = s.endForces d i ⟨c, by omega⟩ ∧
      m.force D i (m.n i - 1) ⟨2 + c, by omega⟩ = s.endForces d i ⟨2 + c, by omega⟩ := by
    intro i hi
    obtain ⟨Di, -, -, q, -⟩ := b.member_iff inv hS h1 ls hls hm hauto d i hi
    exact (q D (hends i hi) (hinner i hi)).2
  obtain ⟨hn, -, -, hr, -⟩ := FBeam.system_ok h1
  have hN : s.N = 2 * b.members.length + 2 := by rw [System.N, hn]
  have hnode : ∀ k ≤ b.members.length, ∀ c : Fin 2, s.constr (2 * k + c) = none →
      s.residual d (2 * k + c) =
      (if 0 < k then m.force D (k - 1) (m.n (k - 1) - 1) ⟨2 + c, by omega⟩ else 0)
      + (if k < b.members.length then m.force D k 0 ⟨c, by omega⟩ else 0)
      + b.restraints.getD (2 * k + c) 0 * d (2 * k + c) := by
    intro k hk c hc
    have hfree := ((FBeam.constr_eq h1 _).2.1 hc).2
    rw [s.residual_node d k (by omega) c]
    have hsp : s.spring (2 * k + c) = b.restraints.getD (2 * k + c) 0 := by
      simp only [System.spring, hr]
      rcases hfree.lt_or_eq with h4 | h4
      · rw [if_pos h4]
      · rw [← h4]; simp
    rw [hsp, hn]
    congr 2
    · split_ifs with h0
      · exact ((hf (k - 1) (by omega) c).2).symm
      · rfl
    · split_ifs with h0
      · exact ((hf k h0 c).1).symm
      · rfl
  constructor
  · intro h
    refine ⟨?_, ?_⟩
    · intro p hp v hv
      rcases ((FBeam.constr_eq h1 p).1 v).1 hv with h3 | ⟨h3, h4, rfl⟩
      · exact h.prescribed p (by omega) v h3
      · exact h.rigid p (by omega) h3 h4
    · intro p hp hc
      have e : p = 2 * (p / 2) + ((⟨p % 2, by omega⟩ : Fin 2) : ℕ) := by
        simp only
        omega
      have hc' := (FBeam.constr_eq h1 p).2.1 hc
      rw [e] at hc hc' ⊢
      rw [hnode (p / 2) (by omega) _ hc]
      exact h.free (p / 2) (by omega) _ hc'.1 hc'.2
  · intro h
    refine ⟨hends, hinner, ?_, ?_, ?_⟩
    · intro p hp v hv
      exact h.1 p (by omega) v (((FBeam.constr_eq h1 p).1 v).2 (Or.inl hv))
    · intro p hp h2 h3
      exact h.1 p (by omega) 0 (((FBeam.constr_eq h1 p).1 0).2 (Or.inr ⟨h2, h3, rfl⟩))
    · intro k hk c h2 h3
      have hc := (FBeam.constr_eq h1 (2 * k + c)).2.2 ⟨h2, h3⟩
      have := c.isLt
      rw [← hnode k hk c hc]
      exact h.2 _ (by omega) hc

/-- The mesh the code works with. -/
theorem FBeam.exists_mesh (b : FBeam) (inv : Inverter ℝ) (hS : inv.Sound)
    {s : System ℝ} (h1 : b.system inv = .ok s) (ls : List (SpanLoad ℝ)) (hls : b.setLoads = .ok ls) :
    ∃ m : BeamMesh, b.HasMesh ls m ∧ ∀ i (hi : i < b.members.length) kf EI, b.kfAt i = some kf →
      b.members[i].EI = .const EI → autoSubdivisions b.members[i].L EI kf = .ok (m.n i) := by
  have key : ∀ i, ∃ x : ℕ × Mat4 ℝ × (ℕ → Vec4 ℝ), ∀ hi : i < b.members.length,
      (b.kfAt i = none → x.1 = 1 ∧ b.members[i].spanK = .ok x.2.1 ∧
        ∃ c, b.members[i].refSum i ls = .ok c ∧ x.2.2 0 = c.vec) ∧
      ∀ kf, b.kfAt i = some kf → 0 < x.1 ∧ ∃ EI, b.members[i].EI = .const EI ∧
        autoSubdivisions b.members[i].L EI kf = .ok x.1 ∧
        x.2.1 = kEbeam EI (b.members[i].L / x.1) + mConsistent kf (b.members[i].L / x.1) ∧
        ∃ per, (⟨b.members[i].L, EI, kf, x.1⟩ : Found ℝ).subLoads (ownLoads i ls) = .ok per ∧
          ∀ e < x.1, pieceRef (b.members[i].L / x.1) (per e) = .ok (x.2.2 e) := by
    intro i
    by_cases hi : i < b.members.length
    · cases hkf : b.kfAt i with
      | none =>
        obtain ⟨hn, hk, ⟨ls', hl', hc⟩, -⟩ := FBeam.system_ok h1
        obtain rfl : ls' = ls := by rw [hls] at hl'; cases hl'; rfl
        have hki := hk i hi
        have hci := hc i hi
        rw [hkf] at hki hci
        simp only [spanKf] at hki
        simp only [spanRef] at hci
        refine ⟨(1, s.kb i, fun _ => s.ref i), fun _ => ⟨fun _ => ⟨rfl, hki, ?_⟩, fun _ h => by cases h⟩⟩
        split at hci
        · cases hci
        · rename_i c hc
          exact ⟨c, hc, (Except.ok.inj hci).symm⟩
      | some kf =>
        obtain ⟨E, refs, per, hE, hr, hn0, hb, hrl, hEI, hEL, hEk, hEn, hk, href, hper, hpr⟩ :=
          b.member_mesh inv h1 ls hls i hi kf hkf
        refine ⟨(E.n, kEbeam E.EI (b.members[i].L / E.n) + mConsistent kf (b.members[i].L / E.n),
          fun e => refs.getD e 0), fun _ => ⟨fun h => by (cases h), fun kf' h => ?_⟩⟩
        cases h
        refine ⟨hn0, E.EI, hEI, hEn, rfl, per, ?_, ?_⟩
        · rw [← hper, ← hEL, ← hEk]
        · intro e he
          have := hpr e he
          rwa [Found.h, hEL] at this
    · exact ⟨(0, 0, 0), fun h => absurd h hi⟩
  choose x hx using key
  refine ⟨⟨fun i => (x i).1, fun i => (x i).2.1, fun i => (x i).2.2⟩, ⟨?_, ?_⟩, ?_⟩
  · intro i hi h
    exact (hx i hi).1 h
  · intro i hi kf h
    obtain ⟨q1, EI, q2, -, q3, q4⟩ := (hx i hi).2 kf h
    exact ⟨q1, EI, q2, q3, q4⟩
  · intro i hi kf EI h hE
    obtain ⟨q1, EI', q2, q3, -⟩ := (hx i hi).2 kf h
    rw [hE] at q2
    cases q2
    exact q3

/-- **C111**, the analysis solves the whole mesh: in every completed analysis of a beam with
foundation members there is a division of the members (as fine as `auto_subdivisions` asks
for) such that the reported displacements, with the displacements recovered inside the
foundation members, solve the whole mesh exactly. -/
theorem C111_mesh_solution (b : FBeam) (inv : Inverter ℝ)
    (hS : inv.Sound) (stable : System ℝ → Bool) (solve : Solver ℝ) (hs : solve.Sound) (res : Result ℝ)
    (h : b.analyze inv stable solve = .ok res)
    (ls : List (SpanLoad ℝ)) (hls : b.setLoads = .ok ls) :
    ∃ (m : BeamMesh) (D : ℕ → ℕ → ℝ), b.HasMesh ls m ∧
      (∀ i (hi : i < b.members.length) kf EI, b.kfAt i = some kf →
        b.members[i].EI = .const EI → autoSubdivisions b.members[i].L EI kf = .ok (m.n i)) ∧
      b.MeshSolution m res.d D ∧
      ∀ i (hi : i < b.members.length) kf, b.kfAt i = some kf →
        ∃ E refs, spanFoundation inv b.members[i] kf = .ok E ∧ E.refs (ownLoads i ls) = .ok refs ∧
          D i = E.mesh refs (elemVec res.d i) := by
  obtain ⟨s, h1, h2⟩ := FBeam.analyze_ok h
  obtain ⟨hsol, -⟩ := System.analyze_ok hs h2
  obtain ⟨m, hm, hauto⟩ := b.exists_mesh inv hS h1 ls hls
  choose D' hD' using fun i => fun hi => b.member_iff inv hS h1 ls hls hm hauto res.d i hi
  set D : ℕ → ℕ → ℝ := fun i => if hi : i < b.members.length then D' i hi else fun _ => 0 with hDd
  have hDi : ∀ i (hi : i < b.members.length), D i = D' i hi := fun i hi => by
    simp only [hDd, hi, dif_pos]
  refine ⟨m, D, hm, hauto, ?_, ?_⟩
  · exact (b.meshSolution_iff inv hS h1 ls hls hm hauto res.d D
      (fun i hi => by rw [hDi i hi]; exact (hD' i hi).1)
      fun i hi => (hD' i hi).2.1 D (hDi i hi)).2 hsol
  · intro i hi kf hkf
    obtain ⟨E, refs, per, hE, hr, -⟩ := b.member_mesh inv h1 ls hls i hi kf hkf
    exact ⟨E, refs, hE, hr, by rw [hDi i hi]; exact (hD' i hi).2.2.2 kf hkf E refs hE hr⟩

/-- **C111**, there is no other solution: if the supports leave no mechanism, every solution of
the whole mesh has the reported displacements at the nodes of the beam and the recovered
displacements inside the foundation members. -/
theorem C111_unique (b : FBeam) (inv : Inverter ℝ)
    (hS : inv.Sound) (stable : System ℝ → Bool) (solve : Solver ℝ) (hs : solve.Sound) (res : Result ℝ)
    (h : b.analyze inv stable solve = .ok res) (hns : ∀ s, b.system inv = .ok s → s.Nonsingular)
    (ls : List (SpanLoad ℝ)) (hls : b.setLoads = .ok ls) (m : BeamMesh) (hm : b.HasMesh ls m)
    (hauto : ∀ i (hi : i < b.members.length) kf EI, b.kfAt i = some kf →
      b.members[i].EI = .const EI → autoSubdivisions b.members[i].L EI kf = .ok (m.n i))
    (d : ℕ → ℝ) (D : ℕ → ℕ → ℝ) (hd : b.MeshSolution m d D) :
    (∀ p < 2 * b.members.length + 2, d p = res.d p) ∧
    ∀ i (hi : i < b.members.length) kf, b.kfAt i = some kf →
      ∀ E refs, spanFoundation inv b.members[i] kf = .ok E → E.refs (ownLoads i ls) = .ok refs →
        ∀ p ≤ 2 * m.n i + 1, D i p = E.mesh refs (elemVec res.d i) p := by
  obtain ⟨s, h1, h2⟩ := FBeam.analyze_ok h
  obtain ⟨hsol, -⟩ := System.analyze_ok hs h2
  have hsd := (b.meshSolution_iff inv hS h1 ls hls hm hauto d D hd.ends hd.inner).1 hd
  have hn := (FBeam.system_ok h1).1
  have hu : ∀ p < 2 * b.members.length + 2, d p = res.d p := fun p hp =>
    hsd.unique (hns s h1) hsol p (by rw [System.N, hn]; exact hp)
  refine ⟨hu, ?_⟩
  intro i hi kf hkf E refs hE hr p hp
  obtain ⟨Di, -, -, q, q'⟩ := b.member_iff inv hS h1 ls hls hm hauto d i hi
  rw [(q D (hd.ends i hi) (hd.inner i hi)).1 p hp, q' kf hkf E refs hE hr]
  congr 1
  funext a
  exact hu _ (by have := a.isLt; omega)

end PyCBA
