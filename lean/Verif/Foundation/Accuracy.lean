import Verif.Foundation.RitzMember

/-!
C149: how far the analysis of a beam with foundation members is from the continuous beam on a
Winkler foundation.
-/

set_option linter.unusedSectionVars false
set_option linter.unusedSimpArgs false

namespace PyCBA

open Matrix Finset MeasureTheory

/-! ### Specification: the continuous beam -/

/-- Flexural rigidity of member `i`, if it is constant. -/
noncomputable def FBeam.eiAt (b : FBeam) (i : ℕ) : ℝ :=
  match (b.members.map Member.EI)[i]? with
  | some (.const e) => e
  | _ => 0

/-- Deflections and rotations `d` of the nodes with shapes `S` of the foundation members that
fit them. -/
def FBeam.Fits (b : FBeam) (d : ℕ → ℝ) (S : BeamShape) : Prop :=
  ∀ i < b.members.length, (b.kfAt i).isSome →
    SlopeOn (S.w i) (S.t i) 0 (b.spanL i) ∧ SlopeOn (S.t i) (S.c i) 0 (b.spanL i) ∧
    IntervalIntegrable (S.c i) volume 0 (b.spanL i) ∧
    IntervalIntegrable (fun x => S.c i x ^ 2) volume 0 (b.spanL i) ∧
    S.w i 0 = d (2 * i) ∧ S.t i 0 = d (2 * i + 1) ∧
    S.w i (b.spanL i) = d (2 * i + 2) ∧ S.t i (b.spanL i) = d (2 * i + 3)

/-- The component is held: prescribed or at a rigid support. -/
def FBeam.HeldAt (b : FBeam) (p : ℕ) : Prop :=
  (b.presc.getD p none).isSome ∨ b.restraints.getD p 0 < 0

/-- The work of the internal forces of member `i` in the state `d`, `S` less that of its loads
on a virtual displacement `u`, `V`.  On a foundation member the bending moments `EI c`, the
pressure of the foundation `k w` and the loads where they stand work on the shape; any other
member is represented by its stiffness `K` and the fixed-end forces `cn` of its loads (see C91
for these). -/
noncomputable def FBeam.memberVirtual (b : FBeam) (ls : List (SpanLoad ℝ)) (i : ℕ) (K : Mat4 ℝ)
    (cn : CNL ℝ) (d : ℕ → ℝ) (S : BeamShape) (u : ℕ → ℝ) (V : BeamShape) : ℝ :=
  match b.kfAt i with
  | none => elemVec u i ⬝ᵥ (K *ᵥ elemVec d i + cn.vec)
  | some k => b.eiAt i * (∫ x in (0 : ℝ)..b.spanL i, S.c i x * V.c i x)
      + k * (∫ x in (0 : ℝ)..b.spanL i, S.w i x * V.w i x)
      - ((ownLoads i ls).map fun l => l.work (b.spanL i) (V.w i) (V.t i)).sum

/-- A state of the continuous beam under the loads `ls`: the supports are where they are held,
and internal forces, springs and loads do no work together on any virtual displacement of the
rest. -/
structure FBeam.Winkler (b : FBeam) (ls : List (SpanLoad ℝ)) (K : ℕ → Mat4 ℝ) (cn : ℕ → CNL ℝ)
    (d : ℕ → ℝ) (S : BeamShape) : Prop where
  fits : b.Fits d S
  prescribed : ∀ p < 2 * b.members.length + 2, ∀ v, b.presc.getD p none = some v → d p = v
  rigid : ∀ p < 2 * b.members.length + 2, b.presc.getD p none = none → b.restraints.getD p 0 < 0 →
    d p = 0
  work : ∀ (u : ℕ → ℝ) (V : BeamShape), b.Fits u V →
    (∀ p < 2 * b.members.length + 2, b.HeldAt p → u p = 0) →
    ∑ i ∈ range b.members.length, b.memberVirtual ls i (K i) (cn i) d S u V
      + ∑ p ∈ range (2 * b.members.length + 2), max (b.restraints.getD p 0) 0 * u p * d p = 0

/-- Twice the energy of the difference between two states, in member `i`: of bending and of the
foundation between the shape and the line `f` on a foundation member, of the end displacements
on any other. -/
noncomputable def FBeam.memberError (b : FBeam) (i : ℕ) (K : Mat4 ℝ) (d : ℕ → ℝ) (S : BeamShape)
    (d' : ℕ → ℝ) (f : ℝ → ℝ) : ℝ :=
  match b.kfAt i with
  | none => energy K (elemVec (fun p => d p - d' p) i)
  | some k => b.eiAt i * (∫ x in (0 : ℝ)..b.spanL i, (S.c i x - deriv (deriv f) x) ^ 2)
      + k * (∫ x in (0 : ℝ)..b.spanL i, (S.w i x - f x) ^ 2)

/-! ### Proof -/

theorem FBeam.eiAt_eq (b : FBeam) {i : ℕ} (hi : i < b.members.length) {e : ℝ}
    (h : b.members[i].EI = .const e) : b.eiAt i = e := by
  simp only [FBeam.eiAt, List.getElem?_map, List.getElem?_eq_getElem hi, Option.map_some, h]

/-- What one member contributes to the distance. -/
theorem FBeam.member_distance (b : FBeam) (hgood : ∀ m ∈ b.members, m.Good) (inv : Inverter ℝ)
    (hS : inv.Sound) {s : System ℝ} (h1 : b.system inv = .ok s) (ls : List (SpanLoad ℝ))
    (hls : b.setLoads = .ok ls) (hpl : b.LoadsClear inv ls) (K : ℕ → Mat4 ℝ) (cn : ℕ → CNL ℝ)
    (hK : ∀ i (hi : i < b.members.length), b.kfAt i = none → b.members[i].spanK = .ok (K i))
    (hcn : ∀ i (hi : i < b.members.length), b.kfAt i = none → b.members[i].refSum i ls = .ok (cn i))
    (res : Result ℝ) (f : ℕ → ℝ → ℝ) (hf : ∀ i < b.members.length, b.IsLine inv ls res i (f i))
    (d : ℕ → ℝ) (S : BeamShape) (hd : b.Fits d S) (n : ℕ → ℕ)
    (hn : ∀ i < b.members.length, ∀ k, b.kfAt i = some k →
      autoSubdivisions (b.spanL i) (b.eiAt i) k = .ok (n i))
    (α β ε : ℕ → ℕ → ℝ)
    (hε : ∀ i < b.members.length, (b.kfAt i).isSome → ∀ e < n i,
      ∀ x ∈ Set.Icc (e * (b.spanL i / n i)) (e * (b.spanL i / n i) + b.spanL i / n i),
        |S.c i x - (α i e + β i e * x)| ≤ ε i e) (i : ℕ) (hi : i < b.members.length) :
    ∃ v t c : ℝ → ℝ, (∀ V : BeamShape, V.w i = v → V.t i = t → V.c i = c →
      ((b.kfAt i).isSome →
        SlopeOn (V.w i) (V.t i) 0 (b.spanL i) ∧ SlopeOn (V.t i) (V.c i) 0 (b.spanL i) ∧
        IntervalIntegrable (V.c i) volume 0 (b.spanL i) ∧
        IntervalIntegrable (fun x => V.c i x ^ 2) volume 0 (b.spanL i) ∧
        V.w i 0 = d (2 * i) - res.d (2 * i) ∧ V.t i 0 = d (2 * i + 1) - res.d (2 * i + 1) ∧
        V.w i (b.spanL i) = d (2 * i + 2) - res.d (2 * i + 2) ∧
        V.t i (b.spanL i) = d (2 * i + 3) - res.d (2 * i + 3)) ∧
      b.memberError i (K i) d S res.d (f i)
        ≤ (b.eiAt i + (b.kfAt i).getD 0 * (b.spanL i / n i) ^ 4)
            * (if (b.kfAt i).isSome then ∑ e ∈ range (n i), b.spanL i / n i * ε i e ^ 2 else 0)
          + 2 * (b.memberVirtual ls i (K i) (cn i) d S (fun p => d p - res.d p) V
            - elemVec (fun p => d p - res.d p) i ⬝ᵥ s.endForces res.d i)) := by
  have hLi := b.spanL_eq i hi
  have hm := hgood _ (List.getElem_mem hi)
  rcases hkf : b.kfAt i with _ | k
  · refine ⟨fun _ => 0, fun _ => 0, fun _ => 0, fun V _ _ _ => ⟨fun h => (by cases h), ?_⟩⟩
    obtain ⟨-, k1, ⟨l1, m1, f1⟩, -⟩ := FBeam.system_ok h1
    obtain rfl : l1 = ls := by rw [hls] at m1; exact (Except.ok.inj m1).symm
    have k1 := k1 i hi
    have f1 := f1 i hi
    rw [hkf] at k1 f1
    simp only [spanKf, hK i hi hkf] at k1
    simp only [spanRef, hcn i hi hkf] at f1
    have e1 : s.kb i = K i := (Except.ok.inj k1).symm
    have e2 : s.ref i = (cn i).vec := (Except.ok.inj f1).symm
    obtain ⟨k', q1, q2, -⟩ := C13_energy_nonneg _ hm
    obtain rfl : k' = K i := by rw [hK i hi hkf] at q1; exact (Except.ok.inj q1).symm
    have hnn := q2 (elemVec (fun p => d p - res.d p) i)
    have hsp : elemVec (fun p => d p - res.d p) i = elemVec d i - elemVec res.d i := by
      funext a; rfl
    simp only [FBeam.memberError, FBeam.memberVirtual, hkf, System.endForces, e1, e2,
      Option.isSome_none, Bool.false_eq_true, if_false, mul_zero, zero_add]
    have : elemVec (fun p => d p - res.d p) i ⬝ᵥ (K i *ᵥ elemVec d i + (cn i).vec)
        - elemVec (fun p => d p - res.d p) i ⬝ᵥ (K i *ᵥ elemVec res.d i + (cn i).vec)
        = energy (K i) (elemVec (fun p => d p - res.d p) i) := by
      rw [energy, hsp]
      simp only [dotProduct_add, mulVec_sub, dotProduct_sub]
      ring
    rw [this]
    linarith
  · obtain ⟨E, refs, per, hE, hr, hn0, hb, len, hEI, hEL, hEk, hau, kb, ref, hper, hpc⟩ :=
      b.member_mesh inv h1 ls hls i hi k hkf
    have hei := b.eiAt_eq hi hEI
    have hLE : b.spanL i = E.L := by rw [hLi, hEL]
    have hnE : n i = E.n := by
      have := hn i hi k hkf
      rw [hLi, hei, hau] at this
      exact (Except.ok.inj this).symm
    have hL : 0 < E.L := by rw [hEL]; exact hm.1
    have hh := E.h_pos hn0 hL
    obtain ⟨E', refs', x1, x2, x3⟩ := hf i hi hi k hkf
    obtain rfl : E' = E := by rw [hE] at x1; exact (Except.ok.inj x1).symm
    obtain rfl : refs' = refs := by rw [hr] at x2; exact (Except.ok.inj x2).symm
    set D := E'.mesh refs' (elemVec res.d i) with hD
    have hEpos : 0 < E'.EI := by
      have := hm.2.1
      rw [hEI] at this
      exact this
    have hkpos : 0 < E'.kf := by
      rw [hEk]
      unfold autoSubdivisions at hau
      split at hau
      · cases hau
      rename_i hk0
      split at hau
      · cases hau
      rename_i hk1
      by_contra hneg
      exact hk1 (div_neg_of_pos_of_neg (by linarith) (lt_of_le_of_ne (not_lt.1 hneg) hk0))
    obtain ⟨f1, f2, f3, f4, w0, t0, wL, tL⟩ := hd i hi (by rw [hkf]; rfl)
    rw [hLE] at f1 f2 f3 f4 wL tL
    set U : ℕ → ℝ := fun p => sampleAt E'.h (S.w i) (S.t i) p - D p with hU
    have hme := E'.toFound.member_error hn0 hL hEpos.le hkpos.le f1 f2 f3 f4 (α i) (β i) (ε i)
      (fun e he x hx => hε i hi (by rw [hkf]; rfl) e (by rw [hnE]; exact he) x
        (by rw [hLE, hnE]; exact hx)) D U (fun p => rfl)
    have m1 := (C64_mesh_equilibrium E'.toFound hn0 inv hS E' hb refs' len (elemVec res.d i)).1
    rw [← hD] at m1
    have hnh := E'.n_h hn0
    have z0 : U 0 = d (2 * i) - res.d (2 * i) := by
      have := m1 0
      simp only [Matrix.cons_val] at this
      simp only [hU, sampleAt]
      rw [this]
      simp [w0, elemVec]
    have z1 : U 1 = d (2 * i + 1) - res.d (2 * i + 1) := by
      have := m1 1
      simp only [Matrix.cons_val] at this
      simp only [hU, sampleAt]
      rw [this]
      simp [t0, elemVec]
    have z2 : U (2 * E'.n) = d (2 * i + 2) - res.d (2 * i + 2) := by
      have := m1 2
      simp only [Matrix.cons_val] at this
      simp only [hU, sampleAt]
      rw [this, if_pos (by omega), show 2 * E'.n / 2 = E'.n by omega, hnh, wL]
      simp [elemVec]
    have z3 : U (2 * E'.n + 1) = d (2 * i + 3) - res.d (2 * i + 3) := by
      have := m1 3
      simp only [Matrix.cons_val] at this
      simp only [hU, sampleAt]
      rw [this, if_neg (by omega), show (2 * E'.n + 1) / 2 = E'.n by omega, hnh, tL]
      simp [elemVec]
    have hends : ∀ a, U (![0, 1, 2 * E'.n, 2 * E'.n + 1] a) = elemVec (fun p => d p - res.d p) i a := by
      intro a
      fin_cases a <;> simp [z0, z1, z2, z3, elemVec]
    have hw := FoundEl.ends_work E'.toFound hn0 inv hS E' hb refs' len (elemVec res.d i) _ U hends
    have hown : ∀ l ∈ ownLoads i ls, l.OnSpan E'.L ∧ E'.Clear l := by
      intro l hl
      obtain ⟨l', hl1, rfl⟩ := List.mem_map.1 hl
      obtain ⟨hl2, hl3⟩ := List.mem_filter.1 hl1
      have hli : l'.iSpan = (i : ℤ) := by simpa using hl3
      obtain ⟨_, _, _, h4⟩ := hpl l' hl2
      rw [hli, Int.toNat_natCast] at h4
      obtain ⟨h5, h6⟩ := h4 k hkf
      exact ⟨hLE ▸ h5, h6 hi E' hE⟩
    obtain ⟨sm, wk⟩ := E'.subLoads_work hn0 hL _ (fun l hl => (hown l hl).1)
      (fun l hl => (hown l hl).2) per hper U (E'.lineT U)
    have on1 := (C64_loads_partial E'.toFound hn0 hL _ (fun l hl => (hown l hl).1)
      (fun l hl => (hown l hl).2) per hper).1
    obtain ⟨sl1, sl2⟩ := E'.toFound.line_slopes hn0 hL U
    refine ⟨E'.line U, E'.lineT U, E'.lineK U, fun V v1 v2 v3 => ⟨fun _ => ?_, ?_⟩⟩
    · rw [v1, v2, v3, hLE]
      have ci : ∀ g : ℝ → ℝ, Continuous g → IntervalIntegrable (fun x => g (E'.lineK U x)) volume 0 E'.L :=
        fun g hg => (integral_pieces hn0 hL (g := fun e x => g (cubK E'.h (elemVec U e) (x - e * E'.h)))
          (fun e _ => (hg.comp (cubK_cont E'.h (elemVec U e) (e * E'.h))).intervalIntegrable _ _)
          (fun e he x hx => by rw [(E'.line_inside hn0 hL U he hx.1.le hx.2).2.2])).1
      refine ⟨sl1, sl2, ci _ continuous_id, ci _ (continuous_pow 2), ?_, ?_, ?_, ?_⟩
      · rw [(E'.line_ends hn0 hL U).1, z0]
      · have := (E'.line_inside hn0 hL U (e := 0) hn0 (x := 0) (by simp) (by simpa using hh)).2.1
        rw [this]
        simp only [Nat.cast_zero, zero_mul, sub_zero]
        rw [(cub_start _ _).2]
        exact z1
      · rw [(E'.line_ends hn0 hL U).2, z2]
      · have := (mesh_at (n := E'.n) (L := fun _ => E'.L) (d := U) (i := 0) hh E'.n).2
        simp only [zero_mul, zero_add] at this
        have e : (E'.n : ℝ) * (E'.L / E'.n) = E'.L := hnh
        rw [e] at this
        rw [Found.lineT, this, z3]
    · have hEF : s.endForces res.d i = E'.k *ᵥ elemVec res.d i + E'.refOf refs' := by
        rw [System.endForces, kb, ref]
      rw [hEF, hw, ← hD]
      simp only [FBeam.memberError, FBeam.memberVirtual, hkf, hLE, hei, v1, v2, v3, x3, hnE,
        Option.isSome_some, if_true, Option.getD_some, ← hEk]
      have hsplit : ∑ e ∈ range E'.n, elemVec U e ⬝ᵥ (E'.sys refs').endForces D e
          = (∑ e ∈ range E'.n, elemVec U e ⬝ᵥ
              ((kEbeam E'.EI E'.h + mConsistent E'.kf E'.h) *ᵥ elemVec D e))
            - ((ownLoads i ls).map fun l => l.work E'.L (E'.line U) (E'.lineT U)).sum := by
        rw [← wk, ← Finset.sum_sub_distrib]
        refine Finset.sum_congr rfl fun e he => ?_
        have he' := Finset.mem_range.1 he
        have p1 := pieceRef_work hh _ (sm e) (on1 e he') _ (hpc e he') (elemVec U e) (E'.lineT U)
        simp only [System.endForces, Found.sys, dotProduct_add]
        rw [p1]
        ring
      rw [hsplit]
      have hhe : E'.L / E'.n = E'.h := rfl
      rw [hhe]
      linarith

/-- **C149**: how near the analysis of a beam with foundation members is to the continuous beam
on its Winkler foundation, in the energy of the difference.  In every completed analysis the
difference between the reported displacements, with the deflection recovered along the
foundation members, and any solution of the continuous beam has at most the energy that remains
when the exact curvature is approximated by a straight line in every piece: with an error of at
most `ε` in a piece of length `h` that is `(EI + k h⁴) h ε²`. -/
theorem C149_energy (b : FBeam) (hgood : ∀ m ∈ b.members, m.Good) (inv : Inverter ℝ)
    (hS : inv.Sound) (stable : System ℝ → Bool) (solve : Solver ℝ) (hs : solve.Sound) (res : Result ℝ)
    (h : b.analyze inv stable solve = .ok res) (ls : List (SpanLoad ℝ)) (hls : b.setLoads = .ok ls)
    (hpl : b.LoadsClear inv ls) (K : ℕ → Mat4 ℝ) (cn : ℕ → CNL ℝ)
    (hK : ∀ i (hi : i < b.members.length), b.kfAt i = none → b.members[i].spanK = .ok (K i))
    (hcn : ∀ i (hi : i < b.members.length), b.kfAt i = none → b.members[i].refSum i ls = .ok (cn i))
    (f : ℕ → ℝ → ℝ) (hf : ∀ i < b.members.length, b.IsLine inv ls res i (f i))
    (d : ℕ → ℝ) (S : BeamShape) (hd : b.Winkler ls K cn d S) (n : ℕ → ℕ)
    (hn : ∀ i < b.members.length, ∀ k, b.kfAt i = some k →
      autoSubdivisions (b.spanL i) (b.eiAt i) k = .ok (n i))
    (α β ε : ℕ → ℕ → ℝ)
    (hε : ∀ i < b.members.length, (b.kfAt i).isSome → ∀ e < n i,
      ∀ x ∈ Set.Icc (e * (b.spanL i / n i)) (e * (b.spanL i / n i) + b.spanL i / n i),
        |S.c i x - (α i e + β i e * x)| ≤ ε i e) :
    ∑ i ∈ range b.members.length, b.memberError i (K i) d S res.d (f i)
        + ∑ p ∈ range (2 * b.members.length + 2), max (b.restraints.getD p 0) 0 * (d p - res.d p) ^ 2
      ≤ ∑ i ∈ range b.members.length, if (b.kfAt i).isSome then
          (b.eiAt i + (b.kfAt i).getD 0 * (b.spanL i / n i) ^ 4)
            * ∑ e ∈ range (n i), b.spanL i / n i * ε i e ^ 2
        else 0 := by
  obtain ⟨s, h1, h2⟩ := FBeam.analyze_ok h
  obtain ⟨⟨i1, i2⟩, -⟩ := System.analyze_ok hs h2
  obtain ⟨hsn, -, -, hr, hp, -⟩ := FBeam.system_ok h1
  have hN : s.N = 2 * b.members.length + 2 := by rw [System.N, hsn]
  have hdist := b.member_distance hgood inv hS h1 ls hls hpl K cn hK hcn res f hf d S hd.fits n hn α β ε hε
  choose v t c hvtc using fun i => (if hi : i < b.members.length then
    ⟨_, _, _, fun _ => (hdist i hi).choose_spec.choose_spec.choose_spec⟩
    else ⟨fun _ => 0, fun _ => 0, fun _ => 0, fun hi' => absurd hi' hi⟩ :
    ∃ v t c : ℝ → ℝ, i < b.members.length → ∀ V : BeamShape, V.w i = v → V.t i = t → V.c i = c →
      ((b.kfAt i).isSome →
        SlopeOn (V.w i) (V.t i) 0 (b.spanL i) ∧ SlopeOn (V.t i) (V.c i) 0 (b.spanL i) ∧
        IntervalIntegrable (V.c i) volume 0 (b.spanL i) ∧
        IntervalIntegrable (fun x => V.c i x ^ 2) volume 0 (b.spanL i) ∧
        V.w i 0 = d (2 * i) - res.d (2 * i) ∧ V.t i 0 = d (2 * i + 1) - res.d (2 * i + 1) ∧
        V.w i (b.spanL i) = d (2 * i + 2) - res.d (2 * i + 2) ∧
        V.t i (b.spanL i) = d (2 * i + 3) - res.d (2 * i + 3)) ∧
      b.memberError i (K i) d S res.d (f i)
        ≤ (b.eiAt i + (b.kfAt i).getD 0 * (b.spanL i / n i) ^ 4)
            * (if (b.kfAt i).isSome then ∑ e ∈ range (n i), b.spanL i / n i * ε i e ^ 2 else 0)
          + 2 * (b.memberVirtual ls i (K i) (cn i) d S (fun p => d p - res.d p) V
            - elemVec (fun p => d p - res.d p) i ⬝ᵥ s.endForces res.d i))
  set V : BeamShape := ⟨v, t, c⟩ with hV
  set u : ℕ → ℝ := fun p => d p - res.d p with hu
  have hall := fun i hi => hvtc i hi V rfl rfl rfl
  have hconstr : ∀ p < 2 * b.members.length + 2, b.HeldAt p → u p = 0 := by
    intro p hpN hh
    rcases hq : b.presc.getD p none with _ | x
    · have hneg : b.restraints.getD p 0 < 0 := by
        rcases hh with hh | hh
        · rw [hq] at hh; cases hh
        · exact hh
      have e1 := hd.rigid p hpN hq hneg
      have e2 := i1 p (by omega) 0 (by simp only [System.constr, hp, hr, hq]; rw [if_pos hneg])
      simp only [hu, e1, e2, sub_zero]
    · have e1 := hd.prescribed p hpN x hq
      have e2 := i1 p (by omega) x (by simp only [System.constr, hp, hq])
      simp only [hu, e1, e2, sub_self]
  have hex := hd.work u V (fun i hi hki => (hall i hi).1 hki) hconstr
  have hfe := s.ends_balance res.d u (fun p hpN => by
    by_cases hh : b.HeldAt p
    · exact Or.inl (hconstr p (by omega) hh)
    · right
      apply i2 p hpN
      simp only [FBeam.HeldAt, not_or, Option.not_isSome_iff_eq_none] at hh
      simp only [System.constr, hp, hr, hh.1]
      rw [if_neg hh.2])
  rw [hN, hsn] at hfe
  have hspr : ∀ p, s.spring p = max (b.restraints.getD p 0) 0 := by
    intro p
    simp only [System.spring, hr]
    split
    · rename_i hpos; rw [max_eq_left hpos.le]
    · rename_i hpos; rw [max_eq_right (not_lt.1 hpos)]
  simp only [hspr] at hfe
  have hsum := Finset.sum_le_sum fun i hi => (hall i (Finset.mem_range.1 hi)).2
  simp only [Finset.sum_add_distrib, ← Finset.mul_sum, Finset.sum_sub_distrib] at hsum
  have hsp : ∑ p ∈ range (2 * b.members.length + 2), max (b.restraints.getD p 0) 0 * (d p - res.d p) ^ 2
      = ∑ p ∈ range (2 * b.members.length + 2), max (b.restraints.getD p 0) 0 * u p * d p
        - ∑ p ∈ range (2 * b.members.length + 2), max (b.restraints.getD p 0) 0 * u p * res.d p := by
    rw [← Finset.sum_sub_distrib]
    refine Finset.sum_congr rfl fun p _ => ?_
    simp only [hu]
    ring
  have hsn' : 0 ≤ ∑ p ∈ range (2 * b.members.length + 2), max (b.restraints.getD p 0) 0 * (d p - res.d p) ^ 2 :=
    Finset.sum_nonneg fun p _ => mul_nonneg (le_max_right _ _) (sq_nonneg _)
  have hrhs : ∑ i ∈ range b.members.length, ((b.eiAt i + (b.kfAt i).getD 0 * (b.spanL i / n i) ^ 4)
            * (if (b.kfAt i).isSome then ∑ e ∈ range (n i), b.spanL i / n i * ε i e ^ 2 else 0))
      = ∑ i ∈ range b.members.length, if (b.kfAt i).isSome then
          (b.eiAt i + (b.kfAt i).getD 0 * (b.spanL i / n i) ^ 4)
            * ∑ e ∈ range (n i), b.spanL i / n i * ε i e ^ 2
        else 0 := Finset.sum_congr rfl fun i _ => by
    by_cases hk : (b.kfAt i).isSome
    · rw [if_pos hk, if_pos hk]
    · rw [if_neg hk, if_neg hk, mul_zero]
  rw [← hrhs]
  simp only [Finset.mul_sum] at hsum ⊢
  linarith

end PyCBA
