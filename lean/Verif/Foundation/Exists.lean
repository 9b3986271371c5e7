import Verif.Foundation.Krylov
import Verif.Foundation.Pointwise

/-!
C149: the continuous beam on its foundation has exactly one state.
-/

set_option linter.unusedSectionVars false
set_option linter.unusedSimpArgs false

namespace PyCBA

open Matrix Finset MeasureTheory

/-- A foundation member of an analysed beam. -/
theorem FBeam.found_pos (b : FBeam) (hgood : ∀ m ∈ b.members, m.Good) (inv : Inverter ℝ)
    {s : System ℝ} (h1 : b.system inv = .ok s) (ls : List (SpanLoad ℝ)) (hls : b.setLoads = .ok ls)
    (i : ℕ) (hi : i < b.members.length) (k : ℝ) (hkf : b.kfAt i = some k) :
    0 < b.eiAt i ∧ 0 < k ∧ 0 < b.spanL i := by
  obtain ⟨E, refs, per, hE, hr, hn0, hb, len, hEI, hEL, hEk, hau, -⟩ :=
    b.member_mesh inv h1 ls hls i hi k hkf
  have hm := hgood _ (List.getElem_mem hi)
  have hEpos : 0 < E.EI := by
    have := hm.2.1
    rw [hEI] at this
    exact this
  refine ⟨by rw [b.eiAt_eq hi hEI]; exact hEpos, ?_, by rw [b.spanL_eq i hi]; exact hm.1⟩
  unfold autoSubdivisions at hau
  split at hau
  · cases hau
  rename_i hk0
  split at hau
  · cases hau
  rename_i hk1
  by_contra hneg
  exact hk1 (div_neg_of_pos_of_neg (by linarith) (lt_of_le_of_ne (not_lt.1 hneg) hk0))

theorem Found.subLoads_onFound {F : Found ℝ} {ls : List (Load ℝ)} {p : ℕ → List (Load ℝ)}
    (h : F.subLoads ls = .ok p) : ∀ l ∈ ls, l.OnFound := by
  induction ls generalizing p with
  | nil => simp
  | cons l ls ih =>
    simp only [Found.subLoads] at h
    split at h
    · cases h
    · rename_i p1 hp1
      split at h
      · cases h
      · rename_i p2 hp2
        intro k hk
        rcases List.mem_cons.1 hk with rfl | hk
        · cases k <;> trivial
        · exact ih hp2 k hk

/-- The loads of a foundation member. -/
theorem FBeam.found_own (b : FBeam) (inv : Inverter ℝ) {s : System ℝ} (h1 : b.system inv = .ok s)
    (ls : List (SpanLoad ℝ)) (hls : b.setLoads = .ok ls) (hpl : b.LoadsClear inv ls)
    (i : ℕ) (hi : i < b.members.length) (k : ℝ) (hkf : b.kfAt i = some k) :
    ∀ l ∈ ownLoads i ls, l.OnFound ∧ l.OnSpan (b.spanL i) := by
  obtain ⟨E, refs, per, -, -, -, -, -, -, -, -, -, -, -, hper, -⟩ :=
    b.member_mesh inv h1 ls hls i hi k hkf
  intro l hl
  refine ⟨Found.subLoads_onFound hper l hl, ?_⟩
  obtain ⟨l', hl1, rfl⟩ := List.mem_map.1 hl
  obtain ⟨hl2, hl3⟩ := List.mem_filter.1 hl1
  have hli : l'.iSpan = (i : ℤ) := by simpa using hl3
  obtain ⟨_, _, _, h4⟩ := hpl l' hl2
  rw [hli, Int.toNat_natCast] at h4
  exact (h4 k hkf).1

theorem FBeam.found_stiffness (b : FBeam) (inv : Inverter ℝ) (hS : inv.Sound)
    (hgood : ∀ m ∈ b.members, m.Good) {s : System ℝ} (h1 : b.system inv = .ok s) (i : ℕ)
    (hi : i < b.members.length) (k : ℝ) (hk : b.kfAt i = some k) (h0 : 0 < k) :
    (s.kb i)ᵀ = s.kb i ∧ (∀ d, 0 ≤ energy (s.kb i) d) := by
  obtain ⟨-, hkb, -⟩ := FBeam.system_ok h1
  have hki := hkb i hi
  rw [hk] at hki
  simp only [spanKf] at hki
  split at hki
  · cases hki
  rename_i E hE
  obtain ⟨hn0, hb⟩ := spanFoundation_ok hE
  obtain ⟨-, -, hEI, hEL, hEk, -⟩ := C64_scope inv _ k E hE
  have hg := hgood _ (List.getElem_mem hi)
  rw [← Except.ok.inj hki]
  have := C64_stiffness E.toFound hn0 (by rw [hEL]; exact hg.1) (by
    have := hg.2.1
    rw [hEI] at this
    exact this) (by rw [hEk]; exact h0) inv hS E hb
  exact ⟨this.1, this.2.1⟩

/-- A displacement of a held beam that strains nothing is none. -/
theorem FBeam.zero_state (b : FBeam) (inv : Inverter ℝ) (hS : inv.Sound)
    (hgood : ∀ m ∈ b.members, m.Good) {s : System ℝ} (h1 : b.system inv = .ok s)
    (hns : s.Nonsingular) (hpos : ∀ i < b.members.length, ∀ k, b.kfAt i = some k → 0 < k) (x : ℕ → ℝ)
    (hm : ∀ i < b.members.length, energy (s.kb i) (elemVec x i) = 0)
    (hsp : ∀ p < s.N, s.spring p * x p ^ 2 = 0) (hh : ∀ p < s.N, (s.constr p).isSome → x p = 0) :
    ∀ p < s.N, x p = 0 := by
  obtain ⟨hn, hkb, -⟩ := FBeam.system_ok h1
  have key : ∀ i < s.n, (s.kb i)ᵀ = s.kb i ∧ ∀ d, 0 ≤ energy (s.kb i) d := by
    intro i hi
    rw [hn] at hi
    cases hk : b.kfAt i with
    | some k => exact b.found_stiffness inv hS hgood h1 i hi k hk (hpos i hi k hk)
    | none =>
      have hki := hkb i hi
      rw [hk, show spanKf inv b.members[i] none = b.members[i].spanK from rfl] at hki
      obtain ⟨k, q1, q2, _⟩ := C13_energy_nonneg _ (hgood _ (List.getElem_mem hi))
      obtain rfl : k = s.kb i := by rw [q1] at hki; exact Except.ok.inj hki
      refine ⟨?_, q2⟩
      ext a c
      exact C11_stiffness_symmetric _ _ hki c a
  refine hns x hh fun p hp _ => s.zero_energy (fun i hi => (key i hi).1) (fun i hi => (key i hi).2) x ?_ p hp
  rw [System.totalEnergy, Finset.sum_eq_zero fun i hi => hm i (by rw [← hn]; exact Finset.mem_range.1 hi),
    Finset.sum_eq_zero fun p hp => hsp p (Finset.mem_range.1 hp), add_zero]

/-- A shape without strain. -/
theorem shape_zero_of {EI k L : ℝ} (hE : 0 < EI) (hk : 0 < k) (hL : 0 < L) {w t c : ℝ → ℝ}
    (sw : SlopeOn w t 0 L) (st : SlopeOn t c 0 L) (ic : IntervalIntegrable c volume 0 L)
    (ic2 : IntervalIntegrable (fun x => c x ^ 2) volume 0 L)
    (h : EI * (∫ x in (0 : ℝ)..L, c x ^ 2) + k * (∫ x in (0 : ℝ)..L, w x ^ 2) = 0) :
    ∀ x ∈ Set.Icc 0 L, w x = 0 ∧ t x = 0 := by
  have pos : ∀ f : ℝ → ℝ, 0 ≤ ∫ x in (0 : ℝ)..L, f x ^ 2 := fun f =>
    intervalIntegral.integral_nonneg hL.le fun x _ => sq_nonneg _
  have hc2 : ∫ x in (0 : ℝ)..L, c x ^ 2 = 0 := by
    have := mul_nonneg hE.le (pos c)
    have := mul_nonneg hk.le (pos w)
    exact (mul_eq_zero.1 (by linarith : EI * (∫ x in (0 : ℝ)..L, c x ^ 2) = 0)).resolve_left hE.ne'
  have hw2 : ∫ x in (0 : ℝ)..L, w x ^ 2 = 0 := by
    rw [hc2, mul_zero, zero_add] at h
    exact (mul_eq_zero.1 h).resolve_left hk.ne'
  have hw : ∀ x ∈ Set.Icc 0 L, w x = 0 := by
    intro x hx
    have := sup_bound hL sw st ic ic2 hx
    rw [hc2, hw2, mul_zero, mul_zero, add_zero] at this
    exact pow_eq_zero_iff (two_ne_zero) |>.1 (le_antisymm this (sq_nonneg _))
  have ht : Set.EqOn t (fun _ => 0) (Set.Ioo 0 L) := by
    intro x hx
    have d1 := sw.deriv x hx
    have d2 : HasDerivWithinAt w 0 (Set.Ioi x) x := by
      refine (hasDerivWithinAt_const x (Set.Ioi x) (0 : ℝ)).congr_of_eventuallyEq ?_ (hw x ⟨hx.1.le, hx.2.le⟩)
      filter_upwards [Ioo_mem_nhdsGT hx.2] with y hy
      exact hw y ⟨hx.1.le.trans hy.1.le, hy.2.le⟩
    exact (uniqueDiffWithinAt_Ioi x).eq_deriv _ d1 d2
  have ht' := ht.of_subset_closure st.cont continuousOn_const Set.Ioo_subset_Icc_self
    (by rw [closure_Ioo hL.ne])
  exact fun x hx => ⟨hw x hx, ht' hx⟩

/-- **C149**: the state the analysis is compared with exists and is the only one.  If the beam
is held (its system of equations is not singular), the continuous beam on its Winkler foundation
has a state under the loads; any two agree in the displacements of the nodes and in the
deflection and rotation along the foundation members. -/
theorem C149_exists (b : FBeam) (hgood : ∀ m ∈ b.members, m.Good) (inv : Inverter ℝ)
    (hS : inv.Sound) (s : System ℝ) (h1 : b.system inv = .ok s) (hns : s.Nonsingular)
    (ls : List (SpanLoad ℝ)) (hls : b.setLoads = .ok ls)
    (hpl : b.LoadsClear inv ls) (K : ℕ → Mat4 ℝ) (cn : ℕ → CNL ℝ)
    (hK : ∀ i (hi : i < b.members.length), b.kfAt i = none → b.members[i].spanK = .ok (K i))
    (hcn : ∀ i (hi : i < b.members.length), b.kfAt i = none → b.members[i].refSum i ls = .ok (cn i)) :
    ∃ d S, b.Winkler ls K cn d S ∧ ∀ d' S', b.Winkler ls K cn d' S' →
      (∀ p < 2 * b.members.length + 2, d' p = d p) ∧
      ∀ i < b.members.length, (b.kfAt i).isSome → ∀ x ∈ Set.Icc 0 (b.spanL i),
        S'.w i x = S.w i x ∧ S'.t i x = S.t i x := by
  have hfp := b.found_pos hgood inv h1 ls hls
  have hpos : ∀ i < b.members.length, ∀ k, b.kfAt i = some k → 0 < k := fun i hi k hk => (hfp i hi k hk).2.1
  obtain ⟨hsn, hkb, ⟨l1, m1, f1⟩, hr, hp, -⟩ := FBeam.system_ok h1
  obtain rfl : l1 = ls := by rw [hls] at m1; exact (Except.ok.inj m1).symm
  have hN : s.N = 2 * b.members.length + 2 := by rw [System.N, hsn]
  have hconstr : ∀ p, (s.constr p).isSome ↔ b.HeldAt p := by
    intro p
    simp only [System.constr, hp, hr, FBeam.HeldAt]
    rcases b.presc.getD p none with _ | v
    · by_cases h : b.restraints.getD p 0 < 0 <;> simp [h]
    · simp
  have hspr : ∀ p, s.spring p = max (b.restraints.getD p 0) 0 := by
    intro p
    simp only [System.spring, hr]
    split
    · rename_i hpos; rw [max_eq_left hpos.le]
    · rename_i hpos; rw [max_eq_right (not_lt.1 hpos)]
  have hnone : ∀ i < b.members.length, b.kfAt i = none → s.kb i = K i ∧ s.ref i = (cn i).vec ∧
      ∀ d, 0 ≤ energy (K i) d := by
    intro i hi hk
    have k1 := hkb i hi
    have f1 := f1 i hi
    rw [hk] at k1 f1
    simp only [spanKf, hK i hi hk] at k1
    simp only [spanRef, hcn i hi hk] at f1
    obtain ⟨k', q1, q2, -⟩ := C13_energy_nonneg _ (hgood _ (List.getElem_mem hi))
    obtain rfl : k' = K i := by rw [hK i hi hk] at q1; exact (Except.ok.inj q1).symm
    exact ⟨(Except.ok.inj k1).symm, (Except.ok.inj f1).symm, q2⟩
  choose KX RX e1 e2 e3 using fun i => (if h : i < b.members.length ∧ (b.kfAt i).isSome then by
      obtain ⟨hi, hk⟩ := h
      obtain ⟨k, hk⟩ := Option.isSome_iff_exists.1 hk
      obtain ⟨p1, p2, p3⟩ := hfp i hi k hk
      obtain ⟨KX, RX, x1, x2, x3⟩ := exact_member p1 p2 p3 (ownLoads i l1)
        (b.found_own inv h1 l1 hls hpl i hi k hk)
      exact ⟨KX, RX, x1, fun _ => x2, fun _ d => by rw [hk]; exact x3 d⟩
    else ⟨0, 0, fun d => by simp [energy], fun h' => absurd h' h, fun h' => absurd h' h⟩ :
    ∃ (KX : Mat4 ℝ) (RX : Vec4 ℝ), (∀ d, 0 ≤ energy KX d) ∧
      (i < b.members.length ∧ (b.kfAt i).isSome → ∀ d, energy KX d = 0 → d = 0) ∧
      (i < b.members.length ∧ (b.kfAt i).isSome → ∀ d : Vec4 ℝ, ∃ w t c, endsOf (b.spanL i) w t = d ∧
        FResp (b.eiAt i) ((b.kfAt i).getD 0) (b.spanL i)
          (fun v θ => ((ownLoads i l1).map fun l => l.work (b.spanL i) v θ).sum) w t c (KX *ᵥ d + RX)))
  set sX : System ℝ := { s with
    kb := fun i => if (b.kfAt i).isSome then KX i else s.kb i
    ref := fun i => if (b.kfAt i).isSome then RX i else s.ref i } with hsX
  have hXpos : ∀ i < sX.n, ∀ d, 0 ≤ energy (sX.kb i) d := by
    intro i hi d
    have hi' : i < b.members.length := by rw [← hsn]; exact hi
    simp only [hsX]
    by_cases hk : (b.kfAt i).isSome
    · rw [if_pos hk]; exact e1 i d
    · rw [if_neg hk]
      obtain ⟨q1, -, q3⟩ := hnone i hi' (Option.not_isSome_iff_eq_none.1 hk)
      rw [q1]; exact q3 d
  have hXns : sX.Nonsingular := by
    intro x hx hfree
    have hE : sX.totalEnergy x = 0 := by
      rw [sX.totalEnergy_eq]
      refine Finset.sum_eq_zero fun p hp => ?_
      rcases hc : sX.constr p with _ | v
      · rw [hfree p (Finset.mem_range.1 hp) hc, mul_zero]
      · rw [hx p (Finset.mem_range.1 hp) (by rw [hc]; rfl), zero_mul]
    have hA : ∀ i ∈ range sX.n, 0 ≤ energy (sX.kb i) (elemVec x i) :=
      fun i hi => hXpos i (Finset.mem_range.1 hi) _
    have hB : ∀ p ∈ range sX.N, 0 ≤ sX.spring p * x p ^ 2 := fun p _ =>
      mul_nonneg (by rw [show sX.spring p = s.spring p from rfl, hspr]; exact le_max_right _ _) (sq_nonneg _)
    have hA0 := Finset.sum_nonneg hA
    have hB0 := Finset.sum_nonneg hB
    rw [System.totalEnergy] at hE
    have hA1 := (Finset.sum_eq_zero_iff_of_nonneg hA).1 (by linarith)
    have hB1 := (Finset.sum_eq_zero_iff_of_nonneg hB).1 (by linarith)
    refine b.zero_state inv hS hgood h1 hns hpos x (fun i hi => ?_)
      (fun p hp => hB1 p (Finset.mem_range.2 hp)) hx
    have hi0 := hA1 i (Finset.mem_range.2 (by rw [← hsn] at hi; exact hi))
    simp only [hsX] at hi0
    by_cases hk : (b.kfAt i).isSome
    · rw [if_pos hk] at hi0
      rw [e2 i ⟨hi, hk⟩ _ hi0, energy, zero_dotProduct]
    · rw [if_neg hk] at hi0
      exact hi0
  obtain ⟨d, hd1, hd2⟩ := System.exists_solution hXns
  choose w t c hends hresp using fun i => (if h : i < b.members.length ∧ (b.kfAt i).isSome then by
      obtain ⟨w, t, c, x1, x2⟩ := e3 i h (elemVec d i)
      exact ⟨w, t, c, fun _ => x1, fun _ => x2⟩
    else ⟨0, 0, 0, fun h' => absurd h' h, fun h' => absurd h' h⟩ :
    ∃ w t c : ℝ → ℝ, (i < b.members.length ∧ (b.kfAt i).isSome → endsOf (b.spanL i) w t = elemVec d i) ∧
      (i < b.members.length ∧ (b.kfAt i).isSome →
        FResp (b.eiAt i) ((b.kfAt i).getD 0) (b.spanL i)
          (fun v θ => ((ownLoads i l1).map fun l => l.work (b.spanL i) v θ).sum) w t c
          (KX i *ᵥ elemVec d i + RX i)))
  have hW : b.Winkler l1 K cn d ⟨w, t, c⟩ := by
    refine ⟨fun i hi hk => ?_, fun p hpN v hv => ?_, fun p hpN hv hneg => ?_, fun u V hV hu => ?_⟩
    · have x1 := hends i ⟨hi, hk⟩
      have x2 := hresp i ⟨hi, hk⟩
      refine ⟨x2.sw, x2.st, x2.cc.intervalIntegrable _ _, (x2.cc.pow 2).intervalIntegrable _ _, ?_, ?_, ?_, ?_⟩
      · simpa [endsOf, elemVec] using congrFun x1 0
      · simpa [endsOf, elemVec] using congrFun x1 1
      · simpa [endsOf, elemVec] using congrFun x1 2
      · simpa [endsOf, elemVec] using congrFun x1 3
    · exact hd1 p (by rw [show sX.N = s.N from rfl, hN]; exact hpN) v
        (by simp only [System.constr, hsX, hp, hv])
    · exact hd1 p (by rw [show sX.N = s.N from rfl, hN]; exact hpN) 0
        (by simp only [System.constr, hsX, hp, hr, hv]; rw [if_pos hneg])
    · have hfe := sX.ends_balance d u (fun p hpN => by
        by_cases hh : b.HeldAt p
        · exact Or.inl (hu p (by rw [← hN]; exact hpN) hh)
        · right
          apply hd2 p hpN
          have := mt (hconstr p).1 hh
          exact Option.not_isSome_iff_eq_none.1 this)
      rw [show sX.N = s.N from rfl, show sX.n = s.n from rfl, hN, hsn] at hfe
      refine Eq.trans ?_ hfe
      congr 1
      · refine Finset.sum_congr rfl fun i hi => ?_
        have hi := Finset.mem_range.1 hi
        rcases hk : b.kfAt i with _ | k
        · obtain ⟨q1, q2, -⟩ := hnone i hi hk
          simp only [FBeam.memberVirtual, hk, System.endForces, hsX, Option.isSome_none,
            Bool.false_eq_true, if_false, q1, q2]
        · have hks : (b.kfAt i).isSome := by rw [hk]; rfl
          have x2 := hresp i ⟨hi, hks⟩
          obtain ⟨v1, v2, v3, -, g0, g1, g2, g3⟩ := hV i hi hks
          have := x2.work _ _ _ v1 v2 v3
          rw [hk, Option.getD_some] at this
          simp only [FBeam.memberVirtual, hk, System.endForces, hsX, Option.isSome_some, if_true]
          rw [this]
          congr 1
          funext a
          fin_cases a <;> simp [endsOf, elemVec, g0, g1, g2, g3]
      · exact Finset.sum_congr rfl fun p _ => by rw [show sX.spring p = s.spring p from rfl, hspr]
  refine ⟨d, ⟨w, t, c⟩, hW, fun d' S' hW' => ?_⟩
  set u : ℕ → ℝ := fun p => d' p - d p with hu
  set V : BeamShape := ⟨fun i x => S'.w i x - w i x, fun i x => S'.t i x - t i x,
    fun i x => S'.c i x - c i x⟩ with hVd
  have hFit : b.Fits u V := by
    intro i hi hk
    obtain ⟨a1, a2, a3, a4, g0, g1, g2, g3⟩ := hW.fits i hi hk
    obtain ⟨a1', a2', a3', a4', g0', g1', g2', g3'⟩ := hW'.fits i hi hk
    have x2 := hresp i ⟨hi, hk⟩
    refine ⟨a1'.sub a1, a2'.sub a2, a3'.sub a3, (sq_expand a3' a4' x2.cc).1, ?_, ?_, ?_, ?_⟩
    · simp only [hVd, hu, g0']; rw [← g0]
    · simp only [hVd, hu, g1']; rw [← g1]
    · simp only [hVd, hu, g2']; rw [← g2]
    · simp only [hVd, hu, g3']; rw [← g3]
  have hheld : ∀ p < 2 * b.members.length + 2, b.HeldAt p → u p = 0 := by
    intro p hpN hh
    rcases hq : b.presc.getD p none with _ | x
    · have hneg : b.restraints.getD p 0 < 0 := by
        rcases hh with hh | hh
        · rw [hq] at hh; cases hh
        · exact hh
      simp only [hu, hW.rigid p hpN hq hneg, hW'.rigid p hpN hq hneg, sub_zero]
    · simp only [hu, hW.prescribed p hpN x hq, hW'.prescribed p hpN x hq, sub_self]
  have w1 := hW.work u V hFit hheld
  have w2 := hW'.work u V hFit hheld
  have hmem : ∀ i < b.members.length,
      b.memberVirtual l1 i (K i) (cn i) d' S' u V - b.memberVirtual l1 i (K i) (cn i) d ⟨w, t, c⟩ u V
        = match b.kfAt i with
          | none => energy (K i) (elemVec u i)
          | some k => b.eiAt i * (∫ x in (0 : ℝ)..b.spanL i, V.c i x ^ 2)
              + k * (∫ x in (0 : ℝ)..b.spanL i, V.w i x ^ 2) := by
    intro i hi
    rcases hk : b.kfAt i with _ | k
    · simp only [FBeam.memberVirtual, hk, energy]
      have : elemVec u i = elemVec d' i - elemVec d i := by funext a; rfl
      rw [← dotProduct_sub, add_sub_add_right_eq_sub, ← mulVec_sub, ← this]
    · have hks : (b.kfAt i).isSome := by rw [hk]; rfl
      obtain ⟨-, -, p3⟩ := hfp i hi k hk
      have x2 := hresp i ⟨hi, hks⟩
      obtain ⟨a1, a2, a3, a4, -⟩ := hW'.fits i hi hks
      obtain ⟨v1, v2, v3, v4, -⟩ := hFit i hi hks
      have i1 : IntervalIntegrable (fun x => c i x * V.c i x) volume 0 (b.spanL i) :=
        v3.continuousOn_mul x2.cc.continuousOn
      have i2 : IntervalIntegrable (fun x => S'.c i x * V.c i x) volume 0 (b.spanL i) := by
        have := v4.add i1
        refine this.congr (fun x _ => ?_)
        simp only [hVd]
        ring
      have ci : ∀ {f g : ℝ → ℝ}, ContinuousOn f (Set.Icc 0 (b.spanL i)) →
          ContinuousOn g (Set.Icc 0 (b.spanL i)) →
          IntervalIntegrable (fun x => f x * g x) volume 0 (b.spanL i) := by
        intro f g hf hg
        apply ContinuousOn.intervalIntegrable
        rw [Set.uIcc_of_le p3.le]
        exact hf.mul hg
      have j1 := ci x2.sw.cont v1.cont
      have j2 := ci a1.cont v1.cont
      have s1 : (∫ x in (0 : ℝ)..b.spanL i, S'.c i x * V.c i x) - (∫ x in (0 : ℝ)..b.spanL i, c i x * V.c i x)
          = ∫ x in (0 : ℝ)..b.spanL i, V.c i x ^ 2 := by
        rw [← intervalIntegral.integral_sub i2 i1]
        congr 1; funext x; simp only [hVd]; ring
      have s2 : (∫ x in (0 : ℝ)..b.spanL i, S'.w i x * V.w i x) - (∫ x in (0 : ℝ)..b.spanL i, w i x * V.w i x)
          = ∫ x in (0 : ℝ)..b.spanL i, V.w i x ^ 2 := by
        rw [← intervalIntegral.integral_sub j2 j1]
        congr 1; funext x; simp only [hVd]; ring
      simp only [FBeam.memberVirtual, hk]
      rw [← s1, ← s2]
      ring
  have hnn : ∀ i ∈ range b.members.length, 0 ≤ b.memberVirtual l1 i (K i) (cn i) d' S' u V
      - b.memberVirtual l1 i (K i) (cn i) d ⟨w, t, c⟩ u V := by
    intro i hi
    have hi := Finset.mem_range.1 hi
    rw [hmem i hi]
    rcases hk : b.kfAt i with _ | k
    · exact (hnone i hi hk).2.2 _
    · obtain ⟨p1, p2, p3⟩ := hfp i hi k hk
      exact add_nonneg (mul_nonneg p1.le (intervalIntegral.integral_nonneg p3.le fun x _ => sq_nonneg _))
        (mul_nonneg p2.le (intervalIntegral.integral_nonneg p3.le fun x _ => sq_nonneg _))
  have hnp : ∀ p ∈ range (2 * b.members.length + 2), 0 ≤ max (b.restraints.getD p 0) 0 * u p ^ 2 :=
    fun p _ => mul_nonneg (le_max_right _ _) (sq_nonneg _)
  have hsum : ∑ i ∈ range b.members.length, (b.memberVirtual l1 i (K i) (cn i) d' S' u V
      - b.memberVirtual l1 i (K i) (cn i) d ⟨w, t, c⟩ u V)
      + ∑ p ∈ range (2 * b.members.length + 2), max (b.restraints.getD p 0) 0 * u p ^ 2 = 0 := by
    have : ∑ p ∈ range (2 * b.members.length + 2), max (b.restraints.getD p 0) 0 * u p ^ 2
        = ∑ p ∈ range (2 * b.members.length + 2), max (b.restraints.getD p 0) 0 * u p * d' p
          - ∑ p ∈ range (2 * b.members.length + 2), max (b.restraints.getD p 0) 0 * u p * d p := by
      rw [← Finset.sum_sub_distrib]
      refine Finset.sum_congr rfl fun p _ => ?_
      simp only [hu]
      ring
    rw [this, Finset.sum_sub_distrib]
    linarith
  have hA0 := Finset.sum_nonneg hnn
  have hB0 := Finset.sum_nonneg hnp
  have hA1 := (Finset.sum_eq_zero_iff_of_nonneg hnn).1 (by linarith)
  have hB1 := (Finset.sum_eq_zero_iff_of_nonneg hnp).1 (by linarith)
  have hVz : ∀ i < b.members.length, (b.kfAt i).isSome → ∀ x ∈ Set.Icc 0 (b.spanL i),
      V.w i x = 0 ∧ V.t i x = 0 := by
    intro i hi hks
    obtain ⟨k, hk⟩ := Option.isSome_iff_exists.1 hks
    obtain ⟨p1, p2, p3⟩ := hfp i hi k hk
    obtain ⟨v1, v2, v3, v4, -⟩ := hFit i hi hks
    have h0 := hA1 i (Finset.mem_range.2 hi)
    rw [hmem i hi, hk] at h0
    exact shape_zero_of p1 p2 p3 v1 v2 v3 v4 h0
  have hz := b.zero_state inv hS hgood h1 hns hpos u (fun i hi => by
      rcases hk : b.kfAt i with _ | k
      · have h0 := hA1 i (Finset.mem_range.2 hi)
        rw [hmem i hi, hk] at h0
        rw [(hnone i hi hk).1]
        exact h0
      · have hks : (b.kfAt i).isSome := by rw [hk]; rfl
        obtain ⟨-, -, p3⟩ := hfp i hi k hk
        obtain ⟨-, -, -, -, g0, g1, g2, g3⟩ := hFit i hi hks
        have z0 := hVz i hi hks 0 ⟨le_rfl, p3.le⟩
        have z1 := hVz i hi hks _ ⟨p3.le, le_rfl⟩
        have : elemVec u i = 0 := by
          funext a
          fin_cases a
          · simpa [elemVec] using g0.symm.trans z0.1
          · simpa [elemVec] using g1.symm.trans z0.2
          · simpa [elemVec] using g2.symm.trans z1.1
          · simpa [elemVec] using g3.symm.trans z1.2
        rw [this, energy, zero_dotProduct])
    (fun p hp => by rw [hspr]; exact hB1 p (Finset.mem_range.2 (by rw [← hN]; exact hp)))
    (fun p hp hc => hheld p (by rw [← hN]; exact hp) ((hconstr p).1 hc))
  refine ⟨fun p hp => sub_eq_zero.1 (hz p (by rw [hN]; exact hp)), fun i hi hk x hx => ?_⟩
  obtain ⟨q1, q2⟩ := hVz i hi hk x hx
  exact ⟨sub_eq_zero.1 q1, sub_eq_zero.1 q2⟩

/-- C149 at a beam of two spans that rests on the foundation under one of them only. -/
example : ∃ K cn d S, exFloat.members[1]?.map Member.spanK = some (.ok (K 1)) ∧
    exFloat.Winkler [⟨0, .udl 3⟩, ⟨1, .pl 5 1⟩] K cn d S := by
  obtain ⟨s, hs⟩ := exFloat_system
  obtain ⟨hns, -⟩ := exFloat_completes exFloat.LM s hs
  obtain ⟨K, hK, -⟩ := C13_energy_nonneg _ (exFloat_good _ (List.getElem_mem (by simp [exFloat] :
    1 < exFloat.members.length))).1
  obtain ⟨cn, hcn⟩ : ∃ cn, (exFloat.members[1]'(by simp [exFloat])).refSum 1
      [⟨0, .udl 3⟩, ⟨1, .pl 5 1⟩] = .ok cn := ⟨_, rfl⟩
  obtain ⟨d, S, h, -⟩ := C149_exists exFloat (fun m hm => (exFloat_good m hm).1) anyInverter
    anyInverter_sound s hs hns _ exFloat_loads (by
      intro l hl
      simp only [List.mem_cons, List.not_mem_nil, or_false] at hl
      rcases hl with rfl | rfl <;>
        simp [exFloat, FBeam.kfAt, Load.OnSpan, Found.Clear, Load.Placed, BeamDef.spanL, Load.Starts])
    (fun _ => K) (fun _ => cn)
    (fun i hi hk => by
      have hi' : i < 2 := hi
      interval_cases i
      · simp [FBeam.kfAt, exFloat] at hk
      · exact hK)
    (fun i hi hk => by
      have hi' : i < 2 := hi
      interval_cases i
      · simp [FBeam.kfAt, exFloat] at hk
      · exact hcn)
  refine ⟨fun _ => K, fun _ => cn, d, S, ?_, h⟩
  rw [List.getElem?_eq_getElem (by simp [exFloat]), Option.map_some, hK]

end PyCBA
