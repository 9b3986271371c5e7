import Verif.Foundation.Beam
import Verif.Exact.Mueller
import Verif.Analysis.State

/-!
Beams with members on an elastic foundation, continued.

C112: a foundation holds the beam.
C113: results of beams on foundations superpose.
-/

set_option linter.unusedSectionVars false
set_option linter.unusedSimpArgs false

namespace PyCBA

open Matrix Finset

/-! ### C112 -/

/-- What the analysis knows of the stiffness of a foundation member. -/
theorem FBeam.found_energy (b : FBeam) (inv : Inverter ℝ) (hS : inv.Sound)
    (hgood : ∀ m ∈ b.members, m.Good) (hkf : ∀ i k, b.kfAt i = some k → 0 < k) {s : System ℝ}
    (h1 : b.system inv = .ok s) (i : ℕ) (hi : i < b.members.length) (k : ℝ) (hk : b.kfAt i = some k) :
    (s.kb i)ᵀ = s.kb i ∧ (∀ d, 0 ≤ energy (s.kb i) d) ∧ ∀ d, d ≠ 0 → 0 < energy (s.kb i) d := by
  obtain ⟨-, hkb, -⟩ := FBeam.system_ok h1
  have hki := hkb i hi
  rw [hk] at hki
  simp only [spanKf] at hki
  split at hki
  · cases hki
  rename_i E hE
  obtain ⟨hn0, hb⟩ := spanFoundation_ok hE
  obtain ⟨-, -, hEI, hEL, hEk, -⟩ := C64_scope inv _ k E hE
  have hg := hgood _ (List.getElem_mem hi)
  rw [← Except.ok.inj hki]
  refine C64_stiffness E.toFound hn0 (by rw [hEL]; exact hg.1) ?_ (by rw [hEk]; exact hkf i k hk) inv
    hS E hb
  have := hg.2.1
  rw [hEI] at this
  exact this

/-- Energies of the members of an analysed beam. -/
theorem FBeam.system_pos (b : FBeam) (inv : Inverter ℝ) (hS : inv.Sound)
    (hgood : ∀ m ∈ b.members, m.Good) (hkf : ∀ i k, b.kfAt i = some k → 0 < k) {s : System ℝ}
    (h1 : b.system inv = .ok s) : ∀ i < s.n, ∀ d, 0 ≤ energy (s.kb i) d := by
  obtain ⟨hn, hkb, -⟩ := FBeam.system_ok h1
  intro i hi d
  rw [hn] at hi
  cases hk : b.kfAt i with
  | some k => exact (b.found_energy inv hS hgood hkf h1 i hi k hk).2.1 d
  | none =>
    have hki := hkb i hi
    rw [hk] at hki
    obtain ⟨k, q1, q2, _⟩ := C13_energy_nonneg _ (hgood _ (List.getElem_mem hi))
    rw [show spanKf inv b.members[i] none = b.members[i].spanK from rfl, q1] at hki
    rw [← Except.ok.inj hki]
    exact q2 d

/-- A displacement of an analysed beam of fixed-fixed members that takes no energy is a rigid
motion that leaves the foundations alone. -/
theorem FBeam.rigid_of_energy (b : FBeam) (inv : Inverter ℝ) (hS : inv.Sound)
    (hgood : ∀ m ∈ b.members, m.Good ∧ m.et = .FF) (hkf : ∀ i k, b.kfAt i = some k → 0 < k)
    {s : System ℝ} (h1 : b.system inv = .ok s) (x : ℕ → ℝ)
    (hmem : ∀ i < b.members.length, energy (s.kb i) (elemVec x i) = 0) :
    (∀ i < b.members.length, ∀ k, b.kfAt i = some k → x (2 * i) = 0 ∧ x (2 * i + 1) = 0) ∧
    ∀ j ≤ b.members.length, x (2 * j) = x 0 + x 1 * b.nodeX j ∧ x (2 * j + 1) = x 1 := by
  obtain ⟨hn, hkb, -⟩ := FBeam.system_ok h1
  have hf : ∀ i < b.members.length, ∀ k, b.kfAt i = some k → elemVec x i = 0 := by
    intro i hi k hk
    by_contra hne
    exact absurd (hmem i hi)
      ((b.found_energy inv hS (fun m hm => (hgood m hm).1) hkf h1 i hi k hk).2.2 _ hne).ne'
  refine ⟨fun i hi k hk => ⟨by simpa [elemVec] using congrFun (hf i hi k hk) 0,
    by simpa [elemVec] using congrFun (hf i hi k hk) 1⟩, ?_⟩
  intro j
  induction j with
  | zero => intro _; simp [BeamDef.nodeX]
  | succ j ih =>
    intro hj
    obtain ⟨i1, i2⟩ := ih (by omega)
    have hjl : j < b.members.length := by omega
    obtain ⟨hm, hFF⟩ := hgood _ (List.getElem_mem hjl)
    have h4 : ∃ a t, elemVec x j = rigidMotion a t b.members[j].L := by
      cases hk : b.kfAt j with
      | some k =>
        refine ⟨0, 0, ?_⟩
        rw [hf j hjl k hk]
        funext a
        fin_cases a <;> simp [rigidMotion]
      | none =>
        obtain ⟨k', q1, _, q3⟩ := C13_energy_nonneg _ hm
        have hki := hkb j hjl
        rw [hk, show spanKf inv b.members[j] none = b.members[j].spanK from rfl, q1] at hki
        cases Except.ok.inj hki
        exact q3 hFF _ (hmem j hjl)
    obtain ⟨a, t, h4⟩ := h4
    have e0 := congrFun h4 0
    have e1 := congrFun h4 1
    have e2 := congrFun h4 2
    have e3 := congrFun h4 3
    simp [elemVec, rigidMotion] at e0 e1 e2 e3
    rw [b.nodeX_succ j hjl]
    constructor
    · have : 2 * (j + 1) = 2 * j + 2 := by ring
      rw [this, e2, ← e0, ← e1, i1, i2]
      ring
    · have : 2 * (j + 1) + 1 = 2 * j + 3 := by ring
      rw [this, e3, ← e1, i2]

/-- **C112**: a beam of fixed-fixed members with positive properties, at least one of them on
a foundation of positive modulus, has a nonsingular restrained stiffness even without any
support, whatever springs, restraints and prescribed displacements it has. -/
theorem C112_held (b : FBeam) (hgood : ∀ m ∈ b.members, m.Good ∧ m.et = .FF)
    (hkf : ∀ i k, b.kfAt i = some k → 0 < k) (inv : Inverter ℝ) (hS : inv.Sound) (s : System ℝ)
    (h1 : b.system inv = .ok s) (i : ℕ) (hi : i < b.members.length) (k : ℝ)
    (hk : b.kfAt i = some k) : s.Nonsingular := by
  obtain ⟨hn, hkb, -⟩ := FBeam.system_ok h1
  have hN : s.N = 2 * b.members.length + 2 := by simp [System.N, hn]
  intro x hx hf
  have hpos := b.system_pos inv hS (fun m hm => (hgood m hm).1) hkf h1
  have hE : s.totalEnergy x = 0 := by
    rw [s.totalEnergy_eq]
    apply Finset.sum_eq_zero
    intro p hp
    have hp' := Finset.mem_range.1 hp
    rcases hc : s.constr p with _ | v
    · rw [hf p hp' hc, mul_zero]
    · rw [hx p hp' (by simp [hc]), zero_mul]
  have hmem : ∀ i < b.members.length, energy (s.kb i) (elemVec x i) = 0 := by
    have h2 : 0 ≤ ∑ p ∈ range s.N, s.spring p * x p ^ 2 := by
      apply Finset.sum_nonneg
      intro p _
      apply mul_nonneg
      · simp only [System.spring]
        split
        · exact le_of_lt ‹_›
        · exact le_rfl
      · positivity
    have h3 : 0 ≤ ∑ i ∈ range s.n, energy (s.kb i) (elemVec x i) :=
      Finset.sum_nonneg fun i hi => hpos i (Finset.mem_range.1 hi) _
    have h4 : ∑ i ∈ range s.n, energy (s.kb i) (elemVec x i) = 0 := by
      simp only [System.totalEnergy] at hE
      linarith
    intro i hi
    exact (Finset.sum_eq_zero_iff_of_nonneg fun i hi => hpos i (Finset.mem_range.1 hi) _).1 h4 i
      (by simpa [hn] using hi)
  obtain ⟨h5, hrig⟩ := b.rigid_of_energy inv hS hgood hkf h1 x hmem
  obtain ⟨z0, z1⟩ := h5 i hi k hk
  have hx1 : x 1 = 0 := by rw [← (hrig i (by omega)).2, z1]
  have hx0 : x 0 = 0 := by
    have := (hrig i (by omega)).1
    rw [z0, hx1] at this
    linarith
  intro p hp
  rcases Nat.even_or_odd' p with ⟨c, rfl | rfl⟩
  · rw [(hrig c (by omega)).1, hx0, hx1]
    ring
  · rw [(hrig c (by omega)).2, hx1]

/-- The equations have a solution, so the analysis ends with results. -/
theorem C112_completes (b : FBeam) (hgood : ∀ m ∈ b.members, m.Good ∧ m.et = .FF)
    (hkf : ∀ i k, b.kfAt i = some k → 0 < k) (inv : Inverter ℝ) (hS : inv.Sound) (s : System ℝ)
    (h1 : b.system inv = .ok s) (i : ℕ) (hi : i < b.members.length) (k : ℝ)
    (hk : b.kfAt i = some k) (hp : ∀ i, b.presc.getD i none = none) :
    ∃ solve : Solver ℝ, solve.Sound ∧ ∃ res, b.analyze inv (fun _ => true) solve = .ok res := by
  obtain ⟨d, hd⟩ := System.exists_solution (C112_held b hgood hkf inv hS s h1 i hi k hk)
  refine ⟨trySolver d, trySolver_sound d, ⟨d, s.reactions d, s.springForces d, s.endForces d⟩, ?_⟩
  simp only [FBeam.analyze, h1, not_true_eq_false, and_false, if_false]
  refine s.analyze_try d ?_ hd.1 hd.2
  obtain ⟨_, _, _, _, hpr, _⟩ := FBeam.system_ok h1
  simp only [System.validate, hpr, hp]
  simp

/-- Members, moduli and loads the code accepts. -/
theorem FBeam.system_exists (b : FBeam) (inv : Inverter ℝ) (ls : List (SpanLoad ℝ))
    (hls : b.setLoads = .ok ls)
    (hk : ∀ i (hi : i < b.members.length), ∃ k, spanKf inv b.members[i] (b.kfAt i) = .ok k)
    (hr : ∀ i (hi : i < b.members.length), ∃ v, spanRef inv b.members[i] i ls (b.kfAt i) = .ok v)
    (h1 : 2 * b.members.length + 2 ≤ b.restraints.length)
    (h2 : 2 * b.members.length + 2 ≤ b.presc.length) : ∃ s, b.system inv = .ok s := by
  unfold FBeam.system
  rw [hls]
  have hz : ∀ mi ∈ b.members.zipIdx, ∃ hi : mi.2 < b.members.length, mi.1 = b.members[mi.2] := by
    intro mi hmi
    obtain ⟨q1, q2, q3⟩ := List.mem_zipIdx (x := mi.1) (i := mi.2) (k := 0) hmi
    exact ⟨by omega, by simpa using q3⟩
  obtain ⟨r, hr'⟩ := mapE_of_ok
    (f := fun mi : Member ℝ × ℕ => spanRef inv mi.1 mi.2 ls (b.kfAt mi.2)) b.members.zipIdx
    (fun mi hmi => by
      obtain ⟨hi, e⟩ := hz mi hmi
      rw [e]
      exact hr _ hi)
  obtain ⟨k, hk'⟩ := mapE_of_ok (f := fun mi : Member ℝ × ℕ => spanKf inv mi.1 (b.kfAt mi.2))
    b.members.zipIdx (fun mi hmi => by
      obtain ⟨hi, e⟩ := hz mi hmi
      rw [e]
      exact hk _ hi)
  simp only [hr', hk']
  rw [if_neg (by omega)]
  exact ⟨_, rfl⟩

/-- A span without supports lying on a foundation, next to a free span, with a uniform load on
the first and a point load on the second. -/
noncomputable def exFloat : FBeam :=
  ⟨⟨[⟨.const 6, 2, .FF, none⟩, ⟨.const 6, 3, .FF, none⟩], [0, 0, 0, 0, 0, 0],
    [none, none, none, none, none, none], [⟨1, 1, [3]⟩, ⟨2, 2, [5, 1]⟩]⟩, [some 50]⟩

theorem exFloat_good : ∀ m ∈ exFloat.members, m.Good ∧ m.et = .FF := by
  simp [exFloat, Member.Good, Rigidity.Good]

theorem exFloat_kf : ∀ i k, exFloat.kfAt i = some k → 0 < k := by
  intro i k h
  rcases i with _ | i
  · simp [FBeam.kfAt, exFloat] at h
    linarith
  · simp [FBeam.kfAt, exFloat] at h

theorem exFloat_loads : exFloat.setLoads = .ok [⟨0, .udl 3⟩, ⟨1, .pl 5 1⟩] := by
  simp [BeamDef.setLoads, exFloat, parseLM, parseRow]

theorem exFloat_found : ∃ E, spanFoundation anyInverter ⟨.const 6, 2, .FF, none⟩ 50 = .ok E := by
  simp only [spanFoundation]
  have h : ∃ n : ℕ, autoSubdivisions 2 6 50 = .ok n ∧ 0 < n := by
    unfold autoSubdivisions
    rw [if_neg (by norm_num), if_neg (by norm_num), if_neg (by norm_num)]
    refine ⟨_, rfl, ?_⟩
    have : (8 : ℤ) ≤ min (max ⌈(8 : ℝ) * 2 / (4 * 6 / 50) ^ (1 / 4 : ℝ)⌉ 8) 400 :=
      le_min (le_max_right _ _) (by norm_num)
    omega
  obtain ⟨n, hn, h0⟩ := h
  rw [hn]
  exact Found.build_any ⟨2, 6, 50, n⟩ h0 (by norm_num) (by norm_num) (by norm_num)

theorem exFloat_system_gen (LM : List (Row ℝ)) (ls : List (SpanLoad ℝ))
    (hls : ({ exFloat with LM := LM } : FBeam).setLoads = .ok ls)
    (h0 : ∀ E, spanFoundation anyInverter ⟨.const 6, 2, .FF, none⟩ 50 = .ok E →
      ∃ r, E.refs (ownLoads 0 ls) = .ok r)
    (h1 : ∃ c, (⟨.const 6, 3, .FF, none⟩ : Member ℝ).refSum 1 ls = .ok c) :
    ∃ s, ({ exFloat with LM := LM } : FBeam).system anyInverter = .ok s := by
  obtain ⟨E, hE⟩ := exFloat_found
  refine FBeam.system_exists _ anyInverter _ hls ?_ ?_ (by simp [exFloat]) (by simp [exFloat])
  · intro i hi
    have hi' : i < 2 := hi
    interval_cases i
    · exact ⟨E.k, by
        change spanKf anyInverter ⟨.const 6, 2, .FF, none⟩ (some 50) = _
        simp only [spanKf]
        rw [hE]⟩
    · obtain ⟨k, hk, -⟩ := C13_energy_nonneg (⟨.const 6, 3, .FF, none⟩ : Member ℝ)
        (by simp [Member.Good, Rigidity.Good])
      exact ⟨k, hk⟩
  · intro i hi
    have hi' : i < 2 := hi
    interval_cases i
    · have : ∃ v, E.ref (ownLoads 0 ls) = .ok v := by
        unfold FoundEl.ref
        obtain ⟨r, hr⟩ := h0 E hE
        rw [hr]
        exact ⟨_, rfl⟩
      obtain ⟨v, hv⟩ := this
      refine ⟨v, ?_⟩
      change spanRef anyInverter ⟨.const 6, 2, .FF, none⟩ 0 _ (some 50) = _
      simp only [spanRef]
      rw [hE]
      exact hv
    · obtain ⟨c, hc⟩ := h1
      refine ⟨c.vec, ?_⟩
      change spanRef anyInverter ⟨.const 6, 3, .FF, none⟩ 1 _ none = _
      simp only [spanRef]
      rw [hc]

theorem exFloat_system_of (LM : List (Row ℝ)) (ls : List (SpanLoad ℝ))
    (hls : ({ exFloat with LM := LM } : FBeam).setLoads = .ok ls)
    (h0 : ownLoads 0 ls = [] ∨ ownLoads 0 ls = [.udl 3])
    (h1 : ∃ c, (⟨.const 6, 3, .FF, none⟩ : Member ℝ).refSum 1 ls = .ok c) :
    ∃ s, ({ exFloat with LM := LM } : FBeam).system anyInverter = .ok s := by
  refine exFloat_system_gen LM ls hls (fun E _ => ?_) h1
  rcases h0 with h0 | h0
  · rw [h0]
    simp only [Found.refs, Found.subLoads]
    exact mapE_of_ok _ fun a _ => ⟨0, by simp [pieceRef]⟩
  · rw [h0]
    simp only [Found.refs, Found.subLoads, Found.subLoad]
    exact mapE_of_ok _ fun a _ => by
      simp [pieceRef, Load.getRef, Load.getCnl, releaseCnl]

theorem exFloat_system : ∃ s, exFloat.system anyInverter = .ok s :=
  exFloat_system_of exFloat.LM _ exFloat_loads (Or.inr (by simp [ownLoads])) ⟨_, rfl⟩

theorem exFloat_completes (LM : List (Row ℝ)) (s : System ℝ)
    (hs : ({ exFloat with LM := LM } : FBeam).system anyInverter = .ok s) :
    s.Nonsingular ∧ ∃ solve : Solver ℝ, solve.Sound ∧
    ∃ res, ({ exFloat with LM := LM } : FBeam).analyze anyInverter (fun _ => true) solve = .ok res :=
  ⟨C112_held { exFloat with LM := LM } exFloat_good exFloat_kf _ anyInverter_sound s hs 0
      (by simp [exFloat]) 50 (by simp [FBeam.kfAt, exFloat]),
    C112_completes { exFloat with LM := LM } exFloat_good exFloat_kf _ anyInverter_sound s hs 0
      (by simp [exFloat]) 50 (by simp [FBeam.kfAt, exFloat]) (fun i => by
        rcases i with _ | _ | _ | _ | _ | _ | i <;> simp [exFloat])⟩

/-- C112 at the floating span. -/
example : ∃ solve : Solver ℝ, solve.Sound ∧
    ∃ res, exFloat.analyze anyInverter (fun _ => true) solve = .ok res := by
  obtain ⟨s, hs⟩ := exFloat_system
  exact (exFloat_completes exFloat.LM s hs).2

/-- Without the foundation that beam is a mechanism. -/
example (s : System ℝ) (hs : exFloat.toBeamDef.system = .ok s) : ¬ s.Nonsingular := by
  intro h
  obtain ⟨hn, hk, -, hr, hp, -⟩ := BeamDef.system_ok hs
  have hz := h (fun p => if p % 2 = 0 then 1 else 0) (fun p hp' hc => by
    have hp6 : p < 6 := by
      have : s.n = 2 := hn
      simp only [System.N, this] at hp'
      omega
    exfalso
    simp only [System.constr, hr, hp] at hc
    interval_cases p <;> simp [exFloat] at hc) (fun p hp' _ => by
    rw [s.mulN_assemble _ p hp']
    have hsp : s.spring p = 0 := by
      have hp6 : p < 6 := by
        have : s.n = 2 := hn
        simp only [System.N, this] at hp'
        omega
      simp only [System.spring, hr]
      interval_cases p <;> simp [exFloat]
    rw [hsp, zero_mul, add_zero]
    refine Finset.sum_eq_zero fun i hi => ?_
    have hi' : i < exFloat.members.length := by rw [← hn]; exact Finset.mem_range.1 hi
    obtain ⟨k, k1, k2⟩ := C12_rigid_body _ (exFloat_good _ (List.getElem_mem hi')).1 1 0
    rw [hk i hi'] at k1
    cases k1
    have : elemVec (fun p => if p % 2 = 0 then (1 : ℝ) else 0) i
        = rigidMotion 1 0 exFloat.members[i].L := by
      funext a
      fin_cases a <;> simp [elemVec, rigidMotion]
    rw [this, k2]
    simp [blockVec])
  have := hz 0 (by simp [System.N])
  norm_num at this

/-- C110 and C111 at the floating span: the pressure of the foundation carries the load of
11, and the recovered displacements solve the whole mesh. -/
example : ∃ (solve : Solver ℝ) (res : Result ℝ) (w : ℝ → ℝ) (m : BeamMesh) (D : ℕ → ℕ → ℝ),
    solve.Sound ∧ exFloat.analyze anyInverter (fun _ => true) solve = .ok res ∧
    ∫ x in (0 : ℝ)..2, -(50 * w x) = 11 ∧ w 0 = res.d 0 ∧ w 2 = res.d 2 ∧
    exFloat.HasMesh [⟨0, .udl 3⟩, ⟨1, .pl 5 1⟩] m ∧ exFloat.MeshSolution m res.d D := by
  obtain ⟨s, hs⟩ := exFloat_system
  obtain ⟨solve, h1, res, h2⟩ := C112_completes exFloat exFloat_good exFloat_kf _ anyInverter_sound s
    hs 0 (by simp [exFloat]) 50 (by simp [FBeam.kfAt, exFloat]) (fun i => by
      rcases i with _ | _ | _ | _ | _ | _ | i <;> simp [exFloat])
  obtain ⟨w, g1, g2, -⟩ := C110_equilibrium exFloat (fun m hm => (exFloat_good m hm).1) anyInverter
    anyInverter_sound _ solve h1 res h2 (fun i v h => by
      rcases i with _ | _ | _ | _ | _ | _ | i <;> simp [exFloat] at h)
    [⟨0, .udl 3⟩, ⟨1, .pl 5 1⟩] (by simp [exFloat, parseLM, parseRow]) (by
      intro l hl
      simp only [List.mem_cons, List.not_mem_nil, or_false] at hl
      rcases hl with rfl | rfl <;>
        simp [exFloat, FBeam.kfAt, Load.OnSpan, Found.Clear, Load.Placed, BeamDef.spanL, Load.Starts])
  obtain ⟨m, D, q1, -, q2, -⟩ := C111_mesh_solution exFloat anyInverter anyInverter_sound _ solve h1 res
    h2 _ exFloat_loads
  obtain ⟨e0, e1⟩ := (g1 0 (by simp [exFloat])).2 50 (by simp [FBeam.kfAt, exFloat])
  refine ⟨solve, res, w 0, m, D, h1, h2, ?_, e0, ?_, q1, q2⟩
  · have hl : exFloat.members.length = 2 := rfl
    have hk0 : exFloat.kfAt 0 = some 50 := rfl
    have hk1 : exFloat.kfAt 1 = none := rfl
    rw [hl, Finset.sum_range_succ, Finset.sum_range_one, hk0, hk1] at g2
    have hT : exFloat.totalLoad [⟨0, .udl 3⟩, ⟨1, .pl 5 1⟩] = 11 := by
      simp [BeamDef.totalLoad, Load.total, BeamDef.spanL, exFloat, Load.intensity, Load.forces]
      norm_num
    have hR : exFloat.reported res = [] := by
      simp [BeamDef.reported, exFloat]
      refine ⟨Or.inl ?_, Or.inl ?_⟩ <;> intro a ha <;> interval_cases a <;> simp
    rw [hT, hR] at g2
    simpa [BeamDef.spanL, exFloat] using g2
  · simpa [BeamDef.spanL, exFloat] using e1

/-! ### C113 -/

theorem ownLoads_append (i : ℕ) (l1 l2 : List (SpanLoad ℝ)) :
    ownLoads i (l1 ++ l2) = ownLoads i l1 ++ ownLoads i l2 := by
  simp [ownLoads]

theorem ownLoads_scale (i : ℕ) (g : ℝ) (ls : List (SpanLoad ℝ)) :
    ownLoads i (ls.map fun l => ⟨l.iSpan, l.load.scale g⟩) = (ownLoads i ls).map (Load.scale g) := by
  simp only [ownLoads, List.filter_map, List.map_map]
  rfl

theorem Found.subLoads_append (F : Found ℝ) (l1 l2 : List (Load ℝ)) (p1 p2 : ℕ → List (Load ℝ))
    (h1 : F.subLoads l1 = .ok p1) (h2 : F.subLoads l2 = .ok p2) :
    F.subLoads (l1 ++ l2) = .ok fun k => p1 k ++ p2 k := by
  induction l1 generalizing p1 with
  | nil => cases h1; simpa using h2
  | cons l l1 ih =>
    simp only [Found.subLoads, List.cons_append] at h1 ⊢
    split at h1
    · cases h1
    · rename_i p hp
      split at h1
      · cases h1
      · rename_i q hq
        cases h1
        rw [ih q hq]
        simp

theorem pieceRef_append (h : ℝ) (l1 l2 : List (Load ℝ)) (v1 v2 : Vec4 ℝ)
    (h1 : pieceRef h l1 = .ok v1) (h2 : pieceRef h l2 = .ok v2) :
    pieceRef h (l1 ++ l2) = .ok (v1 + v2) := by
  induction l1 generalizing v1 with
  | nil => cases h1; simpa using h2
  | cons l l1 ih =>
    simp only [pieceRef, List.cons_append] at h1 ⊢
    split at h1
    · cases h1
    · rename_i c hc
      split at h1
      · cases h1
      · rename_i v hv
        cases h1
        rw [ih v hv, add_assoc]

/-- Fixed-end forces of the pieces under two sets of loads together. -/
theorem Found.refs_append (F : Found ℝ) (l1 l2 : List (Load ℝ)) (r1 r2 r : List (Vec4 ℝ))
    (h1 : F.refs l1 = .ok r1) (h2 : F.refs l2 = .ok r2) (h : F.refs (l1 ++ l2) = .ok r) :
    r1.length = F.n ∧ r2.length = F.n ∧ r.length = F.n ∧
    ∀ e, r.getD e 0 = (1 : ℝ) • r1.getD e 0 + (1 : ℝ) • r2.getD e 0 := by
  unfold Found.refs at h1 h2 h
  split at h1
  · cases h1
  rename_i p1 hp1
  split at h2
  · cases h2
  rename_i p2 hp2
  rw [F.subLoads_append l1 l2 p1 p2 hp1 hp2] at h
  simp only at h
  obtain ⟨a1, b1⟩ := mapE_ok h1
  obtain ⟨a2, b2⟩ := mapE_ok h2
  obtain ⟨a3, b3⟩ := mapE_ok h
  rw [List.length_range] at a1 a2 a3
  refine ⟨a1, a2, a3, fun e => ?_⟩
  by_cases he : e < F.n
  · have c1 := b1 e (by simpa using he) (by omega)
    have c2 := b2 e (by simpa using he) (by omega)
    have c3 := b3 e (by simpa using he) (by omega)
    simp only [List.getElem_range] at c1 c2 c3
    rw [pieceRef_append _ _ _ _ _ c1 c2] at c3
    simp only [List.getD_eq_getElem?_getD, List.getElem?_eq_getElem (by omega : e < r.length),
      List.getElem?_eq_getElem (by omega : e < r1.length),
      List.getElem?_eq_getElem (by omega : e < r2.length), Option.getD_some, one_smul]
    exact (Except.ok.inj c3).symm
  · simp only [List.getD_eq_getElem?_getD, List.getElem?_eq_none (by omega : r.length ≤ e),
      List.getElem?_eq_none (by omega : r1.length ≤ e),
      List.getElem?_eq_none (by omega : r2.length ≤ e), Option.getD_none]
    simp

theorem pieceRef_scale (g h : ℝ) (l : List (Load ℝ)) (v : Vec4 ℝ) (hv : pieceRef h l = .ok v) :
    pieceRef h (l.map (Load.scale g)) = .ok (g • v) := by
  induction l generalizing v with
  | nil => cases hv; simp [pieceRef]
  | cons l ls ih =>
    simp only [pieceRef, List.map_cons] at hv ⊢
    split at hv
    · cases hv
    · rename_i c hc
      split at hv
      · cases hv
      · rename_i v' hv'
        cases hv
        rw [getRef_scale, hc, ih v' hv']
        simp only [Except.map, smul_add]
        congr 2
        funext a
        fin_cases a <;> simp [CNL.vec, CNL.smul_def]

theorem Found.subLoad_scale (F : Found ℝ) (g : ℝ) (l : Load ℝ) (p : ℕ → List (Load ℝ))
    (h : F.subLoad l = .ok p) : F.subLoad (l.scale g) = .ok fun k => (p k).map (Load.scale g) := by
  cases l with
  | udl w => cases h; rfl
  | pl P a =>
    simp only [Found.subLoad, Load.scale] at h ⊢
    generalize (if min (truncInt (a / F.h)) ((F.n : ℤ) - 1) < 0
      then min (truncInt (a / F.h)) ((F.n : ℤ) - 1) + F.n
      else min (truncInt (a / F.h)) ((F.n : ℤ) - 1)) = i at h ⊢
    split at h
    · cases h
    · cases h
      rw [if_neg ‹_›]
      refine congrArg _ (funext fun k => ?_)
      simp only [apply_ite (List.map (Load.scale g)), List.map_cons, List.map_nil, Load.scale]
  | pudl w a c =>
    simp only [Found.subLoad, Load.scale] at h ⊢
    cases h
    refine congrArg _ (funext fun k => ?_)
    simp only [apply_ite (List.map (Load.scale g)), List.map_cons, List.map_nil, Load.scale]
  | _ => cases h

theorem Found.subLoads_scale (F : Found ℝ) (g : ℝ) (l : List (Load ℝ)) (p : ℕ → List (Load ℝ))
    (h : F.subLoads l = .ok p) :
    F.subLoads (l.map (Load.scale g)) = .ok fun k => (p k).map (Load.scale g) := by
  induction l generalizing p with
  | nil => cases h; simp [Found.subLoads]
  | cons l ls ih =>
    simp only [Found.subLoads, List.map_cons] at h ⊢
    split at h
    · cases h
    · rename_i p' hp
      split at h
      · cases h
      · rename_i q hq
        cases h
        rw [F.subLoad_scale g l p' hp, ih q hq]
        simp

/-- Fixed-end forces of the pieces under multiplied loads. -/
theorem Found.refs_scale (F : Found ℝ) (g : ℝ) (l : List (Load ℝ)) (r1 r : List (Vec4 ℝ))
    (h1 : F.refs l = .ok r1) (h : F.refs (l.map (Load.scale g)) = .ok r) :
    r1.length = F.n ∧ r.length = F.n ∧
    ∀ e, r.getD e 0 = g • r1.getD e 0 + (0 : ℝ) • r1.getD e 0 := by
  unfold Found.refs at h1 h
  split at h1
  · cases h1
  rename_i p1 hp1
  rw [F.subLoads_scale g l p1 hp1] at h
  simp only at h
  obtain ⟨a1, b1⟩ := mapE_ok h1
  obtain ⟨a3, b3⟩ := mapE_ok h
  rw [List.length_range] at a1 a3
  refine ⟨a1, a3, fun e => ?_⟩
  by_cases he : e < F.n
  · have c1 := b1 e (by simpa using he) (by omega)
    have c3 := b3 e (by simpa using he) (by omega)
    simp only [List.getElem_range] at c1 c3
    rw [pieceRef_scale _ _ _ _ c1] at c3
    simp only [List.getD_eq_getElem?_getD, List.getElem?_eq_getElem (by omega : e < r.length),
      List.getElem?_eq_getElem (by omega : e < r1.length), Option.getD_some, zero_smul, add_zero]
    exact (Except.ok.inj c3).symm
  · simp only [List.getD_eq_getElem?_getD, List.getElem?_eq_none (by omega : r.length ≤ e),
      List.getElem?_eq_none (by omega : r1.length ≤ e), Option.getD_none]
    simp

theorem rfull_lin (α β : ℝ) (r r1 r2 : List (Vec4 ℝ)) (h1 : r1.length = r.length)
    (h2 : r2.length = r.length) (h : ∀ e, r.getD e 0 = α • r1.getD e 0 + β • r2.getD e 0) (p : ℕ) :
    rfull r p = α * rfull r1 p + β * rfull r2 p := by
  rw [rfull_eq, rfull_eq, rfull_eq, h1, h2, Finset.mul_sum, Finset.mul_sum, ← Finset.sum_add_distrib]
  refine Finset.sum_congr rfl fun e _ => ?_
  rw [h]
  simp only [blockVec]
  split
  · simp
  · simp

/-- The condensed fixed-end forces are linear in those of the pieces. -/
theorem FoundEl.refOf_lin (E : FoundEl ℝ) (α β : ℝ) (r r1 r2 : List (Vec4 ℝ))
    (h1 : r1.length = r.length) (h2 : r2.length = r.length)
    (h : ∀ e, r.getD e 0 = α • r1.getD e 0 + β • r2.getD e 0) :
    E.refOf r = α • E.refOf r1 + β • E.refOf r2 := by
  unfold FoundEl.refOf
  have e : (fun c : Fin E.cond.length => rfull r E.cond[c])
      = α • (fun c : Fin E.cond.length => rfull r1 E.cond[c])
        + β • fun c : Fin E.cond.length => rfull r2 E.cond[c] := by
    funext c
    simp only [Pi.add_apply, Pi.smul_apply, smul_eq_mul]
    exact rfull_lin α β r r1 r2 h1 h2 h _
  rw [e]
  simp only [mulVec_add, mulVec_smul]
  funext a
  simp only [Pi.add_apply, Pi.sub_apply, Pi.smul_apply, smul_eq_mul]
  rw [rfull_lin α β r r1 r2 h1 h2 h]
  ring

theorem found_spread_lin (c : List ℕ) (α β : ℝ) (v v1 v2 : Fin c.length → ℝ)
    (h : v = α • v1 + β • v2) (p : ℕ) : spread c v p = α * spread c v1 p + β * spread c v2 p := by
  subst h
  unfold spread
  split
  · simp
  · simp

/-- So are the displacements recovered inside. -/
theorem FoundEl.mesh_lin (E : FoundEl ℝ) (α β : ℝ) (r r1 r2 : List (Vec4 ℝ)) (d d1 d2 : Vec4 ℝ)
    (h1 : r1.length = r.length) (h2 : r2.length = r.length)
    (h : ∀ e, r.getD e 0 = α • r1.getD e 0 + β • r2.getD e 0) (hd : d = α • d1 + β • d2) (p : ℕ) :
    E.mesh r d p = α * E.mesh r1 d1 p + β * E.mesh r2 d2 p := by
  have hdc : E.dc r d = α • E.dc r1 d1 + β • E.dc r2 d2 := by
    unfold FoundEl.dc
    rw [← mulVec_smul, ← mulVec_smul, ← mulVec_add]
    congr 1
    rw [hd, mulVec_add, mulVec_smul, mulVec_smul]
    funext c
    simp only [Pi.add_apply, Pi.sub_apply, Pi.smul_apply, smul_eq_mul]
    rw [rfull_lin α β r r1 r2 h1 h2 h]
    ring
  unfold FoundEl.mesh
  rw [found_spread_lin _ α β _ _ _ hdc]
  subst hd
  split_ifs <;> simp

/-- One member of two analyses of which a third is the combination. -/
theorem spanRef_lin (inv : Inverter ℝ) (m : Member ℝ) (i : ℕ) (l1 l2 : List (SpanLoad ℝ))
    (kf : Option ℝ) (v1 v2 v : Vec4 ℝ) (h1 : spanRef inv m i l1 kf = .ok v1)
    (h2 : spanRef inv m i l2 kf = .ok v2) (h : spanRef inv m i (l1 ++ l2) kf = .ok v) :
    v = (1 : ℝ) • v1 + (1 : ℝ) • v2 := by
  cases kf with
  | none =>
    simp only [spanRef] at h1 h2 h
    split at h1
    · cases h1
    rename_i c1 hc1
    split at h2
    · cases h2
    rename_i c2 hc2
    rw [Member.refSum_append _ i l1 l2 c1 c2 hc1 hc2] at h
    cases h1
    cases h2
    cases h
    have := CNL.vec_lin c1 c2 (1 : ℝ) 1
    rw [← this]
    simp [CNL.smul_def]
  | some kf =>
    simp only [spanRef] at h1 h2 h
    split at h1
    · cases h1
    rename_i E hE
    simp only [hE] at h2 h
    unfold FoundEl.ref at h1 h2 h
    split at h1
    · cases h1
    rename_i r1 hr1
    split at h2
    · cases h2
    rename_i r2 hr2
    split at h
    · cases h
    rename_i r hr
    cases h1
    cases h2
    cases h
    rw [ownLoads_append] at hr
    obtain ⟨a1, a2, a3, a4⟩ := E.refs_append _ _ _ _ _ hr1 hr2 hr
    exact E.refOf_lin 1 1 r r1 r2 (by omega) (by omega) a4

theorem spanRef_scale (inv : Inverter ℝ) (m : Member ℝ) (i : ℕ) (g : ℝ) (l1 : List (SpanLoad ℝ))
    (kf : Option ℝ) (v1 v : Vec4 ℝ) (h1 : spanRef inv m i l1 kf = .ok v1)
    (h : spanRef inv m i (l1.map fun l => ⟨l.iSpan, l.load.scale g⟩) kf = .ok v) :
    v = g • v1 + (0 : ℝ) • v1 := by
  cases kf with
  | none =>
    simp only [spanRef] at h1 h
    split at h1
    · cases h1
    rename_i c1 hc1
    rw [Member.refSum_scale _ g i l1 c1 hc1] at h
    cases h1
    cases h
    funext a
    fin_cases a <;> simp [CNL.vec, CNL.smul_def]
  | some kf =>
    simp only [spanRef] at h1 h
    split at h1
    · cases h1
    rename_i E hE
    simp only [hE] at h
    unfold FoundEl.ref at h1 h
    split at h1
    · cases h1
    rename_i r1 hr1
    split at h
    · cases h
    rename_i r hr
    cases h1
    cases h
    rw [ownLoads_scale] at hr
    obtain ⟨a1, a3, a4⟩ := E.refs_scale g _ _ _ hr1 hr
    exact E.refOf_lin g 0 r r1 r1 (by omega) (by omega) a4

theorem setLoads_parse {b : BeamDef ℝ} {l l' : List (SpanLoad ℝ)} (h : b.setLoads = .ok l)
    (h' : parseLM b.LM = .ok l') : l = l' := by
  unfold BeamDef.setLoads at h
  rw [h'] at h
  simp only at h
  split at h
  · cases h; rfl
  · cases h

/-- **C113**, sum: on a beam with foundation members whose restrained stiffness is
nonsingular, the results for two load matrices and two sets of prescribed displacements
together are the sums of the separate results, also inside the foundation members. -/
theorem C113_superposition (b : FBeam) (LM1 LM2 : List (Row ℝ)) (p1 p2 p : List (Option ℝ))
    (hp : ∀ i : ℕ, PrescComb 1 1 (b.restraints.getD i 0) (p1.getD i none) (p2.getD i none)
      (p.getD i none)) (inv : Inverter ℝ)
    (stable stable1 stable2 : System ℝ → Bool) (solve solve1 solve2 : Solver ℝ)
    (hs : solve.Sound) (hs1 : solve1.Sound) (hs2 : solve2.Sound) (res res1 res2 : Result ℝ)
    (h1 : ({ b with LM := LM1, presc := p1 } : FBeam).analyze inv stable1 solve1 = .ok res1)
    (h2 : ({ b with LM := LM2, presc := p2 } : FBeam).analyze inv stable2 solve2 = .ok res2)
    (h : ({ b with LM := addLM LM1 LM2, presc := p } : FBeam).analyze inv stable solve = .ok res)
    (hns : ∀ s, ({ b with LM := addLM LM1 LM2, presc := p } : FBeam).system inv = .ok s →
      s.Nonsingular) :
    (∀ q < 2 * b.members.length + 2, res.d q = res1.d q + res2.d q) ∧
    res.r = List.zipWith (· + ·) res1.r res2.r ∧ res.rs = List.zipWith (· + ·) res1.rs res2.rs ∧
    (∀ i < b.members.length, res.fmbr i = res1.fmbr i + res2.fmbr i) ∧
    ∀ l1 l2, parseLM LM1 = .ok l1 → parseLM LM2 = .ok l2 →
      ∀ i (hi : i < b.members.length) k, b.kfAt i = some k → ∃ E r1 r2 r,
        spanFoundation inv b.members[i] k = .ok E ∧ E.refs (ownLoads i l1) = .ok r1 ∧
        E.refs (ownLoads i l2) = .ok r2 ∧ E.refs (ownLoads i (l1 ++ l2)) = .ok r ∧
        ∀ q, E.mesh r (elemVec res.d i) q
          = E.mesh r1 (elemVec res1.d i) q + E.mesh r2 (elemVec res2.d i) q := by
  obtain ⟨s1, e1, a1⟩ := FBeam.analyze_ok h1
  obtain ⟨s2, e2, a2⟩ := FBeam.analyze_ok h2
  obtain ⟨s, e, a⟩ := FBeam.analyze_ok h
  obtain ⟨n1, k1, ⟨l1, hl1, c1⟩, r1, q1, _⟩ := FBeam.system_ok e1
  obtain ⟨n2, k2, ⟨l2, hl2, c2⟩, r2, q2, _⟩ := FBeam.system_ok e2
  obtain ⟨n3, k3, ⟨l3, hl3, c3⟩, r3, q3, _⟩ := FBeam.system_ok e
  simp only at n1 k1 c1 r1 q1 n2 k2 c2 r2 q2 n3 k3 c3 r3 q3
  have hl : l3 = l1 ++ l2 := by
    have h4 := BeamDef.setLoads_append b.toBeamDef LM1 LM2 l1 l2 hl1 hl2
    have h5 : ({ b.toBeamDef with LM := addLM LM1 LM2 } : BeamDef ℝ).setLoads = .ok l3 := hl3
    rw [h4] at h5
    cases h5
    rfl
  have hconstr : ∀ q, (s1.constr q).isSome = (s.constr q).isSome ∧
      (s2.constr q).isSome = (s.constr q).isSome ∧
      (s.constr q).getD 0 = 1 * (s1.constr q).getD 0 + 1 * (s2.constr q).getD 0 := by
    intro q
    have := (hp q).constr (fun o => match o with
      | some v => some v | none => if b.restraints.getD q 0 < 0 then some 0 else none) fun o => by
        cases o <;> rfl
    simp only [System.constr, q1, q2, q3, r1, r2, r3]
    revert this
    cases p1.getD q none <;> cases p2.getD q none <;> cases p.getD q none <;> exact id
  have hcomb : s.IsComb 1 1 s1 s2 := by
    refine ⟨by omega, by omega, ?_, ?_, ?_, ?_, ?_, ?_, ?_, ?_⟩
    · intro i hi
      rw [n3] at hi
      have := (k1 i hi).symm.trans (k3 i hi)
      exact Except.ok.inj this
    · intro i hi
      rw [n3] at hi
      have := (k2 i hi).symm.trans (k3 i hi)
      exact Except.ok.inj this
    · intro q; rw [r1, r3]
    · intro q; rw [r2, r3]
    · intro i hi
      rw [n3] at hi
      have f3 := c3 i hi
      rw [hl] at f3
      exact spanRef_lin inv _ i l1 l2 _ _ _ _ (c1 i hi) (c2 i hi) f3
    · exact fun q _ => (hconstr q).1
    · exact fun q _ => (hconstr q).2.1
    · exact fun q _ => (hconstr q).2.2
  have := hcomb.superpose (hns s e) hs1 hs2 hs a1 a2 a
  simp only [one_mul, one_smul, System.N, n3] at this
  obtain ⟨t1, t2, t3, t4⟩ := this
  refine ⟨t1, t2, t3, t4, ?_⟩
  intro l1' l2' hl1' hl2' i hi k hk
  obtain rfl : l1' = l1 := (setLoads_parse hl1 hl1').symm
  obtain rfl : l2' = l2 := (setLoads_parse hl2 hl2').symm
  obtain ⟨E, ra, _, x1, x2, _⟩ :=
    FBeam.member_mesh ({ b with LM := LM1, presc := p1 } : FBeam) inv e1 l1' hl1 i hi k hk
  obtain ⟨E', rb, _, y1, y2, _⟩ :=
    FBeam.member_mesh ({ b with LM := LM2, presc := p2 } : FBeam) inv e2 l2' hl2 i hi k hk
  obtain ⟨E'', rc, _, z1, z2, _⟩ := FBeam.member_mesh
    ({ b with LM := addLM LM1 LM2, presc := p } : FBeam) inv e l3 hl3 i hi k hk
  simp only at x1 y1 z1
  rw [x1] at y1 z1
  cases y1
  cases z1
  rw [hl] at z2
  refine ⟨E, ra, rb, rc, x1, x2, y2, z2, fun q => ?_⟩
  have z3 := z2
  rw [ownLoads_append] at z3
  obtain ⟨b1, b2, b3, b4⟩ := E.refs_append _ _ _ _ _ x2 y2 z3
  rw [E.mesh_lin 1 1 rc ra rb (elemVec res.d i) (elemVec res1.d i) (elemVec res2.d i) (by omega)
    (by omega) b4 ?_]
  · ring
  · funext a
    have := a.isLt
    simp only [elemVec, Pi.add_apply, Pi.smul_apply, smul_eq_mul, one_mul]
    exact t1 _ (by omega)

/-- **C113**, scaling. -/
theorem C113_scaling (b : FBeam) (g : ℝ) (LM' : List (Row ℝ)) (hf : factorLM g b.LM = .ok LM')
    (p' : List (Option ℝ))
    (hp : ∀ i : ℕ, PrescComb g 0 (b.restraints.getD i 0) (b.presc.getD i none)
      (b.presc.getD i none) (p'.getD i none)) (inv : Inverter ℝ)
    (stable stable' : System ℝ → Bool) (solve solve' : Solver ℝ)
    (hs : solve.Sound) (hs' : solve'.Sound) (res res' : Result ℝ)
    (h : b.analyze inv stable solve = .ok res)
    (h' : ({ b with LM := LM', presc := p' } : FBeam).analyze inv stable' solve' = .ok res')
    (hns : ∀ s, ({ b with LM := LM', presc := p' } : FBeam).system inv = .ok s → s.Nonsingular) :
    (∀ q < 2 * b.members.length + 2, res'.d q = g * res.d q) ∧
    res'.r = res.r.map (g * ·) ∧ res'.rs = res.rs.map (g * ·) ∧
    ∀ i < b.members.length, res'.fmbr i = g • res.fmbr i := by
  obtain ⟨s1, e1, a1⟩ := FBeam.analyze_ok h
  obtain ⟨s, e, a⟩ := FBeam.analyze_ok h'
  obtain ⟨n1, k1, ⟨l1, hl1, c1⟩, r1, q1, _⟩ := FBeam.system_ok e1
  obtain ⟨n3, k3, ⟨l3, hl3, c3⟩, r3, q3, _⟩ := FBeam.system_ok e
  simp only at n1 k1 c1 r1 q1 n3 k3 c3 r3 q3
  have hl : l3 = l1.map fun l => ⟨l.iSpan, l.load.scale g⟩ :=
    b.toBeamDef.setLoads_factor g LM' l1 l3 hf hl1 hl3
  have hconstr : ∀ q, (s1.constr q).isSome = (s.constr q).isSome ∧
      (s1.constr q).isSome = (s.constr q).isSome ∧
      (s.constr q).getD 0 = g * (s1.constr q).getD 0 + 0 * (s1.constr q).getD 0 := by
    intro q
    have := (hp q).constr (fun o => match o with
      | some v => some v | none => if b.restraints.getD q 0 < 0 then some 0 else none) fun o => by
        cases o <;> rfl
    simp only [System.constr, q1, q3, r1, r3]
    revert this
    cases b.presc.getD q none <;> cases p'.getD q none <;> exact id
  have hkb : ∀ i < s.n, s1.kb i = s.kb i := by
    intro i hi
    rw [n3] at hi
    have := (k1 i hi).symm.trans (k3 i hi)
    exact Except.ok.inj this
  have hcomb : s.IsComb g 0 s1 s1 := by
    refine ⟨by omega, by omega, hkb, hkb, ?_, ?_, ?_, ?_, ?_, ?_⟩
    · intro q; rw [r1, r3]
    · intro q; rw [r1, r3]
    · intro i hi
      rw [n3] at hi
      have f3 := c3 i hi
      rw [hl] at f3
      exact spanRef_scale inv _ i g l1 _ _ _ (c1 i hi) f3
    · exact fun q _ => (hconstr q).1
    · exact fun q _ => (hconstr q).2.1
    · exact fun q _ => (hconstr q).2.2
  have := hcomb.superpose (hns s e) hs hs hs' a1 a1 a
  simp only [zero_mul, zero_smul, add_zero, System.N, n3] at this
  obtain ⟨t1, t2, t3, t4⟩ := this
  refine ⟨t1, ?_, ?_, t4⟩
  · rw [t2]
    generalize res.r = l
    induction l with
    | nil => rfl
    | cons x l ih => simp [ih]
  · rw [t3]
    generalize res.rs = l
    induction l with
    | nil => rfl
    | cons x l ih => simp [ih]

/-- C113 at the floating span: uniform load and point load separately and together. -/
example : ∃ (solve1 solve2 solve : Solver ℝ) (res1 res2 res : Result ℝ),
    ({ exFloat with LM := [⟨1, 1, [3]⟩] } : FBeam).analyze anyInverter (fun _ => true) solve1 = .ok res1 ∧
    ({ exFloat with LM := [⟨2, 2, [5, 1]⟩] } : FBeam).analyze anyInverter (fun _ => true) solve2
      = .ok res2 ∧
    exFloat.analyze anyInverter (fun _ => true) solve = .ok res ∧ res.d 4 = res1.d 4 + res2.d 4 := by
  obtain ⟨s1, h1⟩ := exFloat_system_of [⟨1, 1, [3]⟩] [⟨0, .udl 3⟩]
    (by simp [BeamDef.setLoads, exFloat, parseLM, parseRow]) (Or.inr (by simp [ownLoads])) ⟨_, rfl⟩
  obtain ⟨s2, h2⟩ := exFloat_system_of [⟨2, 2, [5, 1]⟩] [⟨1, .pl 5 1⟩]
    (by simp [BeamDef.setLoads, exFloat, parseLM, parseRow]) (Or.inl (by simp [ownLoads])) ⟨_, rfl⟩
  obtain ⟨s, h⟩ := exFloat_system
  obtain ⟨-, v1, a1, x1, b1⟩ := exFloat_completes _ s1 h1
  obtain ⟨-, v2, a2, x2, b2⟩ := exFloat_completes _ s2 h2
  obtain ⟨-, v, a, x, b⟩ := exFloat_completes exFloat.LM s h
  refine ⟨v1, v2, v, x1, x2, x, b1, b2, b, ?_⟩
  have := C113_superposition exFloat [⟨1, 1, [3]⟩] [⟨2, 2, [5, 1]⟩] exFloat.presc exFloat.presc
    exFloat.presc (fun i => by
      rcases i with _ | _ | _ | _ | _ | _ | i <;> simp [exFloat, PrescComb]) anyInverter
    (fun _ => true) (fun _ => true) (fun _ => true) v v1 v2 a a1 a2 x x1 x2 b1 b2 b
    (fun s' h' => (exFloat_completes exFloat.LM s' h').1)
  exact this.1 4 (by simp [exFloat])

end PyCBA
