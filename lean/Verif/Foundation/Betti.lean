import Verif.Foundation.Hold
import Verif.Foundation.Recover
import Verif.Exact.Work

/-!
C116: reciprocity of two load cases on a beam with foundation members.
-/

set_option linter.unusedSectionVars false
set_option linter.unusedSimpArgs false

namespace PyCBA

open Matrix Finset

/-! ### Loads through the line of a foundation member -/

/-- A primitive of `cubic`. -/
noncomputable def cubicInt (h : ℝ) (d : Vec4 ℝ) (x : ℝ) : ℝ :=
  d 0 * x + d 1 * x ^ 2 / 2 + (3 * (d 2 - d 0) / h ^ 2 - (2 * d 1 + d 3) / h) * x ^ 3 / 3
    + (2 * (d 0 - d 2) / h ^ 3 + (d 1 + d 3) / h ^ 2) * x ^ 4 / 4

theorem integral_cubic (h : ℝ) (d : Vec4 ℝ) (a b : ℝ) :
    ∫ x in a..b, cubic h d x = cubicInt h d b - cubicInt h d a := by
  rw [intervalIntegral.integral_eq_sub_of_hasDerivAt (f := cubicInt h d)]
  · intro x _
    have q : ∀ n : ℕ, HasDerivAt (fun x : ℝ => x ^ n) (n * x ^ (n - 1)) x := fun n => hasDerivAt_pow n x
    refine HasDerivAt.congr_deriv (((((hasDerivAt_id' x).const_mul (d 0)).add
      (((q 2).const_mul (d 1)).div_const 2)).add (((q 3).const_mul _).div_const 3)).add
      (((q 4).const_mul _).div_const 4)) ?_
    simp only [Nat.cast_ofNat, Nat.reduceSub, cubic]
    ring
  · exact (cubic_continuous h d).intervalIntegrable _ _

/-- Work of a partial load. -/
theorem pudl_integral {L w a c : ℝ} (h0 : 0 ≤ a) (hc : 0 ≤ c) (h1 : a + c ≤ L) (v : ℝ → ℝ) :
    ∫ x in (0 : ℝ)..L, (Load.pudl w a c).intensity L x * v x = w * ∫ x in a..(a + c), v x := by
  rw [← intervalIntegral.integral_const_mul, intervalIntegral.integral_of_le (by linarith),
    intervalIntegral.integral_of_le (by linarith), ← MeasureTheory.integral_Icc_eq_integral_Ioc,
    ← MeasureTheory.integral_Icc_eq_integral_Ioc, ← MeasureTheory.integral_indicator measurableSet_Icc,
    ← MeasureTheory.integral_indicator measurableSet_Icc]
  congr 1
  funext x
  simp only [Set.indicator, Load.intensity, Set.mem_Icc]
  by_cases hx : a ≤ x ∧ x ≤ a + c
  · rw [if_pos ⟨by linarith [hx.1], by linarith [hx.2]⟩, if_pos hx, if_pos hx]
  · rw [if_neg hx, if_neg hx]
    simp

/-- The fixed-end forces of a load do the work of the load on a cubic, with opposite sign. -/
theorem ref_work {h : ℝ} (hh : 0 < h) (l : Load ℝ) (hs : l.Simple) (hon : l.OnSpan h) (c : CNL ℝ)
    (hc : l.getRef h .FF = .ok c) (d : Vec4 ℝ) (θ : ℝ → ℝ) :
    d ⬝ᵥ c.vec = -l.work h (cubic h d) θ := by
  have hh0 := hh.ne'
  have hv : ∀ k : CNL ℝ, l.getCnl h = .ok (.cnl k) → c.vec = k.vec := by
    intro k hk
    rw [Load.getRef, hk] at hc
    rw [← Except.ok.inj hc]
    simp [releaseCnl, CNL.vec]
  cases l with
  | udl w =>
    rw [hv _ rfl, dot4]
    simp only [Load.work, Load.intensity, Load.forces, Load.couplesAt, List.map_nil, List.sum_nil,
      intervalIntegral.integral_const_mul, integral_cubic]
    simp [CNL.vec, udlCnl, cubicInt]
    field_simp
    ring
  | pl P a =>
    rw [hv _ rfl, dot4]
    simp only [Load.work, Load.intensity, Load.forces, Load.couplesAt, List.map_nil, List.sum_nil,
      List.map_cons, List.sum_cons, zero_mul, intervalIntegral.integral_zero]
    have : max (h - a) 0 = h - a := max_eq_left (by linarith [hon.2])
    simp [CNL.vec, plCnl, cubic, this]
    field_simp
    ring
  | pudl w a c =>
    obtain ⟨h0, h1, h2⟩ := hon
    have e1 := pudl_getCnl w a c h (by linarith)
    rw [min_eq_left (by linarith : c ≤ h - a)] at e1
    rw [hv _ e1, dot4]
    simp only [Load.work, Load.forces, Load.couplesAt, List.map_nil, List.sum_nil,
      pudl_integral h0 h1 h2, integral_cubic]
    simp [CNL.vec, pudlCnl, cubicInt]
    field_simp
    ring
  | _ => exact absurd hs (by simp [Load.Simple])

theorem pieceRef_work {h : ℝ} (hh : 0 < h) (ls : List (Load ℝ)) (hs : ∀ l ∈ ls, l.Simple)
    (hon : ∀ l ∈ ls, l.OnSpan h) (v : Vec4 ℝ) (hv : pieceRef h ls = .ok v) (d : Vec4 ℝ) (θ : ℝ → ℝ) :
    d ⬝ᵥ v = -(ls.map fun l => l.work h (cubic h d) θ).sum := by
  induction ls generalizing v with
  | nil => cases hv; simp
  | cons l ls ih =>
    simp only [pieceRef] at hv
    split at hv
    · cases hv
    rename_i c hc
    split at hv
    · cases hv
    rename_i t ht
    cases hv
    rw [dotProduct_add, ref_work hh l (hs l (by simp)) (hon l (by simp)) c hc d θ,
      ih (fun l hl => hs l (by simp [hl])) (fun l hl => hon l (by simp [hl])) t ht, List.map_cons,
      List.sum_cons]
    ring

/-- Integral of the line of a member over part of a piece. -/
theorem Found.integral_part (F : Found ℝ) (hn : 0 < F.n) (hL : 0 < F.L) (D : ℕ → ℝ) {e : ℕ}
    (he : e < F.n) {lo hi : ℝ} (h0 : (e : ℝ) * F.h ≤ lo) (h1 : lo ≤ hi) (h2 : hi ≤ ((e : ℝ) + 1) * F.h) :
    ∫ x in lo..hi, F.line D x
      = ∫ x in (lo - (e : ℝ) * F.h)..(hi - (e : ℝ) * F.h), cubic F.h (elemVec D e) x := by
  have hae : ∀ᵐ x ∂MeasureTheory.volume, x ∈ Set.uIoc lo hi →
      F.line D x = cubic F.h (elemVec D e) (x - (e : ℝ) * F.h) := by
    filter_upwards [F.line_ae hn hL D (fun _ => 1) he] with x hx hm
    rw [Set.uIoc_of_le h1] at hm
    simpa using hx (by
      push_cast
      rw [Set.uIoc_of_le (by linarith)]
      exact ⟨lt_of_le_of_lt h0 hm.1, hm.2.trans h2⟩)
  rw [intervalIntegral.integral_congr_ae hae,
    intervalIntegral.integral_comp_sub_right (fun x => cubic F.h (elemVec D e) x)]

/-- The parts of a load on the pieces of a member do together the work of the load. -/
theorem Found.subLoad_work (F : Found ℝ) (hn : 0 < F.n) (hL : 0 < F.L) (l : Load ℝ)
    (hon : l.OnSpan F.L) (hcl : F.Clear l) (per : ℕ → List (Load ℝ)) (h : F.subLoad l = .ok per)
    (D : ℕ → ℝ) (θ : ℝ → ℝ) :
    (∀ e, ∀ k ∈ per e, k.Simple) ∧
    ∑ e ∈ range F.n, ((per e).map fun k => k.work F.h (cubic F.h (elemVec D e)) θ).sum
      = l.work F.L (F.line D) θ := by
  have hh := F.h_pos hn hL
  have hnh := F.n_h hn
  cases l with
  | udl w =>
    cases h
    refine ⟨fun e k hk => by rw [List.mem_singleton.1 hk]; trivial, ?_⟩
    have := F.integral_line hn hL D (fun _ => w) continuous_const
    simp only [Load.work, Load.intensity, Load.forces, Load.couplesAt, List.map_nil, List.sum_nil,
      List.map_cons, List.sum_cons, add_zero, sub_zero, Finset.sum_neg_distrib]
    rw [this]
  | pl P a =>
    obtain ⟨h0, h1⟩ := hon
    obtain ⟨i, hi, hi', b0, b1⟩ := F.pl_piece hn hL h0 h1
    rw [F.subLoad_pl P a hi'] at h
    cases h
    have hpc : F.pieceAt a = i := by
      have hq : 0 ≤ a / F.h := div_nonneg h0 hh.le
      rw [truncInt, if_pos hq] at hi'
      have e2 : ((⌊a / F.h⌋₊ : ℕ) : ℤ) = ⌊a / F.h⌋ := Int.natCast_floor_eq_floor hq
      rw [Found.pieceAt]
      omega
    refine ⟨?_, ?_⟩
    · intro e k hk
      dsimp only at hk
      split at hk
      · rw [List.mem_singleton.1 hk]; trivial
      · cases hk
    · rw [Finset.sum_eq_single i]
      · simp [Load.work, Load.intensity, Load.forces, Load.couplesAt, Found.line, hpc]
      · intro b _ hb
        simp [hb]
      · intro hb
        exact absurd (Finset.mem_range.2 hi) hb
  | pudl w a c =>
    obtain ⟨h0, hc, h1⟩ := hon
    have hab : a ≤ a + c := by linarith
    have he1 : ∀ e : ℕ, (e : ℝ) * F.h ≤ ((e : ℝ) + 1) * F.h := fun e => by nlinarith
    have hint : ∀ s ∈ Set.Icc 0 F.L, IntervalIntegrable (F.line D) MeasureTheory.volume 0 s := by
      intro s hs
      have := F.line_integrable hn hL D (fun _ => 1) continuous_const
      simp only [one_mul] at this
      refine this.mono_set ?_
      rw [Set.uIcc_of_le hs.1, Set.uIcc_of_le hL.le]
      exact Set.Icc_subset_Icc le_rfl hs.2
    set G : ℝ → ℝ := fun t => ∫ x in (0 : ℝ)..t, F.line D x with hG
    simp only [Found.subLoad, Except.ok.injEq] at h
    have key : ∀ e < F.n, (∀ k ∈ per e, k.Simple) ∧
        ((per e).map fun k => k.work F.h (cubic F.h (elemVec D e)) θ).sum
          = -(w * (G (clampIn ((e : ℝ) * F.h) (((e : ℝ) + 1) * F.h) (a + c))
            - G (clampIn ((e : ℝ) * F.h) (((e : ℝ) + 1) * F.h) a))) := by
      intro e he
      have hen : ((e : ℝ) + 1) * F.h ≤ F.L := by
        rw [← hnh]
        exact mul_le_mul_of_nonneg_right (by exact_mod_cast he) hh.le
      have he0 : 0 ≤ (e : ℝ) * F.h := by positivity
      obtain ⟨p1, p2⟩ := clamp_piece (he1 e) hab
      have hc1 := hcl e he
      have b1 : (e : ℝ) * F.h ≤ max a ((e : ℝ) * F.h) := le_max_right _ _
      have b2 : min (a + c) (((e : ℝ) + 1) * F.h) ≤ ((e : ℝ) + 1) * F.h := min_le_right _ _
      rw [← h]
      dsimp only
      by_cases hlt : max a ((e : ℝ) * F.h) < min (a + c) (((e : ℝ) + 1) * F.h)
      · obtain ⟨q1, q2⟩ := p1 hlt
        obtain ⟨r1, r2⟩ := hc1 hlt
        rw [if_pos r1, q1, q2]
        have hpart := F.integral_part hn hL D he b1 hlt.le b2
        have hGd : G (min (a + c) (((e : ℝ) + 1) * F.h)) - G (max a ((e : ℝ) * F.h))
            = ∫ x in (max a ((e : ℝ) * F.h))..(min (a + c) (((e : ℝ) + 1) * F.h)), F.line D x := by
          rw [hG]
          exact intervalIntegral.integral_interval_sub_left
            (hint _ ⟨by linarith, by linarith⟩) (hint _ ⟨by linarith, by linarith⟩)
        rw [hGd, hpart]
        by_cases hsn : npClose (max a ((e : ℝ) * F.h)) ((e : ℝ) * F.h) ∧
            npClose (min (a + c) (((e : ℝ) + 1) * F.h)) (((e : ℝ) + 1) * F.h)
        · rw [if_pos hsn]
          obtain ⟨u1, u2⟩ := r2 hsn.1 hsn.2
          rw [u1, u2, sub_self, show ((e : ℝ) + 1) * F.h - (e : ℝ) * F.h = F.h by ring]
          refine ⟨fun k hk => by rw [List.mem_singleton.1 hk]; trivial, ?_⟩
          simp [Load.work, Load.intensity, Load.forces, Load.couplesAt]
        · rw [if_neg hsn]
          generalize max a ((e : ℝ) * F.h) = lo at *
          generalize min (a + c) (((e : ℝ) + 1) * F.h) = hi at *
          refine ⟨fun k hk => by rw [List.mem_singleton.1 hk]; trivial, ?_⟩
          simp only [List.map_cons, List.map_nil, List.sum_singleton, Load.work, Load.forces,
            Load.couplesAt, List.sum_nil, sub_zero, add_zero]
          rw [pudl_integral (by linarith) (by linarith) (by linarith),
            show lo - (e : ℝ) * F.h + (hi - lo) = hi - (e : ℝ) * F.h by ring]
      · push Not at hlt
        have : ¬ 1 / 10 ^ 12 * F.L < min (a + c) (((e : ℝ) + 1) * F.h) - max a ((e : ℝ) * F.h) := by
          have : 0 < 1 / 10 ^ 12 * F.L := by positivity
          linarith
        rw [if_neg this, p2 hlt]
        simp
    have s1 := sum_clampIn G hh.le (by linarith : 0 ≤ a + c) F.n
    have s2 := sum_clampIn G hh.le h0 F.n
    rw [hnh, min_eq_left h1] at s1
    rw [hnh, min_eq_left (by linarith : a ≤ F.L)] at s2
    refine ⟨?_, ?_⟩
    · intro e k hk
      rw [← h] at hk
      dsimp only at hk
      split at hk
      · split at hk
        · rw [List.mem_singleton.1 hk]; trivial
        · rw [List.mem_singleton.1 hk]; trivial
      · cases hk
    · rw [Finset.sum_congr rfl fun e he => (key e (Finset.mem_range.1 he)).2,
        Finset.sum_neg_distrib, ← Finset.mul_sum]
      have e1 := congrArg₂ (· - ·) s1 s2
      simp only [← Finset.sum_sub_distrib] at e1
      rw [Finset.sum_congr rfl fun e _ => by rw [← sub_sub_sub_cancel_right _ _ (G ((e : ℝ) * F.h))],
        e1]
      simp only [Load.work, Load.forces, Load.couplesAt, List.map_nil, List.sum_nil, sub_zero, add_zero]
      rw [pudl_integral h0 hc h1, ← intervalIntegral.integral_interval_sub_left
        (hint _ ⟨by linarith, h1⟩) (hint a ⟨h0, by linarith⟩)]
      simp only [hG, intervalIntegral.integral_same]
      ring
  | _ => cases h

theorem Found.subLoads_work (F : Found ℝ) (hn : 0 < F.n) (hL : 0 < F.L) (loads : List (Load ℝ))
    (hon : ∀ l ∈ loads, l.OnSpan F.L) (hcl : ∀ l ∈ loads, F.Clear l) (per : ℕ → List (Load ℝ))
    (h : F.subLoads loads = .ok per) (D : ℕ → ℝ) (θ : ℝ → ℝ) :
    (∀ e, ∀ k ∈ per e, k.Simple) ∧
    ∑ e ∈ range F.n, ((per e).map fun k => k.work F.h (cubic F.h (elemVec D e)) θ).sum
      = (loads.map fun l => l.work F.L (F.line D) θ).sum := by
  induction loads generalizing per with
  | nil =>
    cases h
    simp
  | cons l ls ih =>
    simp only [Found.subLoads] at h
    split at h
    · cases h
    rename_i p hp
    split at h
    · cases h
    rename_i q hq
    cases h
    obtain ⟨a1, a2⟩ := F.subLoad_work hn hL l (hon l (by simp)) (hcl l (by simp)) p hp D θ
    obtain ⟨b1, b2⟩ := ih (fun l hl => hon l (by simp [hl])) (fun l hl => hcl l (by simp [hl])) q hq
    refine ⟨?_, ?_⟩
    · intro e k hk
      rcases List.mem_append.1 hk with hk | hk
      · exact a1 e k hk
      · exact b1 e k hk
    · simp only [List.map_append, List.sum_append, Finset.sum_add_distrib, List.map_cons, List.sum_cons]
      rw [a2, b2]

/-! ### Work of one member -/

/-- The end forces of a foundation member do on other end displacements the work of the forces
in its mesh. -/
theorem FoundEl.ends_work (F : Found ℝ) (hn : 0 < F.n) (inv : Inverter ℝ) (hS : inv.Sound)
    (E : FoundEl ℝ) (hE : F.build inv = .ok E) (refs : List (Vec4 ℝ)) (hl : refs.length = F.n)
    (dr dr' : Vec4 ℝ) (u : ℕ → ℝ) (hu : ∀ a, u (![0, 1, 2 * F.n, 2 * F.n + 1] a) = dr' a) :
    dr' ⬝ᵥ (E.k *ᵥ dr + E.refOf refs)
      = ∑ e ∈ range F.n, elemVec u e ⬝ᵥ (F.sys refs).endForces (E.mesh refs dr) e := by
  obtain ⟨-, q2, q3, q4⟩ := C64_mesh_equilibrium F hn inv hS E hE refs hl dr
  set G := E.k *ᵥ dr + E.refOf refs with hG
  set f : ℕ → Vec4 ℝ := fun e => (F.sys refs).endForces (E.mesh refs dr) e with hf
  obtain ⟨m, hm⟩ : ∃ m, F.n = m + 1 := ⟨F.n - 1, by omega⟩
  have c00 : f 0 0 = G 0 := q3 0
  have c01 : f 0 1 = G 1 := q3 1
  have c12 : f m 2 = G 2 := by
    have := q4 0
    rw [show F.n - 1 = m by omega] at this
    exact this
  have c13 : f m 3 = G 3 := by
    have := q4 1
    rw [show F.n - 1 = m by omega] at this
    exact this
  have j0 : ∀ j, 0 < j → j < m + 1 → f (j - 1) 2 + f j 0 = 0 := fun j h0 hj => q2 j h0 (by omega) 0
  have j1 : ∀ j, 0 < j → j < m + 1 → f (j - 1) 3 + f j 1 = 0 := fun j h0 hj => q2 j h0 (by omega) 1
  have t := tele_ends (fun e => u (2 * e) * f e 0 + u (2 * e + 1) * f e 1)
    (fun e => u (2 * e + 2) * f e 2 + u (2 * e + 3) * f e 3) m (by
      intro j h0 hj
      have a0 := j0 j h0 hj
      have a1 := j1 j h0 hj
      rw [show 2 * (j - 1) + 2 = 2 * j by omega, show 2 * (j - 1) + 3 = 2 * j + 1 by omega]
      linear_combination u (2 * j) * a0 + u (2 * j + 1) * a1)
  have u0 : u 0 = dr' 0 := hu 0
  have u1 : u 1 = dr' 1 := hu 1
  have u2 : u (2 * m + 2) = dr' 2 := by
    have := hu 2
    simp only [Matrix.cons_val] at this
    rw [← this]; congr 1; omega
  have u3 : u (2 * m + 3) = dr' 3 := by
    have := hu 3
    simp only [Matrix.cons_val] at this
    rw [← this]; congr 1; omega
  simp only [mul_zero, zero_add] at t
  rw [c00, c01, c12, c13, u0, u1, u2, u3] at t
  rw [dot4, hm]
  rw [show dr' 0 * G 0 + dr' 1 * G 1 + dr' 2 * G 2 + dr' 3 * G 3
    = dr' 0 * G 0 + dr' 1 * G 1 + (dr' 2 * G 2 + dr' 3 * G 3) by ring, ← t]
  refine Finset.sum_congr rfl fun e _ => ?_
  rw [dot4]
  simp only [elemVec]
  simp
  ring

theorem symm_dot {A : Mat4 ℝ} (hA : Aᵀ = A) (u v : Vec4 ℝ) : u ⬝ᵥ (A *ᵥ v) = v ⬝ᵥ (A *ᵥ u) := by
  rw [dotProduct_mulVec, ← mulVec_transpose, hA, dotProduct_comm]

/-- The work of the loads of member `i` on displacements `d` of the nodes: on a foundation
member, of the loads where they stand, through the deflection `w` along the member; on any
other member, of the equivalent end forces, minus the fixed-end forces `c` of the loads. -/
noncomputable def FBeam.memberWork (b : FBeam) (i : ℕ) (c : CNL ℝ) (ls : List (SpanLoad ℝ))
    (d : ℕ → ℝ) (w : ℝ → ℝ) : ℝ :=
  if (b.kfAt i).isNone then -c.vec ⬝ᵥ (fun a : Fin 4 => d (2 * i + a))
  else ((ownLoads i ls).map fun l => l.work (b.spanL i) w (deriv w)).sum

/-- Two load cases on one member. -/
theorem FBeam.member_reciprocity (b : FBeam) (LM1 LM2 : List (Row ℝ)) (hgood : ∀ m ∈ b.members, m.Good)
    (inv : Inverter ℝ) (hS : inv.Sound) {s1 s2 : System ℝ}
    (h1 : ({ b with LM := LM1 } : FBeam).system inv = .ok s1)
    (h2 : ({ b with LM := LM2 } : FBeam).system inv = .ok s2)
    (ls1 ls2 : List (SpanLoad ℝ))
    (hl1 : ({ b with LM := LM1 } : FBeam).setLoads = .ok ls1)
    (hl2 : ({ b with LM := LM2 } : FBeam).setLoads = .ok ls2)
    (hp1 : b.LoadsClear inv ls1) (hp2 : b.LoadsClear inv ls2) (res1 res2 : Result ℝ)
    (i : ℕ) (hi : i < b.members.length) (c1 c2 : CNL ℝ)
    (hc1 : b.kfAt i = none → b.members[i].refSum i ls1 = .ok c1)
    (hc2 : b.kfAt i = none → b.members[i].refSum i ls2 = .ok c2) (w1 w2 : ℝ → ℝ)
    (hw1 : b.IsLine inv ls1 res1 i w1) (hw2 : b.IsLine inv ls2 res2 i w2) :
    elemVec res2.d i ⬝ᵥ s1.endForces res1.d i + b.memberWork i c1 ls1 res2.d w2
      = elemVec res1.d i ⬝ᵥ s2.endForces res2.d i + b.memberWork i c2 ls2 res1.d w1 := by
  rcases hkf : b.kfAt i with _ | k
  · obtain ⟨-, k1, ⟨l1, m1, f1⟩, -⟩ := FBeam.system_ok h1
    obtain ⟨-, k2, ⟨l2, m2, f2⟩, -⟩ := FBeam.system_ok h2
    obtain rfl : l1 = ls1 := by rw [hl1] at m1; exact (Except.ok.inj m1).symm
    obtain rfl : l2 = ls2 := by rw [hl2] at m2; exact (Except.ok.inj m2).symm
    have k1 := k1 i hi
    have k2 := k2 i hi
    have f1 := f1 i hi
    have f2 := f2 i hi
    have q1 : ({ b with LM := LM1 } : FBeam).kfAt i = none := hkf
    have q2 : ({ b with LM := LM2 } : FBeam).kfAt i = none := hkf
    rw [q1] at k1 f1
    rw [q2] at k2 f2
    simp only [spanKf] at k1 k2
    simp only [spanRef, hc1 hkf, hc2 hkf] at f1 f2
    have e1 : s1.ref i = c1.vec := (Except.ok.inj f1).symm
    have e2 : s2.ref i = c2.vec := (Except.ok.inj f2).symm
    have e3 : s2.kb i = s1.kb i := Except.ok.inj (k2.symm.trans k1)
    have hsym : (s1.kb i)ᵀ = s1.kb i := by
      ext p q
      exact C11_stiffness_symmetric _ _ k1 q p
    simp only [FBeam.memberWork, hkf, Option.isNone_none, if_true, System.endForces, e1, e2, e3,
      dotProduct_add, neg_dotProduct]
    rw [symm_dot hsym, dotProduct_comm (elemVec res2.d i) c1.vec,
      dotProduct_comm (elemVec res1.d i) c2.vec]
    unfold elemVec
    ring
  · have q1 : ({ b with LM := LM1 } : FBeam).kfAt i = some k := hkf
    have q2 : ({ b with LM := LM2 } : FBeam).kfAt i = some k := hkf
    obtain ⟨E, r1, per1, hE, hr1, hn, hb, len1, -, hEL, -, -, kb1, ref1, hper1, hpc1⟩ :=
      FBeam.member_mesh { b with LM := LM1 } inv h1 ls1 hl1 i hi k q1
    obtain ⟨E', r2, per2, hE', hr2, -, -, len2, -, -, -, -, kb2, ref2, hper2, hpc2⟩ :=
      FBeam.member_mesh { b with LM := LM2 } inv h2 ls2 hl2 i hi k q2
    have hEE : E' = E := by
      have : spanFoundation inv b.members[i] k = .ok E' := hE'
      rw [show spanFoundation inv b.members[i] k = .ok E from hE] at this
      exact (Except.ok.inj this).symm
    subst hEE
    obtain ⟨E1, r1', x1, x2, rfl⟩ := hw1 hi k hkf
    obtain ⟨E2, r2', y1, y2, rfl⟩ := hw2 hi k hkf
    obtain rfl : E1 = E' := by
      rw [show spanFoundation inv b.members[i] k = .ok E' from hE] at x1
      exact (Except.ok.inj x1).symm
    obtain rfl : E2 = E1 := by
      rw [show spanFoundation inv b.members[i] k = .ok E1 from hE] at y1
      exact (Except.ok.inj y1).symm
    obtain rfl : r1' = r1 := by rw [hr1] at x2; exact (Except.ok.inj x2).symm
    obtain rfl : r2' = r2 := by rw [hr2] at y2; exact (Except.ok.inj y2).symm
    have hL : 0 < b.members[i].L := (hgood _ (List.getElem_mem hi)).1
    have hEL : E2.L = b.members[i].L := hEL
    have hLE : b.spanL i = E2.L := by rw [b.spanL_eq i hi, hEL]
    have hL' : 0 < E2.L := by rw [hEL]; exact hL
    have hh := E2.h_pos hn hL'
    have hown : ∀ ls, b.LoadsClear inv ls → ∀ l ∈ ownLoads i ls, l.OnSpan E2.L ∧ E2.Clear l := by
      intro ls hpl l hl
      obtain ⟨l', hl1, rfl⟩ := List.mem_map.1 hl
      obtain ⟨hl2, hl3⟩ := List.mem_filter.1 hl1
      have hli : l'.iSpan = (i : ℤ) := by simpa using hl3
      obtain ⟨_, _, _, h4⟩ := hpl l' hl2
      rw [hli, Int.toNat_natCast] at h4
      obtain ⟨h5, h6⟩ := h4 k hkf
      exact ⟨hLE ▸ h5, h6 hi E2 hE⟩
    have m1 := (C64_mesh_equilibrium E2.toFound hn inv hS E2 hb r1' len1 (elemVec res1.d i)).1
    have m2 := (C64_mesh_equilibrium E2.toFound hn inv hS E2 hb r2' len2 (elemVec res2.d i)).1
    set D1 := E2.mesh r1' (elemVec res1.d i) with hD1
    set D2 := E2.mesh r2' (elemVec res2.d i) with hD2
    have F1 : s1.endForces res1.d i = E2.k *ᵥ elemVec res1.d i + E2.refOf r1' := by
      rw [System.endForces, kb1, ref1]
    have F2 : s2.endForces res2.d i = E2.k *ᵥ elemVec res2.d i + E2.refOf r2' := by
      rw [System.endForces, kb2, ref2]
    rw [F1, F2, FoundEl.ends_work E2.toFound hn inv hS E2 hb r1' len1 _ _ D2 m2,
      FoundEl.ends_work E2.toFound hn inv hS E2 hb r2' len2 _ _ D1 m1, ← hD1, ← hD2]
    obtain ⟨sm1, wk1⟩ := E2.subLoads_work hn hL' _ (fun l hl => (hown ls1 hp1 l hl).1)
      (fun l hl => (hown ls1 hp1 l hl).2) per1 hper1 D2 (deriv (E2.line D2))
    obtain ⟨sm2, wk2⟩ := E2.subLoads_work hn hL' _ (fun l hl => (hown ls2 hp2 l hl).1)
      (fun l hl => (hown ls2 hp2 l hl).2) per2 hper2 D1 (deriv (E2.line D1))
    have on1 := (C64_loads_partial E2.toFound hn hL' _ (fun l hl => (hown ls1 hp1 l hl).1)
      (fun l hl => (hown ls1 hp1 l hl).2) per1 hper1).1
    have on2 := (C64_loads_partial E2.toFound hn hL' _ (fun l hl => (hown ls2 hp2 l hl).1)
      (fun l hl => (hown ls2 hp2 l hl).2) per2 hper2).1
    simp only [FBeam.memberWork, hkf, Option.isNone_some, Bool.false_eq_true, if_false, hLE]
    rw [← wk1, ← wk2, ← Finset.sum_add_distrib, ← Finset.sum_add_distrib]
    refine Finset.sum_congr rfl fun e he => ?_
    have he' := Finset.mem_range.1 he
    have p1 := pieceRef_work hh _ (sm1 e) (on1 e he') _ (hpc1 e he') (elemVec D2 e)
      (deriv (E2.line D2))
    have p2 := pieceRef_work hh _ (sm2 e) (on2 e he') _ (hpc2 e he') (elemVec D1 e)
      (deriv (E2.line D1))
    simp only [System.endForces, Found.sys, dotProduct_add]
    rw [p1, p2, symm_dot (E2.ke_symm hh.ne')]
    ring

/-- In a solution with unmoved supports the end forces and the springs do no work on the
displacements of another. -/
theorem System.ends_balance (s : System ℝ) (d u : ℕ → ℝ)
    (h : ∀ p < s.N, u p = 0 ∨ s.residual d p = 0) :
    ∑ i ∈ range s.n, elemVec u i ⬝ᵥ s.endForces d i + ∑ p ∈ range s.N, s.spring p * u p * d p = 0 := by
  have h1 : ∑ p ∈ range s.N, u p * s.residual d p = 0 :=
    Finset.sum_eq_zero fun p hp => by
      rcases h p (Finset.mem_range.1 hp) with e | e <;> rw [e] <;> ring
  have h2 := s.virtual_work u d
  have h3 := s.forces_work u
  simp only [System.residual, mul_sub, Finset.sum_sub_distrib] at h1
  simp only [System.endForces, dotProduct_add, Finset.sum_add_distrib]
  linarith

/-- **C116**: for two load cases on one beam with foundation members, whose rigid supports do
not move, the loads of the first do the same work on the deflection of the second as those of
the second on the deflection of the first: on foundation members the loads at the places
where they act, through the deflection recovered along the member; on other members the
equivalent end forces (as in C22). -/
theorem C116_reciprocity (b : FBeam) (LM1 LM2 : List (Row ℝ)) (hgood : ∀ m ∈ b.members, m.Good)
    (hpr : ∀ (i : ℕ) (v : ℝ), b.presc[i]? = some (some v) → v = 0)
    (inv : Inverter ℝ) (hS : inv.Sound) (stable1 stable2 : System ℝ → Bool)
    (solve1 solve2 : Solver ℝ) (hs1 : solve1.Sound) (hs2 : solve2.Sound) (res1 res2 : Result ℝ)
    (h1 : ({ b with LM := LM1 } : FBeam).analyze inv stable1 solve1 = .ok res1)
    (h2 : ({ b with LM := LM2 } : FBeam).analyze inv stable2 solve2 = .ok res2)
    (ls1 ls2 : List (SpanLoad ℝ)) (hl1 : parseLM LM1 = .ok ls1) (hl2 : parseLM LM2 = .ok ls2)
    (hp1 : b.LoadsClear inv ls1) (hp2 : b.LoadsClear inv ls2)
    (c1 c2 : ℕ → CNL ℝ)
    (hc1 : ∀ i (hi : i < b.members.length), b.kfAt i = none → b.members[i].refSum i ls1 = .ok (c1 i))
    (hc2 : ∀ i (hi : i < b.members.length), b.kfAt i = none → b.members[i].refSum i ls2 = .ok (c2 i))
    (w1 w2 : ℕ → ℝ → ℝ) (hw1 : ∀ i < b.members.length, b.IsLine inv ls1 res1 i (w1 i))
    (hw2 : ∀ i < b.members.length, b.IsLine inv ls2 res2 i (w2 i)) :
    ∑ i ∈ range b.members.length, b.memberWork i (c1 i) ls1 res2.d (w2 i)
      = ∑ i ∈ range b.members.length, b.memberWork i (c2 i) ls2 res1.d (w1 i) := by
  obtain ⟨s1, e1, a1⟩ := FBeam.analyze_ok h1
  obtain ⟨s2, e2, a2⟩ := FBeam.analyze_ok h2
  obtain ⟨n1, -, ⟨l1, m1, -⟩, r1, q1, -⟩ := FBeam.system_ok e1
  obtain ⟨n2, -, ⟨l2, m2, -⟩, r2, q2, -⟩ := FBeam.system_ok e2
  obtain ⟨⟨i1, i1'⟩, -⟩ := System.analyze_ok hs1 a1
  obtain ⟨⟨i2, i2'⟩, -⟩ := System.analyze_ok hs2 a2
  simp only at n1 r1 q1 n2 r2 q2
  have g : ∀ {LM ls l}, parseLM LM = .ok ls → ({ b with LM := LM } : FBeam).setLoads = .ok l →
      ({ b with LM := LM } : FBeam).setLoads = .ok ls := by
    intro LM ls l hls hl
    have hl' := hl
    unfold BeamDef.setLoads at hl'
    simp only at hl'
    rw [hls] at hl'
    simp only at hl'
    split at hl'
    · rw [hl]; exact hl'.symm
    · cases hl'
  have N1 : s1.N = 2 * b.members.length + 2 := by simp [System.N, n1]
  have N2 : s2.N = 2 * b.members.length + 2 := by simp [System.N, n2]
  have hz : ∀ p, ∀ v, s1.constr p = some v → v = 0 := by
    intro p v hv
    simp only [System.constr, q1, List.getD_eq_getElem?_getD] at hv
    rcases hq : b.presc[p]? with _ | (_ | w)
    · simp [hq] at hv; exact hv.2.symm
    · simp [hq] at hv; exact hv.2.symm
    · simp [hq] at hv
      rw [← hv]
      exact hpr p w hq
  have hc : ∀ p, s2.constr p = s1.constr p := by
    intro p
    simp only [System.constr, q1, q2, r1, r2]
  have b1 := s1.ends_balance res1.d res2.d fun p hp => by
    rcases hv : s1.constr p with _ | v
    · exact Or.inr (i1' p hp hv)
    · have hv2 := hv
      rw [← hc] at hv2
      exact Or.inl (by rw [i2 p (by omega) v hv2, hz p v hv])
  have b2 := s2.ends_balance res2.d res1.d fun p hp => by
    rcases hv : s1.constr p with _ | v
    · have hv2 := hv
      rw [← hc] at hv2
      exact Or.inr (i2' p hp hv2)
    · exact Or.inl (by rw [i1 p (by omega) v hv, hz p v hv])
  have hsp : ∀ p, s2.spring p = s1.spring p := by
    intro p
    simp only [System.spring, r1, r2]
  rw [N1, n1] at b1
  rw [N2, n2] at b2
  have b3 : ∑ p ∈ range (2 * b.members.length + 2), s2.spring p * res1.d p * res2.d p
      = ∑ p ∈ range (2 * b.members.length + 2), s1.spring p * res2.d p * res1.d p :=
    Finset.sum_congr rfl fun p _ => by rw [hsp]; ring
  have key := Finset.sum_congr rfl fun i hi => FBeam.member_reciprocity b LM1 LM2 hgood inv hS e1 e2
    ls1 ls2 (g hl1 m1) (g hl2 m2) hp1 hp2 res1 res2 i (Finset.mem_range.1 hi) (c1 i) (c2 i)
    (hc1 i (Finset.mem_range.1 hi)) (hc2 i (Finset.mem_range.1 hi)) (w1 i) (w2 i)
    (hw1 i (Finset.mem_range.1 hi)) (hw2 i (Finset.mem_range.1 hi))
  simp only [Finset.sum_add_distrib] at key
  linarith

theorem FBeam.line_exists (b : FBeam) (inv : Inverter ℝ) {s : System ℝ} (h : b.system inv = .ok s)
    (ls : List (SpanLoad ℝ)) (hl : b.setLoads = .ok ls) (res : Result ℝ) (i : ℕ) :
    ∃ w, b.IsLine inv ls res i w := by
  by_cases hi : i < b.members.length
  · rcases hk : b.kfAt i with _ | k
    · exact ⟨fun _ => 0, fun _ k hk' => by rw [hk] at hk'; cases hk'⟩
    · obtain ⟨E, refs, per, hE, hr, -⟩ := b.member_mesh inv h ls hl i hi k hk
      refine ⟨E.line (E.mesh refs (elemVec res.d i)), fun _ k' hk' => ?_⟩
      rw [hk] at hk'
      cases hk'
      exact ⟨E, refs, hE, hr, rfl⟩
  · exact ⟨fun _ => 0, fun hi' => absurd hi' hi⟩

theorem FBeam.line_unique {b : FBeam} {inv : Inverter ℝ} {ls : List (SpanLoad ℝ)} {res : Result ℝ}
    {i : ℕ} (hi : i < b.members.length) (hk : (b.kfAt i).isSome) {w w' : ℝ → ℝ}
    (h : b.IsLine inv ls res i w) (h' : b.IsLine inv ls res i w') : w = w' := by
  obtain ⟨k, hk⟩ := Option.isSome_iff_exists.1 hk
  obtain ⟨E, r, e1, e2, rfl⟩ := h hi k hk
  obtain ⟨E', r', e3, e4, rfl⟩ := h' hi k hk
  rw [e1] at e3
  cases e3
  rw [e2] at e4
  cases e4
  rfl

/-- Work of a single point load. -/
theorem FBeam.memberWork_pl (b : FBeam) (i j : ℕ) (hk : (b.kfAt i).isSome) (P x : ℝ) (d : ℕ → ℝ)
    (w : ℝ → ℝ) : b.memberWork j ⟨0, 0, 0, 0⟩ [⟨i, .pl P x⟩] d w = if j = i then -(P * w x) else 0 := by
  have hv : (⟨0, 0, 0, 0⟩ : CNL ℝ).vec = 0 := by ext a; fin_cases a <;> rfl
  by_cases hji : j = i
  · subst hji
    have hn : (b.kfAt j).isNone = false := by simpa [Option.isSome_iff_ne_none] using hk
    rw [FBeam.memberWork, hn, if_pos rfl]
    simp [ownLoads, Load.work, Load.intensity, Load.forces, Load.couplesAt]
  · rw [if_neg hji, FBeam.memberWork]
    split
    · rw [hv]; simp
    · have : ¬ i = j := fun h => hji h.symm
      simp [ownLoads, this]

/-- **C116**, for two point loads (Maxwell): the deflection, per unit of load, at the first
place due to a load at the second is that at the second place due to a load at the first. -/
theorem C116_maxwell (b : FBeam) (LM1 LM2 : List (Row ℝ)) (hgood : ∀ m ∈ b.members, m.Good)
    (hpr : ∀ (i : ℕ) (v : ℝ), b.presc[i]? = some (some v) → v = 0)
    (inv : Inverter ℝ) (hS : inv.Sound) (stable1 stable2 : System ℝ → Bool)
    (solve1 solve2 : Solver ℝ) (hs1 : solve1.Sound) (hs2 : solve2.Sound) (res1 res2 : Result ℝ)
    (h1 : ({ b with LM := LM1 } : FBeam).analyze inv stable1 solve1 = .ok res1)
    (h2 : ({ b with LM := LM2 } : FBeam).analyze inv stable2 solve2 = .ok res2)
    (i j : ℕ) (hi : i < b.members.length) (hj : j < b.members.length)
    (hki : (b.kfAt i).isSome) (hkj : (b.kfAt j).isSome) (P Q x y : ℝ)
    (hl1 : parseLM LM1 = .ok [⟨i, .pl P x⟩]) (hl2 : parseLM LM2 = .ok [⟨j, .pl Q y⟩])
    (hx : 0 ≤ x ∧ x ≤ b.members[i].L) (hy : 0 ≤ y ∧ y ≤ b.members[j].L)
    (w1 w2 : ℝ → ℝ) (hw1 : b.IsLine inv [⟨i, .pl P x⟩] res1 j w1)
    (hw2 : b.IsLine inv [⟨j, .pl Q y⟩] res2 i w2) : P * w2 x = Q * w1 y := by
  obtain ⟨s1, e1, -⟩ := FBeam.analyze_ok h1
  obtain ⟨s2, e2, -⟩ := FBeam.analyze_ok h2
  have g : ∀ {LM ls s}, parseLM LM = .ok ls → ({ b with LM := LM } : FBeam).system inv = .ok s →
      ({ b with LM := LM } : FBeam).setLoads = .ok ls := by
    intro LM ls s hls hs
    obtain ⟨-, -, ⟨l, hl, -⟩, -⟩ := FBeam.system_ok hs
    have hl' := hl
    unfold BeamDef.setLoads at hl'
    simp only at hl'
    rw [hls] at hl'
    simp only at hl'
    split at hl'
    · rw [hl]; exact hl'.symm
    · cases hl'
  choose v1 hv1 using fun q => FBeam.line_exists { b with LM := LM1 } inv e1 _ (g hl1 e1) res1 q
  choose v2 hv2 using fun q => FBeam.line_exists { b with LM := LM2 } inv e2 _ (g hl2 e2) res2 q
  have hclear : ∀ (n : ℕ) (hn : n < b.members.length) (R z : ℝ), (b.kfAt n).isSome →
      0 ≤ z ∧ z ≤ b.members[n].L → b.LoadsClear inv [⟨n, .pl R z⟩] := by
    intro n hn R z hk hz l hl
    rw [List.mem_singleton.1 hl]
    refine ⟨Int.natCast_nonneg n, by simpa using hn, ?_, ?_⟩
    · intro h0
      simp only [Int.toNat_natCast] at h0
      rw [h0] at hk
      cases hk
    · intro k _
      simp only [Int.toNat_natCast]
      rw [b.spanL_eq n hn]
      exact ⟨hz, fun _ _ _ => trivial⟩
  have hzero : ∀ (n : ℕ) (R z : ℝ), (b.kfAt n).isSome → ∀ q (hq : q < b.members.length),
      b.kfAt q = none → b.members[q].refSum q [⟨n, .pl R z⟩] = .ok ⟨0, 0, 0, 0⟩ := by
    intro n R z hk q hq h0
    have : ¬ n = q := by
      rintro rfl
      rw [h0] at hk
      cases hk
    simp [Member.refSum, this]
  have := C116_reciprocity b LM1 LM2 hgood hpr inv hS stable1 stable2 solve1 solve2 hs1 hs2 res1 res2
    h1 h2 _ _ hl1 hl2 (hclear i hi P x hki hx) (hclear j hj Q y hkj hy) (fun _ => ⟨0, 0, 0, 0⟩)
    (fun _ => ⟨0, 0, 0, 0⟩) (hzero i P x hki) (hzero j Q y hkj) v1 v2 (fun q _ => hv1 q)
    (fun q _ => hv2 q)
  simp only [b.memberWork_pl i _ hki, b.memberWork_pl j _ hkj] at this
  rw [Finset.sum_ite_eq' , Finset.sum_ite_eq', if_pos (Finset.mem_range.2 hi),
    if_pos (Finset.mem_range.2 hj), FBeam.line_unique hi hki (hv2 i) hw2,
    FBeam.line_unique hj hkj (hv1 j) hw1] at this
  linarith

theorem exFloat_system_pl (P a : ℝ) (ha : 0 ≤ a ∧ a ≤ 2) :
    ∃ s, ({ exFloat with LM := [⟨1, 2, [P, a]⟩] } : FBeam).system anyInverter = .ok s := by
  refine exFloat_system_gen [⟨1, 2, [P, a]⟩] [⟨0, .pl P a⟩]
    (by simp [BeamDef.setLoads, exFloat, parseLM, parseRow]) (fun E hE => ?_) ⟨_, rfl⟩
  obtain ⟨hn, -⟩ := spanFoundation_ok hE
  obtain ⟨-, -, -, hEL, -⟩ := C64_scope _ _ _ E hE
  have hEL : E.L = 2 := hEL
  obtain ⟨i, -, hi', -, -⟩ := E.pl_piece hn (by rw [hEL]; norm_num) ha.1 (by rw [hEL]; exact ha.2)
  have : ownLoads 0 [⟨0, .pl P a⟩] = [Load.pl P a] := by simp [ownLoads]
  rw [this]
  simp only [Found.refs, Found.subLoads, Found.subLoad_pl _ _ _ hi']
  refine mapE_of_ok _ fun e _ => ?_
  by_cases he : e = i
  · simp [he, pieceRef, Load.getRef, Load.getCnl]
  · simp [he, pieceRef]

/-- `C116_maxwell` at the floating span: a force of 3 at 0.5 and a force of 7 at 1.8. -/
example : ∃ (solve1 solve2 : Solver ℝ) (res1 res2 : Result ℝ) (w1 w2 : ℝ → ℝ),
    ({ exFloat with LM := [⟨1, 2, [3, 0.5]⟩] } : FBeam).analyze anyInverter (fun _ => true) solve1
      = .ok res1 ∧
    ({ exFloat with LM := [⟨1, 2, [7, 1.8]⟩] } : FBeam).analyze anyInverter (fun _ => true) solve2
      = .ok res2 ∧
    exFloat.IsLine anyInverter [⟨0, .pl 3 0.5⟩] res1 0 w1 ∧
    exFloat.IsLine anyInverter [⟨0, .pl 7 1.8⟩] res2 0 w2 ∧ 3 * w2 0.5 = 7 * w1 1.8 := by
  obtain ⟨s1, h1⟩ := exFloat_system_pl 3 0.5 (by norm_num)
  obtain ⟨s2, h2⟩ := exFloat_system_pl 7 1.8 (by norm_num)
  obtain ⟨-, v1, a1, x1, b1⟩ := exFloat_completes _ s1 h1
  obtain ⟨-, v2, a2, x2, b2⟩ := exFloat_completes _ s2 h2
  have p1 : parseLM [⟨1, 2, [3, 0.5]⟩] = .ok [⟨((0 : ℕ) : ℤ), .pl (3 : ℝ) 0.5⟩] := by
    simp [parseLM, parseRow]
  have p2 : parseLM [⟨1, 2, [7, 1.8]⟩] = .ok [⟨((0 : ℕ) : ℤ), .pl (7 : ℝ) 1.8⟩] := by
    simp [parseLM, parseRow]
  obtain ⟨w1, hw1⟩ := FBeam.line_exists { exFloat with LM := [⟨1, 2, [3, 0.5]⟩] } anyInverter h1
    [⟨0, .pl 3 0.5⟩] (by simp [BeamDef.setLoads, exFloat, parseLM, parseRow]) x1 0
  obtain ⟨w2, hw2⟩ := FBeam.line_exists { exFloat with LM := [⟨1, 2, [7, 1.8]⟩] } anyInverter h2
    [⟨0, .pl 7 1.8⟩] (by simp [BeamDef.setLoads, exFloat, parseLM, parseRow]) x2 0
  refine ⟨v1, v2, x1, x2, w1, w2, b1, b2, hw1, hw2, ?_⟩
  refine C116_maxwell exFloat _ _ (fun m hm => (exFloat_good m hm).1) ?_ anyInverter anyInverter_sound
    (fun _ => true) (fun _ => true) v1 v2 a1 a2 x1 x2 b1 b2 0 0 (by simp [exFloat]) (by simp [exFloat])
    (by simp [FBeam.kfAt, exFloat]) (by simp [FBeam.kfAt, exFloat]) 3 7 0.5 1.8 p1 p2 ?_ ?_ w1 w2 hw1 hw2
  · intro i v h
    rcases i with _ | _ | _ | _ | _ | _ | i <;> simp [exFloat] at h
  · simp [exFloat]; norm_num
  · simp [exFloat]; norm_num

end PyCBA
