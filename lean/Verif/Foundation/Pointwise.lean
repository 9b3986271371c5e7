import Verif.Foundation.Accuracy

/-!
C149 at every point of a foundation member, and with a bound of the shear.
-/

set_option linter.unusedSectionVars false
set_option linter.unusedSimpArgs false

namespace PyCBA

open Matrix Finset MeasureTheory

/-- A function is bounded by its square integral and that of its curvature. -/
theorem sup_bound {e t c : ℝ → ℝ} {L : ℝ} (hL : 0 < L) (he : SlopeOn e t 0 L) (ht : SlopeOn t c 0 L)
    (hc : IntervalIntegrable c volume 0 L) (hc2 : IntervalIntegrable (fun x => c x ^ 2) volume 0 L)
    {x : ℝ} (hx : x ∈ Set.Icc 0 L) :
    e x ^ 2 ≤ 16 / L * (∫ x in (0 : ℝ)..L, e x ^ 2) + 18 * L ^ 3 * ∫ x in (0 : ℝ)..L, c x ^ 2 := by
  set A := ∫ x in (0 : ℝ)..L, e x ^ 2 with hA
  set B := ∫ x in (0 : ℝ)..L, c x ^ 2 with hB
  have hB0 : 0 ≤ B := intervalIntegral.integral_nonneg hL.le fun x _ => sq_nonneg _
  set b := Real.sqrt (L * B) with hb
  have hb2 : b ^ 2 = L * B := Real.sq_sqrt (by positivity)
  have hb0 : 0 ≤ b := Real.sqrt_nonneg _
  have sub : ∀ y z, 0 ≤ y → y ≤ z → z ≤ L → Set.uIcc y z ⊆ Set.uIcc 0 L := by
    intro y z h1 h2 h3
    rw [Set.uIcc_of_le h2, Set.uIcc_of_le hL.le]
    exact Set.Icc_subset_Icc h1 h3
  have step1' : ∀ y z, 0 ≤ y → y ≤ z → z ≤ L → |t z - t y| ≤ b := by
    intro y z h1 h2 h3
    have i1 := hc.mono_set (sub y z h1 h2 h3)
    have i2 := hc2.mono_set (sub y z h1 h2 h3)
    have q := sq_integral_le h2 i1 i2
    rw [(ht.mono h1 h3).integral h2 i1] at q
    have q2 : ∫ x in y..z, c x ^ 2 ≤ B := intervalIntegral.integral_mono_interval h1 h2 h3
      (Filter.Eventually.of_forall fun x => sq_nonneg _) hc2
    have q3 : 0 ≤ ∫ x in y..z, c x ^ 2 := intervalIntegral.integral_nonneg h2 fun x _ => sq_nonneg _
    apply Real.abs_le_sqrt
    calc (t z - t y) ^ 2 ≤ (z - y) * ∫ x in y..z, c x ^ 2 := q
      _ ≤ L * B := mul_le_mul (by linarith) q2 q3 hL.le
  have step1 : ∀ y ∈ Set.Icc 0 L, ∀ z ∈ Set.Icc 0 L, |t z - t y| ≤ b := by
    intro y hy z hz
    rcases le_total y z with h | h
    · exact step1' y z hy.1 h hz.2
    · rw [abs_sub_comm]; exact step1' z y hz.1 h hy.2
  have tint : ∀ y z, 0 ≤ y → y ≤ z → z ≤ L → IntervalIntegrable t volume y z := by
    intro y z h1 h2 h3
    apply ContinuousOn.intervalIntegrable
    rw [Set.uIcc_of_le h2]
    exact ht.cont.mono (Set.Icc_subset_Icc h1 h3)
  set s := (e L - e 0) / L with hs
  have hsL : s * L = e L - e 0 := by rw [hs]; field_simp
  have step2 : ∀ y ∈ Set.Icc 0 L, |t y - s| ≤ b := by
    intro y hy
    have h1 : ∫ z in (0 : ℝ)..L, (t y - t z) = L * (t y - s) := by
      rw [intervalIntegral.integral_sub intervalIntegrable_const (tint 0 L le_rfl hL.le le_rfl),
        he.integral hL.le (tint 0 L le_rfl hL.le le_rfl), intervalIntegral.integral_const, smul_eq_mul,
        ← hsL]
      ring
    have h2 := intervalIntegral.norm_integral_le_of_norm_le_const (a := 0) (b := L) (C := b)
      (f := fun z => t y - t z) (fun z hz => by
        rw [Set.uIoc_of_le hL.le] at hz
        exact step1 z ⟨hz.1.le, hz.2⟩ y hy)
    rw [h1, Real.norm_eq_abs, abs_mul, abs_of_pos hL, sub_zero, abs_of_pos hL, mul_comm b] at h2
    exact le_of_mul_le_mul_left h2 hL
  have step3 : ∀ y ∈ Set.Icc 0 L, |e y - (e 0 + s * y)| ≤ b * L := by
    intro y hy
    have h1 : ∫ z in (0 : ℝ)..y, (t z - s) = e y - (e 0 + s * y) := by
      rw [intervalIntegral.integral_sub (tint 0 y le_rfl hy.1 hy.2) intervalIntegrable_const,
        (he.mono le_rfl hy.2).integral hy.1 (tint 0 y le_rfl hy.1 hy.2),
        intervalIntegral.integral_const, smul_eq_mul]
      ring
    have h2 := intervalIntegral.norm_integral_le_of_norm_le_const (a := 0) (b := y) (C := b)
      (f := fun z => t z - s) (fun z hz => by
        rw [Set.uIoc_of_le hy.1] at hz
        exact step2 z ⟨hz.1.le, hz.2.trans hy.2⟩)
    rw [h1, Real.norm_eq_abs, sub_zero, abs_of_nonneg hy.1] at h2
    exact h2.trans (mul_le_mul_of_nonneg_left hy.2 hb0)
  have step3' : ∀ y ∈ Set.Icc 0 L, (e y - (e 0 + s * y)) ^ 2 ≤ (b * L) ^ 2 := by
    intro y hy
    rw [← sq_abs]
    exact pow_le_pow_left₀ (abs_nonneg _) (step3 y hy) 2
  have hpint : ∫ y in (0 : ℝ)..L, (e 0 + s * y) ^ 2
      = L * (e 0 ^ 2 + e 0 * e L + e L ^ 2) / 3 := by
    have hd : ∀ y, HasDerivAt (fun y => e 0 ^ 2 * y + e 0 * s * y ^ 2 + s ^ 2 * y ^ 3 / 3)
        ((e 0 + s * y) ^ 2) y := by
      intro y
      have q : ∀ n : ℕ, HasDerivAt (fun x : ℝ => x ^ n) (n * y ^ (n - 1)) y := fun n => hasDerivAt_pow n y
      refine HasDerivAt.congr_deriv ((((hasDerivAt_id' y).const_mul (e 0 ^ 2)).add
        ((q 2).const_mul (e 0 * s))).add (((q 3).const_mul (s ^ 2)).div_const 3)) ?_
      simp only [Nat.cast_ofNat, Nat.reduceSub]
      ring
    rw [intervalIntegral.integral_eq_sub_of_hasDerivAt (fun y _ => hd y)
      ((by fun_prop : Continuous fun y => (e 0 + s * y) ^ 2).intervalIntegrable _ _)]
    have : e L = e 0 + s * L := by linarith
    rw [this]
    ring
  have hple : ∫ y in (0 : ℝ)..L, (e 0 + s * y) ^ 2 ≤ 2 * A + 2 * L * (b * L) ^ 2 := by
    have i1 : IntervalIntegrable (fun y => e y ^ 2) volume 0 L := by
      apply ContinuousOn.intervalIntegrable
      rw [Set.uIcc_of_le hL.le]
      exact he.cont.pow 2
    calc ∫ y in (0 : ℝ)..L, (e 0 + s * y) ^ 2 ≤ ∫ y in (0 : ℝ)..L, (2 * e y ^ 2 + 2 * (b * L) ^ 2) := by
          apply intervalIntegral.integral_mono_on hL.le
            ((by fun_prop : Continuous fun y => (e 0 + s * y) ^ 2).intervalIntegrable _ _)
            ((i1.const_mul 2).add intervalIntegrable_const)
          intro y hy
          have := step3' y hy
          nlinarith [sq_nonneg (2 * e y - (e 0 + s * y))]
      _ = 2 * A + 2 * L * (b * L) ^ 2 := by
          rw [intervalIntegral.integral_add (i1.const_mul 2) intervalIntegrable_const,
            intervalIntegral.integral_const_mul, intervalIntegral.integral_const, smul_eq_mul, ← hA]
          ring
  have hpx : (e 0 + s * x) ^ 2 ≤ 4 / 3 * (e 0 ^ 2 + e 0 * e L + e L ^ 2) := by
    have hθ0 : 0 ≤ x / L := div_nonneg hx.1 hL.le
    have hθ1 : x / L ≤ 1 := (div_le_one hL).2 hx.2
    have e1 : e 0 + s * x = (1 - x / L) * e 0 + x / L * e L := by
      rw [hs]; field_simp; ring
    rw [e1]
    have a1 := mul_nonneg (mul_nonneg hθ0 (sub_nonneg.2 hθ1)) (sq_nonneg (e 0 - e L))
    have a2 := mul_nonneg (sub_nonneg.2 hθ1) (sq_nonneg (e 0 + 2 * e L))
    have a3 := mul_nonneg hθ0 (sq_nonneg (2 * e 0 + e L))
    nlinarith
  have hfin : (e 0 + s * x) ^ 2 * L ≤ 4 * (2 * A + 2 * L * (b * L) ^ 2) := by
    have := hpint ▸ hple
    nlinarith
  have hfin2 : (e 0 + s * x) ^ 2 ≤ 8 / L * A + 8 * (b * L) ^ 2 := by
    rw [← le_div_iff₀ hL] at hfin
    refine hfin.trans (le_of_eq ?_)
    field_simp
    ring
  have h3 := step3' x hx
  have h4 : e x ^ 2 ≤ 2 * (e 0 + s * x) ^ 2 + 2 * (b * L) ^ 2 := by
    nlinarith [sq_nonneg (e x - 2 * (e 0 + s * x))]
  have h5 : (b * L) ^ 2 = L ^ 3 * B := by rw [mul_pow, hb2]; ring
  rw [h5] at hfin2 h4
  calc e x ^ 2 ≤ 2 * (8 / L * A + 8 * (L ^ 3 * B)) + 2 * (L ^ 3 * B) := by linarith
    _ = 16 / L * A + 18 * L ^ 3 * B := by ring

/-- The error of one foundation member bounds the distance of the deflections everywhere along
it. -/
theorem Found.deflection_bound (F : Found ℝ) (hn : 0 < F.n) (hL : 0 < F.L)
    {w t c : ℝ → ℝ} (hw : SlopeOn w t 0 F.L) (ht : SlopeOn t c 0 F.L)
    (hc : IntervalIntegrable c volume 0 F.L)
    (hc2 : IntervalIntegrable (fun x => c x ^ 2) volume 0 F.L) (D : ℕ → ℝ) {x : ℝ}
    (hx : x ∈ Set.Icc 0 F.L) :
    (w x - F.line D x) ^ 2 ≤ 16 / F.L * (∫ x in (0 : ℝ)..F.L, (w x - F.line D x) ^ 2)
      + 18 * F.L ^ 3 * ∫ x in (0 : ℝ)..F.L, (c x - deriv (deriv (F.line D)) x) ^ 2 := by
  obtain ⟨s1, s2⟩ := F.line_slopes hn hL D
  have hh := F.h_pos hn hL
  have hin : ∀ e < F.n, 0 ≤ (e : ℝ) * F.h ∧ (e : ℝ) * F.h + F.h ≤ F.L := fun e he => elem_in he hL
  have hsub : ∀ e < F.n, Set.uIcc ((e : ℝ) * F.h) (e * F.h + F.h) ⊆ Set.uIcc 0 F.L := by
    intro e he
    rw [Set.uIcc_of_le (by linarith), Set.uIcc_of_le hL.le]
    exact Set.Icc_subset_Icc (hin e he).1 (hin e he).2
  have hg : ∀ e < F.n, IntervalIntegrable
      (fun x => (c x - cubK F.h (elemVec D e) (x - e * F.h)) ^ 2) volume (e * F.h) (e * F.h + F.h) :=
    fun e he => (sq_expand (hc.mono_set (hsub e he)) (hc2.mono_set (hsub e he))
      (cubK_cont F.h (elemVec D e) (e * F.h))).1
  obtain ⟨-, q1⟩ := integral_pieces hn hL (f := fun x => (c x - deriv (deriv (F.line D)) x) ^ 2)
    (g := fun e x => (c x - cubK F.h (elemVec D e) (x - e * F.h)) ^ 2) hg
    (fun e he x hx => by rw [F.line_curv hn hL D he hx])
  obtain ⟨i2, q2⟩ := integral_pieces hn hL (f := fun x => (c x - F.lineK D x) ^ 2)
    (g := fun e x => (c x - cubK F.h (elemVec D e) (x - e * F.h)) ^ 2) hg
    (fun e he x hx => by rw [(F.line_inside hn hL D he hx.1.le hx.2).2.2])
  obtain ⟨i1, -⟩ := integral_pieces hn hL (f := fun x => c x - F.lineK D x)
    (g := fun e x => c x - cubK F.h (elemVec D e) (x - e * F.h))
    (fun e he => (hc.mono_set (hsub e he)).sub ((cubK_cont F.h (elemVec D e) (e * F.h)).intervalIntegrable _ _))
    (fun e he x hx => by rw [(F.line_inside hn hL D he hx.1.le hx.2).2.2])
  rw [q1, ← q2]
  exact sup_bound hL (hw.sub s1) (ht.sub s2) i1 i2 hx

/-- What the pieces leave over: the bound of `C149_energy`. -/
noncomputable def FBeam.meshBound (b : FBeam) (n : ℕ → ℕ) (ε : ℕ → ℕ → ℝ) : ℝ :=
  ∑ i ∈ range b.members.length, if (b.kfAt i).isSome then
    (b.eiAt i + (b.kfAt i).getD 0 * (b.spanL i / n i) ^ 4) * ∑ e ∈ range (n i), b.spanL i / n i * ε i e ^ 2
  else 0

/-- **C149**, everywhere along the foundation members and at every spring: under the conditions
of `C149_energy` the recovered deflection is nowhere further from the exact one than the bound
of the energy allows, and neither are the displacements of the springs. -/
theorem C149_deflection (b : FBeam) (hgood : ∀ m ∈ b.members, m.Good) (inv : Inverter ℝ)
    (hS : inv.Sound) (stable : System ℝ → Bool) (solve : Solver ℝ) (hs : solve.Sound) (res : Result ℝ)
    (h : b.analyze inv stable solve = .ok res) (ls : List (SpanLoad ℝ)) (hls : b.setLoads = .ok ls)
    (hpl : b.LoadsClear inv ls) (K : ℕ → Mat4 ℝ) (cn : ℕ → CNL ℝ)
    (hK : ∀ i (hi : i < b.members.length), b.kfAt i = none → b.members[i].spanK = .ok (K i))
    (hcn : ∀ i (hi : i < b.members.length), b.kfAt i = none → b.members[i].refSum i ls = .ok (cn i))
    (f : ℕ → ℝ → ℝ) (hf : ∀ i < b.members.length, b.IsLine inv ls res i (f i))
    (d : ℕ → ℝ) (S : BeamShape) (hd : b.Winkler ls K cn d S) (n : ℕ → ℕ)
    (hn : ∀ i < b.members.length, ∀ k, b.kfAt i = some k →
      autoSubdivisions (b.spanL i) (b.eiAt i) k = .ok (n i))
    (α β ε : ℕ → ℕ → ℝ)
    (hε : ∀ i < b.members.length, (b.kfAt i).isSome → ∀ e < n i,
      ∀ x ∈ Set.Icc (e * (b.spanL i / n i)) (e * (b.spanL i / n i) + b.spanL i / n i),
        |S.c i x - (α i e + β i e * x)| ≤ ε i e) :
    (∀ i < b.members.length, ∀ k, b.kfAt i = some k → ∀ x ∈ Set.Icc 0 (b.spanL i),
      (S.w i x - f i x) ^ 2
        ≤ (16 / (k * b.spanL i) + 18 * b.spanL i ^ 3 / b.eiAt i) * b.meshBound n ε) ∧
    ∀ p < 2 * b.members.length + 2,
      b.restraints.getD p 0 * (d p - res.d p) ^ 2 ≤ b.meshBound n ε := by
  have hen := C149_energy b hgood inv hS stable solve hs res h ls hls hpl K cn hK hcn f hf d S hd n hn
    α β ε hε
  obtain ⟨s, h1, h2⟩ := FBeam.analyze_ok h
  have hpos : ∀ i (hi : i < b.members.length) k, b.kfAt i = some k →
      0 < b.eiAt i ∧ 0 < k ∧ 0 < b.spanL i := by
    intro i hi k hkf
    obtain ⟨E, refs, per, hE, hr, hn0, hb, len, hEI, hEL, hEk, hau, -⟩ :=
      b.member_mesh inv h1 ls hls i hi k hkf
    have hm := hgood _ (List.getElem_mem hi)
    have hEpos : 0 < E.EI := by
      have := hm.2.1
      rw [hEI] at this
      exact this
    refine ⟨by rw [b.eiAt_eq hi hEI]; exact hEpos, ?_, by rw [b.spanL_eq i hi]; exact hm.1⟩
    unfold autoSubdivisions at hau
    split at hau
    · cases hau
    rename_i hk0
    split at hau
    · cases hau
    rename_i hk1
    by_contra hneg
    exact hk1 (div_neg_of_pos_of_neg (by linarith) (lt_of_le_of_ne (not_lt.1 hneg) hk0))
  have hnn : ∀ i ∈ range b.members.length, 0 ≤ b.memberError i (K i) d S res.d (f i) := by
    intro i hi
    have hi := Finset.mem_range.1 hi
    rcases hkf : b.kfAt i with _ | k
    · obtain ⟨k', q1, q2, -⟩ := C13_energy_nonneg _ (hgood _ (List.getElem_mem hi))
      obtain rfl : k' = K i := by rw [hK i hi hkf] at q1; exact (Except.ok.inj q1).symm
      simp only [FBeam.memberError, hkf]
      exact q2 _
    · obtain ⟨p1, p2, p3⟩ := hpos i hi k hkf
      simp only [FBeam.memberError, hkf]
      exact add_nonneg (mul_nonneg p1.le (intervalIntegral.integral_nonneg p3.le fun x _ => sq_nonneg _))
        (mul_nonneg p2.le (intervalIntegral.integral_nonneg p3.le fun x _ => sq_nonneg _))
  have hsn : ∀ p ∈ range (2 * b.members.length + 2),
      0 ≤ max (b.restraints.getD p 0) 0 * (d p - res.d p) ^ 2 := fun p _ =>
    mul_nonneg (le_max_right _ _) (sq_nonneg _)
  have e1 := Finset.sum_nonneg hnn
  have e2 := Finset.sum_nonneg hsn
  have hX : b.meshBound n ε = ∑ i ∈ range b.members.length, if (b.kfAt i).isSome then
          (b.eiAt i + (b.kfAt i).getD 0 * (b.spanL i / n i) ^ 4)
            * ∑ e ∈ range (n i), b.spanL i / n i * ε i e ^ 2
        else 0 := rfl
  rw [← hX] at hen
  constructor
  · intro i hi k hkf x hx
    obtain ⟨p1, p2, p3⟩ := hpos i hi k hkf
    have hone := Finset.single_le_sum hnn (Finset.mem_range.2 hi)
    have hle : b.memberError i (K i) d S res.d (f i) ≤ b.meshBound n ε := by linarith
    obtain ⟨E, refs, per, hE, hr, hn0, hb, len, hEI, hEL, hEk, hau, -⟩ :=
      b.member_mesh inv h1 ls hls i hi k hkf
    obtain ⟨E', refs', x1, x2, x3⟩ := hf i hi hi k hkf
    obtain rfl : E' = E := by rw [hE] at x1; exact (Except.ok.inj x1).symm
    have hLE : b.spanL i = E'.L := by rw [b.spanL_eq i hi, hEL]
    obtain ⟨f1, f2, f3, f4, -⟩ := hd.fits i hi (by rw [hkf]; rfl)
    simp only [FBeam.memberError, hkf] at hle
    rw [hLE] at f1 f2 f3 f4 hle hx p3 ⊢
    have hb' := E'.toFound.deflection_bound hn0 p3 f1 f2 f3 f4 (E'.mesh refs' (elemVec res.d i)) hx
    rw [← x3] at hb'
    set A := ∫ x in (0 : ℝ)..E'.L, (S.w i x - f i x) ^ 2 with hA
    set B := ∫ x in (0 : ℝ)..E'.L, (S.c i x - deriv (deriv (f i)) x) ^ 2 with hB
    have hA0 : 0 ≤ A := intervalIntegral.integral_nonneg p3.le fun x _ => sq_nonneg _
    have hB0 : 0 ≤ B := intervalIntegral.integral_nonneg p3.le fun x _ => sq_nonneg _
    have a1 : k * A ≤ b.meshBound n ε := by nlinarith
    have a2 : b.eiAt i * B ≤ b.meshBound n ε := by nlinarith
    calc (S.w i x - f i x) ^ 2 ≤ 16 / E'.L * A + 18 * E'.L ^ 3 * B := hb'
      _ = 16 / (k * E'.L) * (k * A) + 18 * E'.L ^ 3 / b.eiAt i * (b.eiAt i * B) := by
          field_simp
      _ ≤ 16 / (k * E'.L) * b.meshBound n ε + 18 * E'.L ^ 3 / b.eiAt i * b.meshBound n ε :=
          add_le_add (mul_le_mul_of_nonneg_left a1 (by positivity))
            (mul_le_mul_of_nonneg_left a2 (by positivity))
      _ = _ := by ring
  · intro p hp
    have hone := Finset.single_le_sum hsn (Finset.mem_range.2 hp)
    have : b.restraints.getD p 0 * (d p - res.d p) ^ 2
        ≤ max (b.restraints.getD p 0) 0 * (d p - res.d p) ^ 2 :=
      mul_le_mul_of_nonneg_right (le_max_left _ _) (sq_nonneg _)
    linarith

/-- **C149**, the bound in terms of the shear: where the exact shear is at most `EI G` (the
curvature changes by at most `G` per length), the bound is a sum of `(EI + k h⁴) L (G h / 2)²`
over the foundation members; `k h⁴` is at most a thousandth of `EI`, unless the member needs
more than the 400 pieces the code allows. -/
theorem C149_bound (b : FBeam) (hL : ∀ m ∈ b.members, 0 < m.L) (n : ℕ → ℕ)
    (hn : ∀ i < b.members.length, ∀ k, b.kfAt i = some k →
      autoSubdivisions (b.spanL i) (b.eiAt i) k = .ok (n i)) (S : BeamShape) (G : ℕ → ℝ)
    (hG : ∀ i < b.members.length, (b.kfAt i).isSome → ∀ x ∈ Set.Icc 0 (b.spanL i),
      ∀ y ∈ Set.Icc 0 (b.spanL i), |S.c i x - S.c i y| ≤ G i * |x - y|) :
    ∃ α β ε : ℕ → ℕ → ℝ, (∀ i < b.members.length, (b.kfAt i).isSome → ∀ e < n i,
      ∀ x ∈ Set.Icc (e * (b.spanL i / n i)) (e * (b.spanL i / n i) + b.spanL i / n i),
        |S.c i x - (α i e + β i e * x)| ≤ ε i e) ∧
    b.meshBound n ε = ∑ i ∈ range b.members.length, (if (b.kfAt i).isSome then
      (b.eiAt i + (b.kfAt i).getD 0 * (b.spanL i / n i) ^ 4) * b.spanL i * (G i * (b.spanL i / n i) / 2) ^ 2
      else 0) ∧
    ∀ i < b.members.length, ∀ k, b.kfAt i = some k → 0 < k → 0 < b.eiAt i →
      k * (b.spanL i / n i) ^ 4 ≤ b.eiAt i / 1000 ∨ n i = 400 := by
  refine ⟨fun i e => S.c i (e * (b.spanL i / n i) + b.spanL i / n i / 2), fun _ _ => 0,
    fun i _ => G i * (b.spanL i / n i) / 2, ?_, ?_, ?_⟩
  · intro i hi hk e he x hx
    have hLi : 0 < b.spanL i := by rw [b.spanL_eq i hi]; exact hL _ (List.getElem_mem hi)
    obtain ⟨b1, b2⟩ := elem_in he hLi
    have hn' : (0 : ℝ) < n i := by exact_mod_cast (by omega : 0 < n i)
    have hh : 0 < b.spanL i / n i := div_pos hLi hn'
    have hGx := hG i hi hk x ⟨b1.trans hx.1, hx.2.trans b2⟩
      (e * (b.spanL i / n i) + b.spanL i / n i / 2) ⟨by linarith, by linarith⟩
    have hG0 : 0 ≤ G i := by
      have := hG i hi hk 0 ⟨le_rfl, hLi.le⟩ (b.spanL i) ⟨hLi.le, le_rfl⟩
      rw [zero_sub, abs_neg, abs_of_pos hLi] at this
      by_contra hneg
      push Not at hneg
      have h1 := mul_neg_of_neg_of_pos hneg hLi
      linarith [abs_nonneg (S.c i 0 - S.c i (b.spanL i))]
    have hd : |x - (e * (b.spanL i / n i) + b.spanL i / n i / 2)| ≤ b.spanL i / n i / 2 := by
      rw [abs_le]
      constructor <;> linarith [hx.1, hx.2]
    simp only [zero_mul, add_zero]
    calc _ ≤ _ := hGx
      _ ≤ G i * (b.spanL i / n i / 2) := mul_le_mul_of_nonneg_left hd hG0
      _ = _ := by ring
  · unfold FBeam.meshBound
    refine Finset.sum_congr rfl fun i hi => ?_
    by_cases hk : (b.kfAt i).isSome
    · rw [if_pos hk, if_pos hk]
      obtain ⟨k, hk⟩ := Option.isSome_iff_exists.1 hk
      have h8 := (C64_mesh _ _ _ _ (hn i (Finset.mem_range.1 hi) k hk)).1
      have hn' : (n i : ℝ) ≠ 0 := by
        have : n i ≠ 0 := by omega
        exact_mod_cast this
      rw [Finset.sum_const, Finset.card_range, nsmul_eq_mul]
      field_simp
    · rw [if_neg hk, if_neg hk]
  · intro i hi k hk hk0 he0
    obtain ⟨h8, -, h3⟩ := C64_mesh _ _ _ _ (hn i hi k hk)
    have hpos : 0 < 4 * b.eiAt i / k := by positivity
    have hLi : 0 < b.spanL i := by rw [b.spanL_eq i hi]; exact hL _ (List.getElem_mem hi)
    have hn' : (0 : ℝ) < n i := by exact_mod_cast (by omega : 0 < n i)
    rcases h3 ((4 * b.eiAt i / k) ^ (1 / 4 : ℝ)) (Real.rpow_pos_of_pos hpos _) (by
      rw [← Real.rpow_natCast, ← Real.rpow_mul hpos.le]
      norm_num) with h4 | h4
    · left
      set lam := (4 * b.eiAt i / k) ^ (1 / 4 : ℝ) with hlam
      have hl4 : lam ^ 4 = 4 * b.eiAt i / k := by
        rw [hlam, ← Real.rpow_natCast, ← Real.rpow_mul hpos.le]
        norm_num
      have hh : b.spanL i / n i ≤ lam / 8 := by
        rw [div_le_iff₀ hn']
        linarith
      have h5 : (b.spanL i / n i) ^ 4 ≤ (lam / 8) ^ 4 :=
        pow_le_pow_left₀ (div_pos hLi hn').le hh 4
      rw [div_pow lam, hl4] at h5
      calc k * (b.spanL i / n i) ^ 4 ≤ k * (4 * b.eiAt i / k / 8 ^ 4) :=
            mul_le_mul_of_nonneg_left h5 hk0.le
        _ = b.eiAt i / 1024 := by field_simp; norm_num
        _ ≤ b.eiAt i / 1000 := by
            apply div_le_div_of_nonneg_left he0.le <;> norm_num
    · exact Or.inr h4

end PyCBA
