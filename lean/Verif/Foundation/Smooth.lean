import Verif.Foundation.Pointwise
import Mathlib.Analysis.SpecialFunctions.Trigonometric.Deriv
import Mathlib.Analysis.SpecialFunctions.Trigonometric.DerivHyp
import Mathlib.Analysis.Complex.ExponentialBounds

/-!
C149 where the exact shear varies smoothly, and an example.
-/

set_option linter.unusedSectionVars false
set_option linter.unusedSimpArgs false

namespace PyCBA

open Matrix Finset MeasureTheory

/-- **C149**, the bound in terms of the change of the shear: where the exact shear `EI g` changes
by at most `EI H` per length (distributed loads and the pressure of the foundation do not
exceed `EI H`), the bound is a sum of `(EI + k h⁴) L (H h² / 4)²` over the foundation
members. -/
theorem C149_smooth (b : FBeam) (hL : ∀ m ∈ b.members, 0 < m.L) (n : ℕ → ℕ)
    (hn : ∀ i < b.members.length, ∀ k, b.kfAt i = some k →
      autoSubdivisions (b.spanL i) (b.eiAt i) k = .ok (n i)) (S : BeamShape) (g : ℕ → ℝ → ℝ) (H : ℕ → ℝ)
    (hg : ∀ i < b.members.length, (b.kfAt i).isSome → SlopeOn (S.c i) (g i) 0 (b.spanL i))
    (hH : ∀ i < b.members.length, (b.kfAt i).isSome → ∀ x ∈ Set.Icc 0 (b.spanL i),
      ∀ y ∈ Set.Icc 0 (b.spanL i), |g i x - g i y| ≤ H i * |x - y|) :
    ∃ α β ε : ℕ → ℕ → ℝ, (∀ i < b.members.length, (b.kfAt i).isSome → ∀ e < n i,
      ∀ x ∈ Set.Icc (e * (b.spanL i / n i)) (e * (b.spanL i / n i) + b.spanL i / n i),
        |S.c i x - (α i e + β i e * x)| ≤ ε i e) ∧
    b.meshBound n ε = ∑ i ∈ range b.members.length, (if (b.kfAt i).isSome then
      (b.eiAt i + (b.kfAt i).getD 0 * (b.spanL i / n i) ^ 4) * b.spanL i
        * (H i * (b.spanL i / n i) ^ 2 / 4) ^ 2
      else 0) := by
  refine ⟨fun i e => S.c i (e * (b.spanL i / n i) + b.spanL i / n i / 2)
      - g i (e * (b.spanL i / n i) + b.spanL i / n i / 2) * (e * (b.spanL i / n i) + b.spanL i / n i / 2),
    fun i e => g i (e * (b.spanL i / n i) + b.spanL i / n i / 2),
    fun i _ => H i * (b.spanL i / n i) ^ 2 / 4, ?_, ?_⟩
  · intro i hi hk e he x hx
    have hLi : 0 < b.spanL i := by rw [b.spanL_eq i hi]; exact hL _ (List.getElem_mem hi)
    obtain ⟨b1, b2⟩ := elem_in he hLi
    have hn' : (0 : ℝ) < n i := by exact_mod_cast (by omega : 0 < n i)
    have hh : 0 < b.spanL i / n i := div_pos hLi hn'
    set m := (e : ℝ) * (b.spanL i / n i) + b.spanL i / n i / 2 with hm
    have hmI : m ∈ Set.Icc 0 (b.spanL i) := ⟨by linarith, by linarith⟩
    have hxI : x ∈ Set.Icc 0 (b.spanL i) := ⟨b1.trans hx.1, hx.2.trans b2⟩
    have hH0 : 0 ≤ H i := by
      have := hH i hi hk 0 ⟨le_rfl, hLi.le⟩ (b.spanL i) ⟨hLi.le, le_rfl⟩
      rw [zero_sub, abs_neg, abs_of_pos hLi] at this
      by_contra hneg
      push Not at hneg
      have h1 := mul_neg_of_neg_of_pos hneg hLi
      linarith [abs_nonneg (g i 0 - g i (b.spanL i))]
    have hcont : ContinuousOn (g i) (Set.Icc 0 (b.spanL i)) := by
      have : LipschitzOnWith (Real.toNNReal (H i)) (g i) (Set.Icc 0 (b.spanL i)) := by
        apply LipschitzOnWith.of_dist_le_mul
        intro y hy z hz
        rw [Real.dist_eq, Real.dist_eq, Real.coe_toNNReal _ hH0]
        exact hH i hi hk y hy z hz
      exact this.continuousOn
    have hd : |x - m| ≤ b.spanL i / n i / 2 := by
      rw [abs_le]
      constructor <;> linarith [hx.1, hx.2]
    have hsubI : Set.uIcc m x ⊆ Set.Icc 0 (b.spanL i) := Set.uIcc_subset_Icc hmI hxI
    have hgi : IntervalIntegrable (g i) volume m x := (hcont.mono hsubI).intervalIntegrable
    have hftc : ∫ y in m..x, g i y = S.c i x - S.c i m := by
      rcases le_total m x with h | h
      · exact ((hg i hi hk).mono hmI.1 hxI.2).integral h hgi
      · rw [intervalIntegral.integral_symm, ((hg i hi hk).mono hxI.1 hmI.2).integral h hgi.symm]
        ring
    have hint : ∫ y in m..x, (g i y - g i m) = S.c i x - (S.c i m - g i m * m + g i m * x) := by
      rw [intervalIntegral.integral_sub hgi intervalIntegrable_const, hftc,
        intervalIntegral.integral_const, smul_eq_mul]
      ring
    have hb := intervalIntegral.norm_integral_le_of_norm_le_const (a := m) (b := x)
      (C := H i * (b.spanL i / n i / 2)) (f := fun y => g i y - g i m) (fun y hy => by
        have hyI := Set.uIoc_subset_uIcc hy
        have h1 := hH i hi hk y (hsubI hyI) m hmI
        have h2 : |y - m| ≤ |x - m| := by
          rw [abs_sub_comm y, abs_sub_comm x]
          rw [Set.mem_uIcc] at hyI
          rcases hyI with hyI | hyI
          · rw [abs_of_nonpos (by linarith), abs_of_nonpos (by linarith)]; linarith
          · rw [abs_of_nonneg (by linarith), abs_of_nonneg (by linarith)]; linarith
        exact h1.trans (mul_le_mul_of_nonneg_left (h2.trans hd) hH0))
    rw [hint, Real.norm_eq_abs] at hb
    calc _ ≤ _ := hb
      _ ≤ H i * (b.spanL i / n i / 2) * (b.spanL i / n i / 2) :=
          mul_le_mul_of_nonneg_left hd (by positivity)
      _ = _ := by ring
  · unfold FBeam.meshBound
    refine Finset.sum_congr rfl fun i hi => ?_
    by_cases hk : (b.kfAt i).isSome
    · rw [if_pos hk, if_pos hk]
      obtain ⟨k, hk⟩ := Option.isSome_iff_exists.1 hk
      have h8 := (C64_mesh _ _ _ _ (hn i (Finset.mem_range.1 hi) k hk)).1
      have hn' : (n i : ℝ) ≠ 0 := by
        have : n i ≠ 0 := by omega
        exact_mod_cast this
      rw [Finset.sum_const, Finset.card_range, nsmul_eq_mul]
      field_simp
    · rw [if_neg hk, if_neg hk]

/-! ### Example -/

/-- A span of 1 with `EI = 1` on a foundation of modulus 4 under a load of 4, whose ends are
moved as in the deflection `sin x sinh x - 1`. -/
noncomputable def exWink : FBeam :=
  ⟨⟨[⟨.const 1, 1, .FF, none⟩], [-1, -1, -1, -1],
    [some (-1), some 0, some (Real.sin 1 * Real.sinh 1 - 1),
      some (Real.cos 1 * Real.sinh 1 + Real.sin 1 * Real.cosh 1)], [⟨1, 1, [4]⟩]⟩, [some 4]⟩

noncomputable def exWinkShape : BeamShape where
  w _ x := Real.sin x * Real.sinh x - 1
  t _ x := Real.cos x * Real.sinh x + Real.sin x * Real.cosh x
  c _ x := 2 * (Real.cos x * Real.cosh x)

noncomputable def exWinkD (p : ℕ) : ℝ := (exWink.presc.getD p none).getD 0

theorem exWink_n : autoSubdivisions 1 1 4 = .ok 8 := by
  unfold autoSubdivisions
  rw [if_neg (by norm_num), if_neg (by norm_num), if_neg (by norm_num)]
  norm_num
  rfl

theorem exWink_loads : exWink.setLoads = .ok [⟨0, .udl 4⟩] := by
  simp [BeamDef.setLoads, exWink, parseLM, parseRow]

theorem exWink_completes : ∃ solve : Solver ℝ, solve.Sound ∧
    ∃ res, exWink.analyze anyInverter (fun _ => true) solve = .ok res := by
  obtain ⟨E, hE⟩ : ∃ E, spanFoundation anyInverter ⟨.const 1, 1, .FF, none⟩ 4 = .ok E := by
    simp only [spanFoundation]
    rw [exWink_n]
    exact Found.build_any ⟨1, 1, 4, 8⟩ (by norm_num) (by norm_num) (by norm_num) (by norm_num)
  obtain ⟨s, h1⟩ : ∃ s, exWink.system anyInverter = .ok s := by
    refine FBeam.system_exists _ anyInverter _ exWink_loads ?_ ?_ (by simp [exWink]) (by simp [exWink])
    · intro i hi
      have hi' : i < 1 := hi
      interval_cases i
      exact ⟨E.k, by
        change spanKf anyInverter ⟨.const 1, 1, .FF, none⟩ (some 4) = _
        simp only [spanKf]
        rw [hE]⟩
    · intro i hi
      have hi' : i < 1 := hi
      interval_cases i
      have : ∃ v, E.ref (ownLoads 0 [⟨0, .udl 4⟩]) = .ok v := by
        unfold FoundEl.ref
        have h0 : ownLoads 0 [⟨0, .udl 4⟩] = [Load.udl (4 : ℝ)] := by simp [ownLoads]
        have : ∃ r, E.refs (ownLoads 0 [⟨0, .udl 4⟩]) = .ok r := by
          rw [h0]
          simp only [Found.refs, Found.subLoads, Found.subLoad]
          exact mapE_of_ok _ fun a _ => by
            simp [pieceRef, Load.getRef, Load.getCnl, releaseCnl]
        obtain ⟨r, hr⟩ := this
        rw [hr]
        exact ⟨_, rfl⟩
      obtain ⟨v, hv⟩ := this
      refine ⟨v, ?_⟩
      change spanRef anyInverter ⟨.const 1, 1, .FF, none⟩ 0 _ (some 4) = _
      simp only [spanRef]
      rw [hE]
      exact hv
  obtain ⟨hsn, -, -, hr, hp, -⟩ := FBeam.system_ok h1
  have hN : s.N = 4 := by rw [System.N, hsn]; simp [exWink]
  refine ⟨trySolver exWinkD, trySolver_sound _, ⟨exWinkD, s.reactions exWinkD, s.springForces exWinkD,
    s.endForces exWinkD⟩, ?_⟩
  simp only [FBeam.analyze, h1, not_true_eq_false, and_false, if_false]
  have hc : ∀ p < s.N, s.constr p = some (exWinkD p) := by
    intro p hp4
    rw [hN] at hp4
    simp only [System.constr, hp, hr, exWinkD]
    interval_cases p <;> simp [exWink]
  refine s.analyze_try exWinkD ?_ (fun p hp v hv => ?_) (fun p hp h0 => ?_)
  · simp only [System.validate, List.all_eq_true, List.mem_range, decide_eq_true_eq]
    rintro p hp4 ⟨h0, -⟩
    rw [hN] at hp4
    rw [hr] at h0
    interval_cases p <;> simp [exWink] at h0 <;> linarith
  · rw [hc p hp] at hv
    exact (Option.some.inj hv)
  · rw [hc p hp] at h0
    cases h0

theorem exWink_slopes : SlopeOn (exWinkShape.w 0) (exWinkShape.t 0) 0 1 ∧
    SlopeOn (exWinkShape.t 0) (exWinkShape.c 0) 0 1 ∧
    SlopeOn (exWinkShape.c 0) (fun x => 2 * (Real.cos x * Real.sinh x - Real.sin x * Real.cosh x)) 0 1 := by
  refine ⟨.of_hasDerivAt _ _ fun x => ?_, .of_hasDerivAt _ _ fun x => ?_, .of_hasDerivAt _ _ fun x => ?_⟩
  · refine (((Real.hasDerivAt_sin x).mul (Real.hasDerivAt_sinh x)).sub_const 1).congr_deriv ?_
    simp only [exWinkShape]
  · refine (((Real.hasDerivAt_cos x).mul (Real.hasDerivAt_sinh x)).add
      ((Real.hasDerivAt_sin x).mul (Real.hasDerivAt_cosh x))).congr_deriv ?_
    simp only [exWinkShape]
    ring
  · refine (((Real.hasDerivAt_cos x).mul (Real.hasDerivAt_cosh x)).const_mul 2).congr_deriv ?_
    ring

theorem exWink_winkler :
    exWink.Winkler [⟨0, .udl 4⟩] (fun _ => 0) (fun _ => ⟨0, 0, 0, 0⟩) exWinkD exWinkShape := by
  obtain ⟨s1, s2, s3⟩ := exWink_slopes
  have hLen : exWink.members.length = 1 := rfl
  have hL : exWink.spanL 0 = 1 := rfl
  have hcc : Continuous (exWinkShape.c 0) := by
    have := Real.continuous_cosh
    simp only [exWinkShape]
    fun_prop
  refine ⟨?_, ?_, ?_, ?_⟩
  · intro i hi _
    rw [hLen] at hi
    interval_cases i
    rw [hL]
    refine ⟨s1, s2, hcc.intervalIntegrable _ _, (hcc.pow 2).intervalIntegrable _ _, ?_, ?_, ?_, ?_⟩ <;>
      simp [exWinkShape, exWinkD, exWink]
  · intro p _ v hv
    simp only [exWinkD, hv, Option.getD_some]
  · intro p hp h0 _
    rw [hLen] at hp
    interval_cases p <;> simp [exWink] at h0
  · intro u V hV hu
    have hz : ∀ p < 4, u p = 0 := fun p hp => hu p (by rw [hLen]; exact hp) (Or.inl (by
      interval_cases p <;> simp [exWink]))
    obtain ⟨v1, v2, v3, -, e0, e1, e2, e3⟩ := hV 0 (by rw [hLen]; norm_num) (by simp [FBeam.kfAt, exWink])
    rw [hL] at v1 v2 v3 e2 e3
    rw [hz _ (by norm_num)] at e0 e1 e2 e3
    have hkf : exWink.kfAt 0 = some 4 := rfl
    have hei : exWink.eiAt 0 = 1 := rfl
    have hV1 : IntervalIntegrable (V.w 0) volume 0 1 := by
      apply ContinuousOn.intervalIntegrable
      rw [Set.uIcc_of_le zero_le_one]
      exact v1.cont
    have hcV : IntervalIntegrable (fun x => exWinkShape.c 0 x * V.c 0 x) volume 0 1 :=
      v3.continuousOn_mul hcc.continuousOn
    have hwc : Continuous fun x => Real.sin x * Real.sinh x := by
      have := Real.continuous_sinh
      fun_prop
    have hwV : IntervalIntegrable (fun x => 4 * (Real.sin x * Real.sinh x) * V.w 0 x) volume 0 1 :=
      hV1.continuousOn_mul (continuous_const.mul hwc).continuousOn
    have hparts : SlopeOn (fun x => exWinkShape.c 0 x * V.t 0 x
        - 2 * (Real.cos x * Real.sinh x - Real.sin x * Real.cosh x) * V.w 0 x)
        (fun x => exWinkShape.c 0 x * V.c 0 x + 4 * (Real.sin x * Real.sinh x) * V.w 0 x) 0 1 := by
      have hgc : Continuous fun x => 2 * (Real.cos x * Real.sinh x - Real.sin x * Real.cosh x) := by
        have h1 := Real.continuous_sinh
        have h2 := Real.continuous_cosh
        fun_prop
      constructor
      · exact (hcc.continuousOn.mul v2.cont).sub (hgc.continuousOn.mul v1.cont)
      · intro x hx
        have hg : HasDerivAt (fun x => 2 * (Real.cos x * Real.sinh x - Real.sin x * Real.cosh x))
            (-4 * (Real.sin x * Real.sinh x)) x := by
          refine ((((Real.hasDerivAt_cos x).mul (Real.hasDerivAt_sinh x)).sub
            ((Real.hasDerivAt_sin x).mul (Real.hasDerivAt_cosh x))).const_mul 2).congr_deriv ?_
          ring
        refine (((s3.deriv x hx).mul (v2.deriv x hx)).sub
          (hg.hasDerivWithinAt.mul (v1.deriv x hx))).congr_deriv ?_
        ring
    have hI := hparts.integral zero_le_one (hcV.add hwV)
    rw [intervalIntegral.integral_add hcV hwV] at hI
    simp only [e0, e1, e2, e3, mul_zero, sub_zero] at hI
    have hw4 : ∫ x in (0 : ℝ)..1, exWinkShape.w 0 x * V.w 0 x
        = (∫ x in (0 : ℝ)..1, 4 * (Real.sin x * Real.sinh x) * V.w 0 x) / 4 - ∫ x in (0 : ℝ)..1, V.w 0 x := by
      rw [← intervalIntegral.integral_div, ← intervalIntegral.integral_sub (hwV.div_const 4) hV1]
      congr 1
      funext x
      simp only [exWinkShape]
      ring
    rw [hLen]
    simp only [Finset.sum_range_one, FBeam.memberVirtual, hkf, hei, hL]
    rw [hw4, Finset.sum_eq_zero fun p hp => by
      rw [hz p (by simpa using Finset.mem_range.1 hp), mul_zero, zero_mul]]
    have h0 : ownLoads 0 [⟨0, .udl 4⟩] = [Load.udl (4 : ℝ)] := by simp [ownLoads]
    rw [h0]
    simp only [List.map_cons, List.map_nil, List.sum_singleton, Load.work, Load.intensity, Load.forces,
      Load.couplesAt, List.sum_nil, intervalIntegral.integral_const_mul]
    linarith

/-- C149 at that span: the recovered deflection is within a tenth of the exact one. -/
example : ∃ (solve : Solver ℝ) (res : Result ℝ) (f : ℝ → ℝ), solve.Sound ∧
    exWink.analyze anyInverter (fun _ => true) solve = .ok res ∧
    exWink.IsLine anyInverter [⟨0, .udl 4⟩] res 0 f ∧
    ∀ x ∈ Set.Icc (0 : ℝ) 1, (Real.sin x * Real.sinh x - 1 - f x) ^ 2 ≤ (1 / 10) ^ 2 := by
  obtain ⟨solve, hs, res, h⟩ := exWink_completes
  obtain ⟨s, h1, -⟩ := FBeam.analyze_ok h
  obtain ⟨f, hf⟩ := FBeam.line_exists exWink anyInverter h1 _ exWink_loads res 0
  refine ⟨solve, res, f, hs, h, hf, ?_⟩
  have hLen : exWink.members.length = 1 := rfl
  have hL : exWink.spanL 0 = 1 := rfl
  have hkf : exWink.kfAt 0 = some 4 := rfl
  have hei : exWink.eiAt 0 = 1 := rfl
  have hn : ∀ i < exWink.members.length, ∀ k, exWink.kfAt i = some k →
      autoSubdivisions (exWink.spanL i) (exWink.eiAt i) k = .ok ((fun _ => 8 : ℕ → ℕ) i) := by
    intro i hi k hk
    rw [hLen] at hi
    interval_cases i
    rw [hkf] at hk
    cases hk
    rw [hL, hei]
    exact exWink_n
  have hsinh : Real.sinh 1 ≤ 5 / 4 := by
    rw [Real.sinh_eq]
    have h1 := Real.exp_one_lt_d9
    have h2 : 1 / 2.7182818286 ≤ Real.exp (-1) := by
      rw [Real.exp_neg, ← one_div]
      exact one_div_le_one_div_of_le (Real.exp_pos 1) h1.le
    norm_num at h1 h2
    linarith
  obtain ⟨α, β, ε, q1, q2⟩ := C149_smooth exWink (by simp [exWink]) (fun _ => 8) hn exWinkShape
    (fun _ x => 2 * (Real.cos x * Real.sinh x - Real.sin x * Real.cosh x)) (fun _ => 5)
    (fun i hi _ => by
      rw [hLen] at hi
      interval_cases i
      exact exWink_slopes.2.2)
    (fun i hi _ x hx y hy => by
      rw [hLen] at hi
      interval_cases i
      rw [hL] at hx hy
      have := (convex_Icc (0 : ℝ) 1).norm_image_sub_le_of_norm_hasDerivWithin_le
        (f := fun x => 2 * (Real.cos x * Real.sinh x - Real.sin x * Real.cosh x))
        (f' := fun x => -4 * (Real.sin x * Real.sinh x)) (C := 5) (x := y) (y := x)
        (fun z _ => by
          refine HasDerivAt.hasDerivWithinAt ?_
          refine ((((Real.hasDerivAt_cos z).mul (Real.hasDerivAt_sinh z)).sub
            ((Real.hasDerivAt_sin z).mul (Real.hasDerivAt_cosh z))).const_mul 2).congr_deriv ?_
          ring)
        (fun z hz => by
          have a1 : |Real.sinh z| ≤ 5 / 4 := by
            rw [abs_of_nonneg (Real.sinh_nonneg_iff.2 hz.1)]
            exact (Real.sinh_le_sinh.2 hz.2).trans hsinh
          have a2 := Real.abs_sin_le_one z
          rw [Real.norm_eq_abs, abs_mul, abs_mul]
          norm_num
          nlinarith [abs_nonneg (Real.sin z), abs_nonneg (Real.sinh z)]) hy hx
      simpa [Real.norm_eq_abs] using this)
  have hX : exWink.meshBound (fun _ => 8) ε = (1 + 4 * (1 / 8) ^ 4) * 1 * (5 * (1 / 8) ^ 2 / 4) ^ 2 := by
    rw [q2, hLen]
    simp only [Finset.sum_range_one, hkf, hei, hL, Option.isSome_some, if_true, Option.getD_some,
      Nat.cast_ofNat]
  have hd := (C149_deflection exWink (by simp [exWink, Member.Good, Rigidity.Good]) anyInverter
    anyInverter_sound _ solve hs res h _ exWink_loads (by
      intro l hl
      rw [List.mem_singleton.1 hl]
      simp [exWink, FBeam.kfAt, Load.OnSpan, Found.Clear, Load.Placed, BeamDef.spanL, Load.Starts])
    (fun _ => 0) (fun _ => ⟨0, 0, 0, 0⟩)
    (fun i hi hk => by
      have hi' : i < 1 := hi
      interval_cases i
      rw [hkf] at hk; cases hk)
    (fun i hi hk => by
      have hi' : i < 1 := hi
      interval_cases i
      rw [hkf] at hk; cases hk)
    (fun _ => f) (fun i hi => by
      have hi' : i < 1 := hi
      interval_cases i
      exact hf) exWinkD exWinkShape exWink_winkler (fun _ => 8) hn α β ε q1).1 0 (by rw [hLen]; norm_num) 4 hkf
  intro x hx
  have hx' := hd x (by rw [hL]; exact hx)
  rw [hX, hL, hei] at hx'
  refine hx'.trans ?_
  norm_num

end PyCBA
