import Verif.Exact.Shear
import Verif.Exact.Converge

set_option linter.unusedSectionVars false
set_option linter.unusedSimpArgs false

/-!
C118: the reported rotations and deflections of shear-flexible prismatic members converge to
the exact lines as the number of stations grows.
-/

namespace PyCBA

open Set MeasureTheory

/-! ### The trapezium rule for the shear -/

theorem Quad.congr {L : ℝ} {f G Φ f' G' : ℝ → ℝ} (h : Quad L f G Φ) (hf : ∀ x, f' x = f x)
    (hG : ∀ x, G' x = G x) : Quad L f' G' Φ := by
  intro a b h0 hab hb
  rw [hf, hf, hG, hG]
  exact h a b h0 hab hb

theorem intensity_bound (ld : Load ℝ) (L : ℝ) :
    ∃ B, ∀ x ∈ Icc 0 L, |ld.intensity L x| ≤ B := by
  obtain ⟨g, p, q, hg, h⟩ := intensity_eq_indicator ld L
  obtain ⟨B, hB⟩ := (isCompact_Icc (a := (0 : ℝ)) (b := L)).exists_bound_of_continuousOn
    hg.continuousOn
  refine ⟨B, fun x hx => ?_⟩
  have h1 := hB x hx
  rw [Real.norm_eq_abs] at h1
  rcases h with h | h
  · rw [h]; exact h1
  · rw [h, indicator]
    split_ifs
    · exact h1
    · rw [abs_zero]; exact (abs_nonneg _).trans h1

/-- The shear of a load without couples integrates to its bending moment. -/
theorem Load.Plain.quadVM {L : ℝ} {ld : Load ℝ} (hL : 0 < L) (h : ld.Plain L)
    (hml : ∀ m a, ld ≠ .ml m a) :
    ∃ Φ, Quad L (fun x => (ld.ss L x).V) (fun x => (ld.ss L x).M) Φ := by
  have smooth : ld.forces = [] → ld.pointActions = ∅ →
      ∃ Φ, Quad L (fun x => (ld.ss L x).V) (fun x => (ld.ss L x).M) Φ := by
    intro hf ha
    have hM := (C09_shear_moment_diagrams ld L hL h.1 h.2.1).2.1
    obtain ⟨B, hB⟩ := intensity_bound ld L
    have hB0 : 0 ≤ B := (abs_nonneg _).trans (hB 0 ⟨le_rfl, hL.le⟩)
    refine ⟨_, quad_lipschitz (B := B) (fun x => hM x (by simp [ha])) hB0 ?_⟩
    intro p q h0 hpq hq
    have c1 := (ld.cut L hL h.1 h.2.1 h.2.2 p ⟨h0, hpq.trans hq⟩).1
    have c2 := (ld.cut L hL h.1 h.2.1 h.2.2 q ⟨h0.trans hpq, hq⟩).1
    have hint : ∀ s t : ℝ, IntervalIntegrable (ld.intensity L) volume s t := fun s t => by
      simpa using intensity_integrable ld L (fun _ => 1) continuous_const s t
    have e1 : (ld.ss L q).V - (ld.ss L p).V = -∫ s in p..q, ld.intensity L s := by
      rw [c1, c2]
      simp only [Load.forceLeft, hf, List.filter_nil, List.map_nil, List.sum_nil, add_zero]
      rw [← intervalIntegral.integral_interval_sub_left (hint 0 q) (hint 0 p)]
      ring
    rw [e1, abs_neg, ← Real.norm_eq_abs]
    have := intervalIntegral.norm_integral_le_of_norm_le_const (a := p) (b := q)
      (f := ld.intensity L) (C := B) (fun x hx => by
        rw [uIoc_of_le hpq] at hx
        rw [Real.norm_eq_abs]
        exact hB x ⟨h0.trans hx.1.le, hx.2.trans hq⟩)
    rwa [abs_of_nonneg (by linarith : 0 ≤ q - p)] at this
  cases ld with
  | udl w => exact smooth rfl rfl
  | pudl w a c => exact smooth rfl rfl
  | trapez w1 w2 a c => exact smooth rfl rfl
  | mamb A B => exact smooth rfl rfl
  | ic k EI => exact h.2.1.elim
  | ml m a => exact absurd rfl (hml m a)
  | pl P a =>
    have := (quad_linear L (P * max (L - a) 0 / L) 0 0).add
      ((quad_step L a 0 le_rfl (by norm_num)).smul (-P))
    refine ⟨_, this.congr ?_ ?_⟩
    · intro x
      simp only [Load.ss, Load.stn, plStn]; ring
    · intro x
      simp only [Load.ss, Load.stn, plStn]; ring

/-- The shear of a load integrates to its bending moment without the jumps of couples. -/
theorem Load.Plain.quadV {L : ℝ} {ld : Load ℝ} (hL : 0 < L) (h : ld.Plain L) :
    ∃ Φ, Quad L (fun x => (ld.ss L x).V) (fun x => ld.smoothM L x + (ld.ss L 0).V * x) Φ := by
  by_cases hml : ∃ m a, ld = .ml m a
  · obtain ⟨m, a, rfl⟩ := hml
    refine ⟨_, (quad_linear L (m / L) 0 0).congr (fun x => ?_) fun x => ?_⟩
    · simp only [Load.ss, Load.stn, mlStn]; ring
    · simp only [Load.smoothM_ml, Load.ss, Load.stn, mlStn]; ring
  · push Not at hml
    obtain ⟨Φ, hΦ⟩ := h.quadVM hL hml
    refine ⟨Φ, hΦ.congr (fun _ => rfl) fun x => ?_⟩
    rw [Load.smoothM_eq L ld x hml]
    ring

/-! ### The lines of a span -/

/-- The curvature along a span from its end moments and loads. -/
noncomputable def momentLine (e L : ℝ) (own : List (Load ℝ)) (F : Vec4 ℝ) (x : ℝ) : ℝ :=
  1 / e * ((-F 1 + (F 1 + F 3) / L * x) + (own.map fun ld => (ld.ss L x).M).sum)

/-- The shear along a span from its end moments and loads. -/
noncomputable def shearLine (L : ℝ) (own : List (Load ℝ)) (F : Vec4 ℝ) (x : ℝ) : ℝ :=
  (F 1 + F 3) / L + (own.map fun ld => (ld.ss L x).V).sum

/-- The trapezium rule for the rotation and the bending deflection of a span. -/
theorem line_quads {e L : ℝ} (he : 0 < e) (hL : 0 < L) {own : List (Load ℝ)}
    (hown : ∀ ld ∈ own, ld.Plain L) (F : Vec4 ℝ)
    (hst : F 0 = (F 1 + F 3) / L + (own.map fun ld => (ld.ss L 0).V).sum) (v0 t0 : ℝ) :
    ∃ (Φ : ℝ → ℝ) (Bt : ℝ), 0 ≤ Bt ∧ Quad L (momentLine e L own F) (exLineT e L own F t0) Φ ∧
      Quad L (exLineT e L own F t0) (exLineV e L own F v0 t0) fun x => Bt * x := by
  change ∃ (Φ : ℝ → ℝ) (Bt : ℝ), 0 ≤ Bt ∧ Quad L (fun x => 1 / e * ((-F 1 + (F 1 + F 3) / L * x)
    + (own.map fun ld => (ld.ss L x).M).sum)) (exLineT e L own F t0) Φ ∧
      Quad L (exLineT e L own F t0) (exLineV e L own F v0 t0) fun x => Bt * x
  -- the moment along the member
  set f : ℝ → ℝ := fun x => 1 / e * ((-F 1 + (F 1 + F 3) / L * x)
    + (own.map fun ld => (ld.ss L x).M).sum) with hf
  obtain ⟨Φ0, q0⟩ := quad_sum L own (fun ld x => (ld.ss L x).M) (fun ld x => (ld.ss L x).R)
    fun ld hld => ((hown ld hld).quad hL).1
  have q1 := ((quad_linear L (-F 1) ((F 1 + F 3) / L) 0).add q0).smul (1 / e)
  obtain ⟨Φ, q2⟩ : ∃ Φ, Quad L f (exLineT e L own F (t0)) Φ := by
    refine ⟨fun x => |1 / e| * (0 + Φ0 x), fun a c h0 hac hc => ?_⟩
    obtain ⟨g1, g2⟩ := q1 a c h0 hac hc
    refine ⟨?_, g2⟩
    refine le_trans (le_of_eq ?_) g1
    congr 1
    simp only [hf, exLineT, list_sum_sub]
    have e1 : ∀ y : ℝ, (own.map fun ld => (ld.ss L 0).V * y ^ 2 / 2).sum
        = (own.map fun ld => (ld.ss L 0).V).sum * (y ^ 2 / 2) := by
      intro y
      rw [← list_sum_mul]
      congr 1
      apply List.map_congr_left
      intro ld _
      ring
    rw [e1, e1, hst]
    ring
  -- bounded moment, so the rotation is Lipschitz
  obtain ⟨B, hB⟩ := list_bound L own (fun ld x => (ld.ss L x).M)
    fun ld hld => ((hown ld hld).quad hL).2
  have hΦ : Φ 0 ≤ Φ L := (q2 0 L le_rfl hL.le le_rfl).2
  have hB0 : 0 ≤ B := (abs_nonneg _).trans (hB 0 ⟨le_rfl, hL.le⟩)
  set Bf := 1 / e * (|F 1| + |F 1 + F 3| + B) with hBf
  have hBf0 : 0 ≤ Bf := by positivity
  have hfB : ∀ x ∈ Icc 0 L, |f x| ≤ Bf := by
    intro x hx
    simp only [hf, hBf]
    rw [abs_mul, abs_of_pos (by positivity : 0 < 1 / e)]
    apply mul_le_mul_of_nonneg_left _ (by positivity)
    refine (abs_add_le _ _).trans (add_le_add ((abs_add_le _ _).trans ?_) (hB x hx))
    rw [abs_neg]
    apply add_le_add le_rfl
    have hx1 : |x / L| ≤ 1 := by
      rw [abs_of_nonneg (div_nonneg hx.1 hL.le)]
      exact (div_le_one hL).2 hx.2
    have e1 : (F 1 + F 3) / L * x = (F 1 + F 3) * (x / L) := by ring
    rw [e1, abs_mul]
    exact mul_le_of_le_one_right (abs_nonneg _) hx1
  set Bt := Bf + (Φ L - Φ 0) with hBt
  have hBt0 : 0 ≤ Bt := by linarith
  have q3 : Quad L (exLineT e L own F (t0)) (exLineV e L own F (v0) (t0)) fun x => Bt * x := by
    apply quad_lipschitz (exLineV_deriv hL hown F (v0) (t0)) hBt0
    intro a c h0 hac hc
    obtain ⟨g1, g2⟩ := q2 a c h0 hac hc
    have g3 : Φ c - Φ a ≤ Φ L - Φ 0 := by
      have := (q2 0 a le_rfl h0 (hac.trans hc)).2
      have := (q2 c L (h0.trans hac) hc le_rfl).2
      linarith
    have g4 : |(c - a) * (f a + f c) / 2| ≤ (c - a) * Bf := by
      have : (c - a) * (f a + f c) / 2 = (c - a) * ((f a + f c) / 2) := by ring
      rw [this, abs_mul, abs_of_nonneg (by linarith : 0 ≤ c - a)]
      apply mul_le_mul_of_nonneg_left _ (by linarith)
      rw [abs_div, abs_two]
      have := abs_add_le (f a) (f c)
      have := hfB a ⟨h0, hac.trans hc⟩
      have := hfB c ⟨h0.trans hac, hc⟩
      linarith
    have g5 : (c - a) * (Φ c - Φ a) ≤ (c - a) * (Φ L - Φ 0) :=
      mul_le_mul_of_nonneg_left g3 (by linarith)
    have g6 := abs_sub ((c - a) * (f a + f c) / 2) ((c - a) * (f a + f c) / 2
      - (exLineT e L own F (t0) c - exLineT e L own F (t0) a))
    rw [sub_sub_cancel] at g6
    have : Bt * (c - a) = (c - a) * Bf + (c - a) * (Φ L - Φ 0) := by rw [hBt]; ring
    linarith
  exact ⟨Φ, Bt, hBt0, q2, q3⟩

/-- The trapezium rule for the shear of a span. -/
theorem shear_quad (g : ℝ) {L : ℝ} (hL : 0 < L) {own : List (Load ℝ)}
    (hown : ∀ ld ∈ own, ld.Plain L) (F : Vec4 ℝ)
    (hst : F 0 = (F 1 + F 3) / L + (own.map fun ld => (ld.ss L 0).V).sum) :
    ∃ Φ, Quad L (fun x => -g * shearLine L own F x) (fun x => -g * smoothN L own F x) Φ := by
  obtain ⟨Φ, hΦ⟩ := quad_sum L own (fun ld x => (ld.ss L x).V)
    (fun ld x => ld.smoothM L x + (ld.ss L 0).V * x) fun ld hld => (hown ld hld).quadV hL
  refine ⟨_, (((quad_linear L ((F 1 + F 3) / L) 0 (-F 1)).add hΦ).smul (-g)).congr ?_ ?_⟩
  · intro x
    simp only [shearLine]
    ring
  · intro x
    have e : (own.map fun ld => ld.smoothM L x + (ld.ss L 0).V * x).sum
        = (own.map fun ld => ld.smoothM L x).sum + (own.map fun ld => (ld.ss L 0).V).sum * x := by
      rw [← list_sum_mul, List.sum_map_add]
    simp only [smoothN]
    rw [e, hst]
    ring

theorem cumTrap_add (h y z : ℕ → ℝ) (k : ℕ) :
    cumTrap h (fun j => y j + z j) k = cumTrap h y k + cumTrap h z k := by
  induction k with
  | zero => simp [cumTrap]
  | succ k ih =>
    rw [cumTrap, cumTrap, cumTrap, ih]
    ring

theorem cumTrap_fixed (h : ℕ → ℝ) (c : ℝ) (k : ℕ) :
    cumTrap h (fun _ => c) k = c * ∑ j ∈ Finset.range k, h j := by
  induction k with
  | zero => simp [cumTrap]
  | succ k ih =>
    rw [cumTrap, ih, Finset.sum_range_succ]
    ring

/-! ### The theorem -/

/-- **C118, partial**: in a beam of slender and shear-flexible prismatic members the reported
rotations and deflections converge to the lines of the exact solution with the reported
displacements and end forces (which exists by `C117_exact_partial`) as the number of stations
grows, at every station between the padding stations and whatever the shear points are.
Such lines exist for every beam with balanced loads, and for no other (`C117_exact_iff`). -/
theorem C118_convergence_partial (b : BeamDef ℝ) (ls : List (SpanLoad ℝ))
    (hls : b.setLoads = .ok ls) (hb : b.Uniform ls) (res : Result ℝ)
    (v ψ : ℕ → ℝ → ℝ) (hE : ShearBeam b ls res.d res.fmbr v ψ) (i : ℕ)
    (hi : i < b.members.length) :
    ∃ C : ℝ, ∀ (npts : ℕ) (sp : ℕ → List ℝ) (rs : List (MRes ℝ)), 0 < npts →
      b.memberResults res npts sp = .ok rs → ∀ (hi' : i < rs.length) (k : ℕ), 0 < k →
      k + 1 < rs[i].n →
      |rs[i].R k - ψ i (rs[i].x k - b.nodeX i)| ≤ C / npts ∧
      |rs[i].D k - v i (rs[i].x k - b.nodeX i)| ≤ C / npts := by
  obtain ⟨⟨e, he, hEI⟩, hGG⟩ := hb.prismatic _ (List.getElem_mem hi)
  have hL := hb.pos _ (List.getElem_mem hi)
  have hown := hb.own hls i hi
  have hsp := hE.span i hi e hEI
  have hel := hsp.bending hL hown
  have hst := hel.start hL hown
  have hv0 := hE.left i hi
  have hvL := hE.right i hi
  have hr0 := hE.rotLeft i hi
  obtain ⟨l2, l1⟩ := hel.eq_line hL hown
  have hpsi := psi0_exact he hL hown hel
  obtain ⟨N0, NL⟩ := smoothN_ends hL hown _ hsp.force hsp.moment
  generalize hm : b.members[i] = m at *
  generalize ho : ownLoads i ls = own at *
  set F := res.fmbr i with hF
  set L := m.L with hLd
  have hL0 : L ≠ 0 := hL.ne'
  set γ := m.shearFlex with hγ
  set t0 := ψ i 0 with ht0
  set w0 := v i 0 + γ * smoothN L own F 0 with hw0
  obtain ⟨Φ, Bt, hBt0, q2, q3⟩ := line_quads he hL hown F hst w0 t0
  obtain ⟨Ψ, q4⟩ := shear_quad γ hL hown F hst
  have q5 := (q3.add q4).add (quad_linear L (-t0) 0 0)
  have hΦ : Φ 0 ≤ Φ L := (q2 0 L le_rfl hL.le le_rfl).2
  have hΨ : Ψ 0 ≤ Ψ L := (q4 0 L le_rfl hL.le le_rfl).2
  set A := Φ L - Φ 0 with hA
  set B := Bt * L + (Ψ L - Ψ 0) with hB
  have hA0 : 0 ≤ A := by linarith
  have hB0 : 0 ≤ B := by
    have := mul_nonneg hBt0 hL.le
    linarith
  -- the exact deflection
  have hv : ∀ x ∈ Icc 0 L, v i x = exLineV e L own F w0 t0 x + -γ * smoothN L own F x := by
    intro x hx
    have := l1 x hx
    linarith
  refine ⟨L * A + (L * A * L + L * B) / L + 2 * (L * A * L + L * B), ?_⟩
  intro npts sp rs hn hr hi' k hk hk'
  obtain ⟨_, ls', hls', hc'⟩ := BeamDef.memberResults_ok hr
  rw [hls] at hls'
  cases hls'
  obtain ⟨c, hc1, hc⟩ := hc' i hi hi'
  obtain ⟨m1, m2, m3, m4, m5, m6, cnls, n1, n2, n3⟩ := Member.ctx_ok hc1
  rw [ho] at m2 n1
  rw [hm] at m1 n1
  obtain ⟨x1, x2, x3, x4, x5, x6⟩ := c.x_spec (by rw [m1]; exact hL) (by rw [m5]; exact hn)
  rw [hc] at hk' ⊢
  simp only [MCtx.result] at hk' ⊢
  rw [show c.x k + b.nodeX i - b.nodeX i = c.x k by ring]
  have hn0 : (0 : ℝ) < npts := by exact_mod_cast hn
  have hcl : c.Ma = (clampedSum L own).Ma ∧ c.Mb = (clampedSum L own).Mb := by
    have hcn : ∀ ld ∈ own, m.cnl ld = .ok (ld.clamped L) := by
      intro ld hld
      have g1 := (hown ld hld).2.1
      have g2 := (hown ld hld).getCnl hL
      cases ld <;> first | exact g1.elim | (simp only [Member.cnl]; rw [g2])
    have : cnls = own.map fun ld => ld.clamped L := by
      obtain ⟨p1, p2⟩ := mapE_ok n1
      apply List.ext_getElem
      · simp [p1]
      · intro j hj1 hj2
        have := p2 j (by simpa using hj2) hj1
        rw [hcn _ (List.getElem_mem _)] at this
        rw [List.getElem_map]
        exact (Except.ok.inj this).symm
    rw [n2, n3, this]
    simp only [List.map_map, Function.comp_def, clampedSum, and_self]
  have hkap : ∀ j, c.kappa j = 0 := by
    intro j
    simp only [MCtx.kappa, m2]
    rw [List.map_congr_left (g := fun _ => (0 : ℝ))]
    · simp
    · intro ld hld
      have g1 := (hown ld hld).2.1
      cases ld <;> first | exact g1.elim | rfl
  -- stations
  set X : ℕ → ℝ := fun j => c.x (j + 1) with hX
  have hXI : ∀ j ≤ c.n - 3, X j ∈ Icc 0 L := by
    intro j hj
    have g1 := x6 0 (j + 1) (by omega) (by omega)
    have g2 := x6 (j + 1) (c.n - 1) (by omega) (by omega)
    rw [x2] at g1
    rw [x5, m1] at g2
    exact ⟨g1, g2⟩
  have hh : ∀ j < c.n - 3, c.h j = X (j + 1) - X j ∧ 0 ≤ c.h j ∧ c.h j ≤ L / npts := by
    intro j hj
    obtain ⟨g1, g2⟩ := c.h_eq (by rw [m1]; exact hL) (by rw [m5]; exact hn) j (by omega)
    refine ⟨g1, ?_, ?_⟩
    · rw [g1]
      have := x6 (j + 1) (j + 2) (by omega) (by omega)
      linarith
    · rw [m1, m5] at g2
      exact g2
  have hX0 : X 0 = 0 := x3
  have hIs : ¬ c.IsEnd k := by simp only [MCtx.IsEnd]; omega
  have hcurv : ∀ j ≤ c.n - 3, c.curv (j + 1) = momentLine e L own F (X j) := by
    intro j hj
    have hIs : ¬ c.IsEnd (j + 1) := by simp only [MCtx.IsEnd]; omega
    simp only [MCtx.curv, hkap, add_zero, MCtx.M, if_neg hIs, m1, m2, m3, hEI, momentLine, hX, ssM_eq,
      mambStn, Rigidity.eval]
    rw [← hLd]
    ring
  have hcong : ∀ (y z : ℕ → ℝ) (k : ℕ), (∀ j ≤ k, y j = z j) → cumTrap c.h y k = cumTrap c.h z k := by
    intro y z k
    induction k with
    | zero => intro _; rfl
    | succ k ih =>
      intro hyz
      rw [cumTrap, cumTrap, ih fun j hj => hyz j (by omega), hyz k (by omega), hyz (k + 1) le_rfl]
  have hgam : ∀ j ≤ c.n - 3, c.gamma j = -γ * shearLine L own F (X j) := by
    intro j hj
    have hIs : ¬ c.IsEnd (j + 1) := by simp only [MCtx.IsEnd]; omega
    rcases hGG with hG | ⟨g, hg, hG⟩
    · simp only [MCtx.gamma, m1, hG, hγ, Member.shearFlex]
      ring
    · simp only [MCtx.gamma, m1, hG, hγ, Member.shearFlex, MCtx.V, if_neg hIs, m2, m3, hX, ssV_eq,
        mambStn, Rigidity.eval, shearLine]
      rw [← hLd]
      ring
  have hsum : ∀ j ≤ c.n - 3, ∑ q ∈ Finset.range j, c.h q = X j := by
    intro j hj
    rw [Finset.sum_congr rfl fun q hq => (hh q (by have := Finset.mem_range.1 hq; omega)).1,
      Finset.sum_range_sub, hX0, sub_zero]
  have hδ : 0 ≤ L / npts := by positivity
  have hrot : ∀ j ≤ c.n - 3, |c.psiProv j - (exLineT e L own F t0 (X j) - t0)| ≤ L / npts * A := by
    intro j hj
    have g := q2.cumTrap X c.h (L / npts) (c.n - 3) hXI hh j hj
    rw [hX0, (line_start e L hL own hown F w0 t0).2] at g
    have e1 : c.psiProv j = cumTrap c.h (fun j => momentLine e L own F (X j)) j := by
      simp only [MCtx.psiProv]
      rw [hcong _ (fun j => momentLine e L own F (X j)) j fun q hq => hcurv q (by omega)]
    rw [e1]
    refine g.trans (mul_le_mul_of_nonneg_left ?_ hδ)
    have := (q2 (X j) L (hXI j hj).1 (hXI j hj).2 le_rfl).2
    linarith
  have hD : ∀ j ≤ c.n - 3, |c.Dprov j - (v i (X j) - v i 0 - t0 * X j)|
      ≤ L / npts * A * L + L / npts * B := by
    intro j hj
    have g := q5.cumTrap X c.h (L / npts) (c.n - 3) hXI hh j hj
    have g2 := cumTrap_close c.h (fun j => c.psiProv j + c.gamma j)
      (fun j => exLineT e L own F t0 (X j) + -γ * shearLine L own F (X j) + (-t0 + 0 * X j))
      (L / npts * A) j (fun q hq => (hh q (by omega)).2.1) (fun q hq => by
        rw [hgam q (by omega)]
        have := hrot q (by omega)
        rw [show c.psiProv q + -γ * shearLine L own F (X q) - (exLineT e L own F t0 (X q)
          + -γ * shearLine L own F (X q) + (-t0 + 0 * X q))
          = c.psiProv q - (exLineT e L own F t0 (X q) - t0) by ring]
        exact this)
    rw [hsum j hj] at g2
    rw [hX0, (line_start e L hL own hown F w0 t0).1] at g
    have e1 : c.Dprov j - (v i (X j) - v i 0 - t0 * X j)
        = (cumTrap c.h (fun j => c.psiProv j + c.gamma j) j
          - cumTrap c.h (fun j => exLineT e L own F t0 (X j) + -γ * shearLine L own F (X j)
            + (-t0 + 0 * X j)) j)
          + (cumTrap c.h (fun j => exLineT e L own F t0 (X j) + -γ * shearLine L own F (X j)
            + (-t0 + 0 * X j)) j
          - (exLineV e L own F w0 t0 (X j) + -γ * smoothN L own F (X j)
              + (0 + -t0 * X j + 0 * X j ^ 2 / 2)
            - (w0 + -γ * smoothN L own F 0 + (0 + -t0 * 0 + 0 * 0 ^ 2 / 2)))) := by
      rw [hv _ (hXI j hj), MCtx.Dprov, hw0]
      ring
    rw [e1]
    refine (abs_add_le _ _).trans (add_le_add (g2.trans ?_) (g.trans ?_))
    · exact mul_le_mul_of_nonneg_left (hXI j hj).2 (mul_nonneg hδ hA0)
    · apply mul_le_mul_of_nonneg_left _ hδ
      have g3 := mul_le_mul_of_nonneg_left (hXI j hj).2 hBt0
      have g4 := (q4 (X j) L (hXI j hj).1 (hXI j hj).2 le_rfl).2
      simp only [hB]
      linarith
  have hXn : X (c.n - 3) = L := by
    have h3 : 3 ≤ c.n := by omega
    simp only [hX]
    rw [show c.n - 3 + 1 = c.n - 2 by omega, x4, m1]
  set δ := L / npts * A * L + L / npts * B with hδd
  have hδ0 : 0 ≤ δ := by positivity
  have hd0 : c.d 0 = v i 0 := by rw [hv0, m4]; rfl
  have hpsi0 : |c.psi0 - t0| ≤ δ / L := by
    have hz : |t0 - t0| ≤ δ / L := by
      rw [sub_self, abs_zero]
      positivity
    simp only [MCtx.psi0]
    split_ifs with t1 t2
    · rw [m1] at t1
      rw [t1] at hr0
      simp only [EType.freeLeft, Bool.false_eq_true, if_false] at hr0
      rw [m4]
      have : elemVec res.d i 1 = t0 := hr0.symm
      rw [this]
      exact hz
    · have g := hD (c.n - 3) le_rfl
      rw [hXn] at g
      have hd2 : c.d 2 = v i L := by rw [hvL, m4]; rfl
      have e1 : c.psiBc - t0 = -((c.Dprov (c.n - 3) - (v i L - v i 0 - t0 * L)) / L) := by
        rw [MCtx.psiBc, hd0, hd2, m1, ← hLd]
        field_simp
        ring
      rw [e1, abs_neg, abs_div, abs_of_pos hL]
      exact div_le_div_of_nonneg_right g hL.le
    · have hG : m.GAv = none := by
        rcases hGG with hG | ⟨g, hg, hG⟩
        · exact hG
        · exfalso
          apply t2
          simp [MCtx.useBc, m1, hG]
      have hγ0 : γ = 0 := by simp only [hγ, Member.shearFlex, hG]
      rw [m1, hEI]
      simp only [MCtx.psiClosed]
      have : (c.d 2 - c.d 0) / L - L / (3 * e) * (-(F 1 - 1 / 2 * F 3)
          + ((clampedSum L own).Ma - 1 / 2 * (clampedSum L own).Mb)) = t0 := by
        rw [← hpsi, hγ0]
        have hd2 : c.d 2 = v i L := by rw [hvL, m4]; rfl
        rw [hd0, hd2, hw0, hγ0]
        simp
      rw [hcl.1, hcl.2, m1, m3, ← hLd, this]
      exact hz
  have hk3 : k - 1 ≤ c.n - 3 := by omega
  have hxk : c.x k = X (k - 1) := by simp only [hX]; rw [show k - 1 + 1 = k by omega]
  have e0 : (L * A + (L * A * L + L * B) / L + 2 * (L * A * L + L * B)) / npts
      = L / npts * A + δ / L + 2 * δ := by
    rw [hδd]
    field_simp
  have p1 : 0 ≤ L / npts * A := mul_nonneg hδ hA0
  have p2 : 0 ≤ δ / L := by positivity
  rw [e0]
  constructor
  · rw [MCtx.R, if_neg hIs, hxk, l2 _ (hXI _ hk3), MCtx.psi]
    have g1 := hrot (k - 1) hk3
    have e1 : c.psiProv (k - 1) + c.psi0 - exLineT e L own F t0 (X (k - 1))
        = (c.psiProv (k - 1) - (exLineT e L own F t0 (X (k - 1)) - t0)) + (c.psi0 - t0) := by ring
    rw [e1]
    refine (abs_add_le _ _).trans ?_
    linarith
  · have g1 := hD (k - 1) hk3
    have e1 : c.defl (k - 1) - v i (X (k - 1))
        = (c.Dprov (k - 1) - (v i (X (k - 1)) - v i 0 - t0 * X (k - 1)))
          + (c.psi0 - t0) * X (k - 1) := by
      have : cumTrap c.h (fun k => c.psi k + c.gamma k) (k - 1)
          = c.Dprov (k - 1) + c.psi0 * X (k - 1) := by
        rw [← hsum _ hk3, ← cumTrap_fixed, MCtx.Dprov, ← cumTrap_add]
        congr 1
        funext j
        rw [MCtx.psi]
        ring
      rw [MCtx.defl, this, hd0]
      ring
    rw [MCtx.D, if_neg hIs, hxk, e1]
    refine (abs_add_le _ _).trans ?_
    have g2 : |(c.psi0 - t0) * X (k - 1)| ≤ δ := by
      rw [abs_mul, abs_of_nonneg (hXI _ hk3).1]
      calc |c.psi0 - t0| * X (k - 1) ≤ δ / L * L :=
            mul_le_mul hpsi0 (hXI _ hk3).2 (hXI _ hk3).1 p2
        _ = δ := by field_simp
    linarith

/-- C118 at two spans, one of them shear-flexible: the results exist for every number of
stations and converge. -/
example : ∃ (solve : Solver ℝ) (res : Result ℝ) (v ψ : ℕ → ℝ → ℝ) (C : ℝ), solve.Sound ∧
    exShearBeam.analyze (fun _ => true) solve = .ok res ∧
    ∀ npts : ℕ, 0 < npts → ∃ rs : List (MRes ℝ), ∃ hi : 0 < rs.length,
      exShearBeam.memberResults res npts (fun _ => []) = .ok rs ∧
      ∀ k, 0 < k → k + 1 < rs[0].n →
        |rs[0].D k - v 0 (rs[0].x k - exShearBeam.nodeX 0)| ≤ C / npts := by
  obtain ⟨solve, res, v, ψ, hsd, hres, hE, _⟩ := exShearBeam_analysed
  obtain ⟨C, hC⟩ := C118_convergence_partial exShearBeam _ exShearBeam_loads exShearBeam_uniform
    res v ψ hE 0 (by simp [exShearBeam])
  refine ⟨solve, res, v, ψ, C, hsd, hres, fun npts hn => ?_⟩
  obtain ⟨rs, hrs⟩ : ∃ rs, exShearBeam.memberResults res npts (fun _ => []) = .ok rs := by
    rw [BeamDef.memberResults, exShearBeam_loads]
    simp [exShearBeam, mapE, Member.values, Member.ctx, ownLoads, Member.cnl, Load.getCnl]
  obtain ⟨hl, _⟩ := BeamDef.memberResults_ok hrs
  have hi : 0 < rs.length := by rw [hl]; simp [exShearBeam]
  exact ⟨rs, hi, hrs, fun k h1 h2 => (hC npts _ rs hn hrs hi k h1 h2).2⟩

end PyCBA
