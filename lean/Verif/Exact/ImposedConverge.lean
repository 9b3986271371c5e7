import Verif.Exact.Imposed
import Verif.Exact.ShearConverge

set_option linter.unusedSectionVars false
set_option linter.unusedSimpArgs false

/-!
C124 for the reported diagrams: shears and bending moments under imposed curvatures are those
of the exact solution at every station, rotations and deflections converge to it.
-/

namespace PyCBA

open MeasureTheory Set Matrix

/-! ### Slender members in general -/

/-- If the curvature used by the code is that of a function `f` whose integral `T` and double
integral `W` the trapezium rule finds, then the rotations and deflections converge to `T` and
`W`. -/
theorem slender_converge {c : MCtx ℝ} {L : ℝ} (hL : 0 < L) {f T W Φ Ψ : ℝ → ℝ}
    (q2 : Quad L f T Φ) (q4 : Quad L T W Ψ) (m1 : c.m.L = L) (hn : 0 < c.npts)
    (hG : c.m.GAv = none)
    (hcurv : ∀ j, 0 < j → j + 1 < c.n → c.curv j = f (c.x j)) (hd0 : c.d 0 = W 0)
    (hd2 : c.d 2 = W L) (hpsi : c.psi0 = T 0 ∨ c.psi0 = c.psiBc) (k : ℕ) (hk : 0 < k)
    (hk' : k + 1 < c.n) :
    |c.R k - T (c.x k)| ≤ (L * (Φ L - Φ 0) + (L * (Φ L - Φ 0) * L + L * (Ψ L - Ψ 0)) / L
      + 2 * (L * (Φ L - Φ 0) * L + L * (Ψ L - Ψ 0))) / c.npts ∧
    |c.D k - W (c.x k)| ≤ (L * (Φ L - Φ 0) + (L * (Φ L - Φ 0) * L + L * (Ψ L - Ψ 0)) / L
      + 2 * (L * (Φ L - Φ 0) * L + L * (Ψ L - Ψ 0))) / c.npts := by
  have hL0 : L ≠ 0 := hL.ne'
  obtain ⟨x1, x2, x3, x4, x5, x6⟩ := c.x_spec (by rw [m1]; exact hL) hn
  have hΦ : Φ 0 ≤ Φ L := (q2 0 L le_rfl hL.le le_rfl).2
  have hΨ : Ψ 0 ≤ Ψ L := (q4 0 L le_rfl hL.le le_rfl).2
  set A := Φ L - Φ 0 with hA
  set B := Ψ L - Ψ 0 with hB
  have hA0 : 0 ≤ A := by linarith
  have hB0 : 0 ≤ B := by linarith
  set t0 := T 0 with ht0
  have hn0 : (0 : ℝ) < c.npts := by exact_mod_cast hn
  have q5 := q4.add (quad_linear L (-t0) 0 0)
  set X : ℕ → ℝ := fun j => c.x (j + 1) with hX
  have hXI : ∀ j ≤ c.n - 3, X j ∈ Icc 0 L := by
    intro j hj
    have g1 := x6 0 (j + 1) (by omega) (by omega)
    have g2 := x6 (j + 1) (c.n - 1) (by omega) (by omega)
    rw [x2] at g1
    rw [x5, m1] at g2
    exact ⟨g1, g2⟩
  have hh : ∀ j < c.n - 3, c.h j = X (j + 1) - X j ∧ 0 ≤ c.h j ∧ c.h j ≤ L / c.npts := by
    intro j hj
    obtain ⟨g1, g2⟩ := c.h_eq (by rw [m1]; exact hL) hn j (by omega)
    refine ⟨g1, ?_, ?_⟩
    · rw [g1]
      have := x6 (j + 1) (j + 2) (by omega) (by omega)
      linarith
    · rw [m1] at g2
      exact g2
  have hX0 : X 0 = 0 := x3
  have hIs : ¬ c.IsEnd k := by simp only [MCtx.IsEnd]; omega
  have hcong : ∀ (y z : ℕ → ℝ) (k : ℕ), (∀ j ≤ k, y j = z j) → cumTrap c.h y k = cumTrap c.h z k := by
    intro y z k
    induction k with
    | zero => intro _; rfl
    | succ k ih =>
      intro hyz
      rw [cumTrap, cumTrap, ih fun j hj => hyz j (by omega), hyz k (by omega), hyz (k + 1) le_rfl]
  have hgam : ∀ j, c.gamma j = 0 := by
    intro j
    simp only [MCtx.gamma, hG]
  have hsum : ∀ j ≤ c.n - 3, ∑ q ∈ Finset.range j, c.h q = X j := by
    intro j hj
    rw [Finset.sum_congr rfl fun q hq => (hh q (by have := Finset.mem_range.1 hq; omega)).1,
      Finset.sum_range_sub, hX0, sub_zero]
  have hδ : 0 ≤ L / c.npts := by positivity
  have hrot : ∀ j ≤ c.n - 3, |c.psiProv j - (T (X j) - t0)| ≤ L / c.npts * A := by
    intro j hj
    have g := q2.cumTrap X c.h (L / c.npts) (c.n - 3) hXI hh j hj
    rw [hX0] at g
    have e1 : c.psiProv j = cumTrap c.h (fun j => f (X j)) j := by
      simp only [MCtx.psiProv]
      rw [hcong _ (fun j => f (X j)) j fun q hq => hcurv (q + 1) (by omega) (by omega)]
    rw [e1]
    refine g.trans (mul_le_mul_of_nonneg_left ?_ hδ)
    have := (q2 (X j) L (hXI j hj).1 (hXI j hj).2 le_rfl).2
    linarith
  have hD : ∀ j ≤ c.n - 3, |c.Dprov j - (W (X j) - W 0 - t0 * X j)|
      ≤ L / c.npts * A * L + L / c.npts * B := by
    intro j hj
    have g := q5.cumTrap X c.h (L / c.npts) (c.n - 3) hXI hh j hj
    have g2 := cumTrap_close c.h (fun j => c.psiProv j + c.gamma j)
      (fun j => T (X j) + (-t0 + 0 * X j))
      (L / c.npts * A) j (fun q hq => (hh q (by omega)).2.1) (fun q hq => by
        rw [hgam q]
        have := hrot q (by omega)
        rw [show c.psiProv q + 0 - (T (X q) + (-t0 + 0 * X q))
          = c.psiProv q - (T (X q) - t0) by ring]
        exact this)
    rw [hsum j hj] at g2
    rw [hX0] at g
    have e1 : c.Dprov j - (W (X j) - W 0 - t0 * X j)
        = (cumTrap c.h (fun j => c.psiProv j + c.gamma j) j
          - cumTrap c.h (fun j => T (X j) + (-t0 + 0 * X j)) j)
          + (cumTrap c.h (fun j => T (X j) + (-t0 + 0 * X j)) j
          - (W (X j) + (0 + -t0 * X j + 0 * X j ^ 2 / 2)
            - (W 0 + (0 + -t0 * 0 + 0 * 0 ^ 2 / 2)))) := by
      rw [MCtx.Dprov]
      ring
    rw [e1]
    refine (abs_add_le _ _).trans (add_le_add (g2.trans ?_) (g.trans ?_))
    · exact mul_le_mul_of_nonneg_left (hXI j hj).2 (mul_nonneg hδ hA0)
    · apply mul_le_mul_of_nonneg_left _ hδ
      have g4 := (q4 (X j) L (hXI j hj).1 (hXI j hj).2 le_rfl).2
      simp only [hB]
      linarith
  have hXn : X (c.n - 3) = L := by
    have h3 : 3 ≤ c.n := by omega
    simp only [hX]
    rw [show c.n - 3 + 1 = c.n - 2 by omega, x4, m1]
  set δ := L / c.npts * A * L + L / c.npts * B with hδd
  have hδ0 : 0 ≤ δ := by positivity
  have hpsi0 : |c.psi0 - t0| ≤ δ / L := by
    rcases hpsi with h | h
    · rw [h, sub_self, abs_zero]
      positivity
    · have g := hD (c.n - 3) le_rfl
      rw [hXn] at g
      have e1 : c.psi0 - t0 = -((c.Dprov (c.n - 3) - (W L - W 0 - t0 * L)) / L) := by
        rw [h, MCtx.psiBc, hd0, hd2, m1]
        field_simp
        ring
      rw [e1, abs_neg, abs_div, abs_of_pos hL]
      exact div_le_div_of_nonneg_right g hL.le
  have hk3 : k - 1 ≤ c.n - 3 := by omega
  have hxk : c.x k = X (k - 1) := by simp only [hX]; rw [show k - 1 + 1 = k by omega]
  have e0 : (L * A + (L * A * L + L * B) / L + 2 * (L * A * L + L * B)) / c.npts
      = L / c.npts * A + δ / L + 2 * δ := by
    rw [hδd]
    field_simp
  have p1 : 0 ≤ L / c.npts * A := mul_nonneg hδ hA0
  have p2 : 0 ≤ δ / L := by positivity
  rw [e0]
  constructor
  · rw [MCtx.R, if_neg hIs, hxk, MCtx.psi]
    have g1 := hrot (k - 1) hk3
    have e1 : c.psiProv (k - 1) + c.psi0 - T (X (k - 1))
        = (c.psiProv (k - 1) - (T (X (k - 1)) - t0)) + (c.psi0 - t0) := by ring
    rw [e1]
    refine (abs_add_le _ _).trans ?_
    linarith
  · have g1 := hD (k - 1) hk3
    have e1 : c.defl (k - 1) - W (X (k - 1))
        = (c.Dprov (k - 1) - (W (X (k - 1)) - W 0 - t0 * X (k - 1)))
          + (c.psi0 - t0) * X (k - 1) := by
      have : cumTrap c.h (fun k => c.psi k + c.gamma k) (k - 1)
          = c.Dprov (k - 1) + c.psi0 * X (k - 1) := by
        rw [← hsum _ hk3, ← cumTrap_fixed, MCtx.Dprov, ← cumTrap_add]
        congr 1
        funext j
        rw [MCtx.psi]
        ring
      rw [MCtx.defl, this, hd0]
      ring
    rw [MCtx.D, if_neg hIs, hxk, e1]
    refine (abs_add_le _ _).trans ?_
    have g2 : |(c.psi0 - t0) * X (k - 1)| ≤ δ := by
      rw [abs_mul, abs_of_nonneg (hXI _ hk3).1]
      calc |c.psi0 - t0| * X (k - 1) ≤ δ / L * L :=
            mul_le_mul hpsi0 (hXI _ hk3).2 (hXI _ hk3).1 p2
        _ = δ := by field_simp
    linarith

/-! ### Imposed curvatures -/

/-- The trapezium rule for a function with a continuous derivative. -/
theorem quad_smooth {L : ℝ} {f G f' : ℝ → ℝ} (hd : ∀ x, HasDerivAt G (f x) x)
    (hf : ∀ x, HasDerivAt f (f' x) x) (hc : Continuous f') : ∃ Φ, Quad L f G Φ := by
  obtain ⟨B, hB⟩ := (isCompact_Icc (a := (0 : ℝ)) (b := L)).exists_bound_of_continuousOn
    hc.continuousOn
  refine ⟨_, quad_lipschitz (B := |B|) hd (abs_nonneg B) fun a b h0 hab hb => ?_⟩
  have := Convex.norm_image_sub_le_of_norm_hasDerivWithin_le (f := f) (f' := f') (s := Icc 0 L)
    (C := |B|) (x := a) (y := b) (fun x _ => (hf x).hasDerivWithinAt)
    (fun x hx => (hB x hx).trans (le_abs_self B)) (convex_Icc 0 L) ⟨h0, hab.trans hb⟩
    ⟨h0.trans hab, hb⟩
  rwa [Real.norm_eq_abs, Real.norm_eq_abs, abs_of_nonneg (by linarith : 0 ≤ b - a)] at this

theorem imposed_quads {L : ℝ} {own : List (Load ℝ)} (hown : ∀ ld ∈ own, ld.Imposable L) :
    (∃ Φ, Quad L (imposedCurv own) (imposedRot own) Φ) ∧
    ∃ Φ, Quad L (imposedRot own) (imposedDefl own) Φ := by
  have hz : ∀ ld ∈ own, ld.IsMechanical → (fun y => ld.kappaImp y) = (fun _ => (0 : ℝ)) ∧
      (fun y => ld.rotImp y) = (fun _ => (0 : ℝ)) ∧ (fun y => ld.deflImp y) = fun _ => (0 : ℝ) := by
    intro ld _ h
    cases ld <;> first | exact h.elim | exact ⟨rfl, rfl, rfl⟩
  have z : Quad L (fun _ => 0) (fun _ => 0) (fun _ => 0) := fun a b _ _ _ => by simp
  constructor
  · refine quad_sum L own (fun ld x => ld.kappaImp x) (fun ld x => ld.rotImp x) fun ld hld => ?_
    rcases hown ld hld with h | ⟨k, E, rfl, hk⟩
    · obtain ⟨h1, h2, h3⟩ := hz ld hld h.2.1
      rw [h1, h2]
      exact ⟨_, z⟩
    · refine quad_smooth (f' := fun x => k.getD 1 0 + 2 * k.getD 2 0 * x)
        (fun x => polyInc_hasDeriv k hk x) (fun x => ?_) (by fun_prop)
      have e : (fun y => (Load.ic k E).kappaImp y)
          = fun y => k.getD 0 0 + k.getD 1 0 * y + k.getD 2 0 * y ^ 2 := by
        funext y
        exact polyInc_quadratic k hk y
      rw [e]
      refine ((((hasDerivAt_const x (k.getD 0 0)).add ((hasDerivAt_id x).const_mul (k.getD 1 0)))).add
        ((hasDerivAt_pow 2 x).const_mul (k.getD 2 0))).congr_deriv ?_
      simp only [Nat.cast_ofNat, Nat.add_one_sub_one, pow_one]
      ring
  · refine quad_sum L own (fun ld x => ld.rotImp x) (fun ld x => ld.deflImp x) fun ld hld => ?_
    rcases hown ld hld with h | ⟨k, E, rfl, hk⟩
    · obtain ⟨h1, h2, h3⟩ := hz ld hld h.2.1
      rw [h2, h3]
      exact ⟨_, z⟩
    · refine quad_smooth (f' := fun x => k.getD 0 0 + k.getD 1 0 * x + k.getD 2 0 * x ^ 2)
        (fun x => ?_) (fun x => ?_) (by fun_prop)
      · have := imposedDefl_deriv [Load.ic k E] x
        have e1 : imposedDefl [Load.ic k E] = fun y => (Load.ic k E).deflImp y := by
          funext y
          simp [imposedDefl]
        have e2 : imposedRot [Load.ic k E] x = (Load.ic k E).rotImp x := by simp [imposedRot]
        rwa [e1, e2] at this
      · have := polyInc_hasDeriv k hk x
        rw [polyInc_quadratic k hk] at this
        exact this

/-- **C124**: at every station between the two padding stations of a member the reported shear
and bending moment are those of a free-body cut of the exact solution, the moment away from
applied couples: imposed curvatures enter through the end forces only. -/
theorem C124_reported (b : BeamDef ℝ) (ls : List (SpanLoad ℝ)) (hls : b.setLoads = .ok ls)
    (hb : b.Imposed ls) (hpp : b.ImposedPins ls) (stable : System ℝ → Bool)
    (solve : Solver ℝ) (hs : solve.Sound) (res : Result ℝ)
    (h : b.analyze stable solve = .ok res) (npts : ℕ) (hn : 0 < npts) (sp : ℕ → List ℝ)
    (rs : List (MRes ℝ)) (hr : b.memberResults res npts sp = .ok rs) (i : ℕ)
    (hi : i < b.members.length) (hi' : i < rs.length) (k : ℕ) (hk : 0 < k)
    (hk' : k + 1 < rs[i].n) :
    rs[i].V k = cutV b.members[i].L (ownLoads i ls) (res.fmbr i) (rs[i].x k - b.nodeX i) ∧
    ((∀ ld ∈ ownLoads i ls, ∀ p ∈ ld.couplesAt, p.2 ≠ rs[i].x k - b.nodeX i) →
      rs[i].M k
        = cutM b.members[i].L (ownLoads i ls) (res.fmbr i) (rs[i].x k - b.nodeX i)) := by
  obtain ⟨v, θ, hE⟩ := C124_exact_partial b ls hls hb hpp stable solve hs res h
  obtain ⟨ls', kk, t, c, hls', _, _, _, m1, m2, m3, m4, m5, m6, hc⟩ :=
    BeamDef.results_member hs h hr i hi hi'
  rw [hls] at hls'
  cases hls'
  obtain ⟨_, e, he, hEI⟩ := hb.prismatic _ (List.getElem_mem hi)
  have hL := hb.pos _ (List.getElem_mem hi)
  have hown := hb.own hls i hi
  have hpl := mechOnly_plain hown
  obtain ⟨x1, x2, x3, x4, x5, x6⟩ := c.x_spec (by rw [m1]; exact hL) (by rw [m5]; exact hn)
  have hst := ((imposedSpan_iff hown _ _ _).1 (hE.span i hi e hEI)).start hL hpl
  rw [hc] at hk' ⊢
  simp only [MCtx.result] at hk' ⊢
  have hx : c.x k + b.nodeX i - b.nodeX i = c.x k := by ring
  rw [hx]
  have hIs : ¬ c.IsEnd k := by simp only [MCtx.IsEnd]; omega
  have hxI : c.x k ∈ Icc 0 b.members[i].L := by
    rw [m1] at x5
    exact ⟨x2 ▸ x6 0 k (by omega) (by omega), x5 ▸ x6 k (c.n - 1) (by omega) (by omega)⟩
  constructor
  · have e1 : cutV b.members[i].L (ownLoads i ls) (res.fmbr i) (c.x k)
        = cutV b.members[i].L (mechOnly (ownLoads i ls)) (res.fmbr i) (c.x k) := by
      simp only [cutV]
      rw [sum_mechOnly _ (fun ld => ld.forceLeft b.members[i].L (c.x k)) fun k E => by
        simp [Load.forceLeft, Load.intensity, Load.forces]]
    rw [e1, cutV_eq hL hpl _ hxI, MCtx.V, if_neg hIs, m1, m2, m3, hst]
    rw [← sum_mechOnly (ownLoads i ls) (fun l => l.ssV b.members[i].L (c.x k)) fun k E => rfl]
    simp only [ssV_eq, mambStn]
    ring
  · intro hcp
    rw [← cutM_mechOnly, cutM_eq hL hpl _ hxI ((mechOnly_couples _ _).2 hcp), MCtx.M, if_neg hIs, m1,
      m2, m3, hst, list_sum_sub, list_sum_mul]
    rw [← sum_mechOnly (ownLoads i ls) (fun l => l.ssM b.members[i].L (c.x k)) fun k E => rfl]
    simp only [ssM_eq, mambStn]
    ring

/-- **C124**: the reported rotations and deflections converge to the lines of the exact
solution with the reported displacements and end forces (which exists by `C124_exact_partial`)
as the number of stations grows, at every station between the padding stations and whatever the
shear points are. -/
theorem C124_convergence (b : BeamDef ℝ) (ls : List (SpanLoad ℝ)) (hls : b.setLoads = .ok ls)
    (hb : b.Imposed ls) (res : Result ℝ) (v θ : ℕ → ℝ → ℝ)
    (hE : ImposedBeam b ls res.d res.fmbr v θ) (i : ℕ) (hi : i < b.members.length) :
    ∃ C : ℝ, ∀ (npts : ℕ) (sp : ℕ → List ℝ) (rs : List (MRes ℝ)), 0 < npts →
      b.memberResults res npts sp = .ok rs → ∀ (hi' : i < rs.length) (k : ℕ), 0 < k →
      k + 1 < rs[i].n →
      |rs[i].R k - θ i (rs[i].x k - b.nodeX i)| ≤ C / npts ∧
      |rs[i].D k - v i (rs[i].x k - b.nodeX i)| ≤ C / npts := by
  obtain ⟨hG, e, he, hEI⟩ := hb.prismatic _ (List.getElem_mem hi)
  have hL := hb.pos _ (List.getElem_mem hi)
  have hown := hb.own hls i hi
  have hpl := mechOnly_plain hown
  have hsp := hE.span i hi e hEI
  have hstiff := hsp.stiffness he.ne' hL hown
  have hel := (imposedSpan_iff hown _ _ _).1 hsp
  have hst := hel.start hL hpl
  have hv0 := hE.left i hi
  have hvL := hE.right i hi
  have hr0 := hE.rotLeft i hi
  obtain ⟨l2, l1⟩ := hel.eq_line hL hpl
  obtain ⟨z1, z2⟩ := imposed_start (ownLoads i ls)
  obtain ⟨⟨Φ1, p1⟩, ⟨Ψ1, p2⟩⟩ := imposed_quads hown
  generalize hm : b.members[i] = m at *
  generalize ho : ownLoads i ls = own at *
  set F := res.fmbr i with hF
  set L := m.L with hLd
  obtain ⟨Φ, Bt, hBt0, q2, q3⟩ := line_quads he hL hpl F hst (v i 0 - imposedDefl own 0)
    (θ i 0 - imposedRot own 0)
  obtain ⟨Φ2, Q2⟩ : ∃ Φ2, Quad L (fun x => momentLine e L (mechOnly own) F x + imposedCurv own x)
      (fun x => exLineT e L (mechOnly own) F (θ i 0 - imposedRot own 0) x + imposedRot own x) Φ2 :=
    ⟨_, q2.add p1⟩
  obtain ⟨Ψ2, Q3⟩ : ∃ Ψ2, Quad L
      (fun x => exLineT e L (mechOnly own) F (θ i 0 - imposedRot own 0) x + imposedRot own x)
      (fun x => exLineV e L (mechOnly own) F (v i 0 - imposedDefl own 0)
        (θ i 0 - imposedRot own 0) x + imposedDefl own x) Ψ2 := ⟨_, q3.add p2⟩
  have hT : ∀ x ∈ Icc 0 L, exLineT e L (mechOnly own) F (θ i 0 - imposedRot own 0) x
      + imposedRot own x = θ i x := fun x hx => by
    rw [← l2 x hx]; ring
  have hW : ∀ x ∈ Icc 0 L, exLineV e L (mechOnly own) F (v i 0 - imposedDefl own 0)
      (θ i 0 - imposedRot own 0) x + imposedDefl own x = v i x := fun x hx => by
    rw [← l1 x hx]; ring
  have h0 : (0 : ℝ) ∈ Icc 0 L := ⟨le_rfl, hL.le⟩
  have h1 : L ∈ Icc 0 L := ⟨hL.le, le_rfl⟩
  refine ⟨L * (Φ2 L - Φ2 0) + (L * (Φ2 L - Φ2 0) * L + L * (Ψ2 L - Ψ2 0)) / L
    + 2 * (L * (Φ2 L - Φ2 0) * L + L * (Ψ2 L - Ψ2 0)), ?_⟩
  intro npts sp rs hn hr hi' k hk hk'
  obtain ⟨_, ls', hls', hc'⟩ := BeamDef.memberResults_ok hr
  rw [hls] at hls'
  cases hls'
  obtain ⟨c, hc1, hc⟩ := hc' i hi hi'
  obtain ⟨m1, m2, m3, m4, m5, m6, cnls, n1, n2, n3⟩ := Member.ctx_ok hc1
  rw [ho] at m2 n1
  rw [hm] at m1 n1
  obtain ⟨x1, x2, x3, x4, x5, x6⟩ := c.x_spec (by rw [m1]; exact hL) (by rw [m5]; exact hn)
  rw [hc] at hk' ⊢
  simp only [MCtx.result] at hk' ⊢
  rw [show c.x k + b.nodeX i - b.nodeX i = c.x k by ring]
  have hcl : c.Ma = (clampedSumE e L own).Ma ∧ c.Mb = (clampedSumE e L own).Mb := by
    have hcn : ∀ ld ∈ own, m.cnl ld = .ok (ld.clampedE e L) := by
      intro ld hld
      rcases hown ld hld with hp | ⟨k, E, rfl, _⟩
      · have g1 := hp.2.1
        have g2 := hp.getCnl hL
        cases ld <;> first | exact g1.elim | (simp only [Member.cnl, Load.clampedE]; rw [g2])
      · simp only [Member.cnl, hEI, Load.clampedE]
        rfl
    have : cnls = own.map fun ld => ld.clampedE e L := by
      obtain ⟨p1, p2⟩ := mapE_ok n1
      apply List.ext_getElem
      · simp [p1]
      · intro j hj1 hj2
        have := p2 j (by simpa using hj2) hj1
        rw [hcn _ (List.getElem_mem _)] at this
        rw [List.getElem_map]
        exact (Except.ok.inj this).symm
    rw [n2, n3, this]
    simp only [List.map_map, Function.comp_def, clampedSumE, and_self]
  have hxk : c.x k ∈ Icc 0 L := by
    rw [m1, ← hLd] at x5
    exact ⟨x2 ▸ x6 0 k (by omega) (by omega), x5 ▸ x6 k (c.n - 1) (by omega) (by omega)⟩
  have hd0 : c.d 0 = v i 0 := by rw [hv0, m4]; rfl
  have hd2 : c.d 2 = v i L := by rw [hvL, m4]; rfl
  have key := slender_converge (c := c) hL Q2 Q3 (by rw [m1]) (by rw [m5]; exact hn)
    (by rw [m1]; exact hG) (fun j hj hj' => by
      have hIs : ¬ c.IsEnd j := by simp only [MCtx.IsEnd]; omega
      simp only [MCtx.curv, MCtx.kappa, MCtx.M, if_neg hIs, m1, m2, m3, hEI, momentLine, mambStn,
        Rigidity.eval, imposedCurv]
      rw [← sum_mechOnly own (fun l => l.ssM m.L (c.x j)) fun k E => rfl]
      simp only [ssM_eq]
      rw [← hLd]
      ring)
    (by rw [hW 0 h0, hd0]) (by rw [hW L h1, hd2]) (by
      rw [hT 0 h0]
      simp only [MCtx.psi0]
      split_ifs with t1 t2
      · left
        rw [m1] at t1
        rw [t1] at hr0
        simp only [EType.freeLeft, Bool.false_eq_true, if_false] at hr0
        rw [m4]
        exact hr0.symm
      · exact .inr rfl
      · left
        rw [m1, hEI]
        simp only [MCtx.psiClosed]
        rw [hcl.1, hcl.2, m1, m3, ← hLd, hd0, hd2, ← hF]
        have g1 := congrFun hstiff 1
        have g3 := congrFun hstiff 3
        simp only [kFF_mulVec, Pi.add_apply, CNL.vec, Matrix.cons_val] at g1 g3
        rw [g1, g3]
        have := hL.ne'
        have := he.ne'
        field_simp
        ring) k hk hk'
  rw [hT _ hxk, hW _ hxk, m5] at key
  exact key

/-! ### Concrete cases -/

/-- Two spans: a clamp, a support and a hinged end, with a thermal curvature on the first span
and a uniform load and a parabolic curvature on the second, which is released on its left. -/
noncomputable def exThermal : BeamDef ℝ :=
  ⟨[⟨.const 6, 2, .FF, none⟩, ⟨.const 6, 3, .PF, none⟩], [-1, -1, -1, 0, -1, -1],
    [none, none, none, none, none, none], [⟨1, 6, [5]⟩, ⟨2, 1, [3]⟩, ⟨2, 6, [1, 0, 2]⟩]⟩

theorem exThermal_loads : exThermal.setLoads
    = .ok [⟨0, .ic [5] none⟩, ⟨1, .udl 3⟩, ⟨1, .ic [1, 0, 2] none⟩] := by
  simp [BeamDef.setLoads, exThermal, parseLM, parseRow]

theorem exThermal_imposed : exThermal.Imposed
    [⟨0, .ic [5] none⟩, ⟨1, .udl 3⟩, ⟨1, .ic [1, 0, 2] none⟩] := by
  refine ⟨by simp [exThermal], ?_, ?_⟩
  · intro m hm
    simp only [exThermal, List.mem_cons, List.not_mem_nil, or_false] at hm
    rcases hm with rfl | rfl <;> exact ⟨rfl, 6, by norm_num, rfl⟩
  · intro i hi l hl hli
    simp only [List.mem_cons, List.not_mem_nil, or_false] at hl
    rcases hl with rfl | rfl | rfl
    · exact .inr ⟨_, _, rfl, by simp⟩
    · exact .inl ⟨trivial, trivial⟩
    · exact .inr ⟨_, _, rfl, by simp⟩

/-- C124 at this beam: the analysis completes, it solves the continuous problem, and the
reported deflections of the released span converge to its elastic line. -/
example : ∃ (solve : Solver ℝ) (res : Result ℝ) (v θ : ℕ → ℝ → ℝ) (C : ℝ), solve.Sound ∧
    exThermal.analyze (fun _ => true) solve = .ok res ∧
    ImposedBeam exThermal [⟨0, .ic [5] none⟩, ⟨1, .udl 3⟩, ⟨1, .ic [1, 0, 2] none⟩] res.d res.fmbr
      v θ ∧
    ∀ npts : ℕ, 0 < npts → ∃ rs : List (MRes ℝ), ∃ hi : 1 < rs.length,
      exThermal.memberResults res npts (fun _ => []) = .ok rs ∧
      ∀ k, 0 < k → k + 1 < rs[1].n →
        |rs[1].D k - v 1 (rs[1].x k - exThermal.nodeX 1)| ≤ C / npts := by
  obtain ⟨s, hs⟩ : ∃ s, exThermal.system = .ok s := by
    rw [BeamDef.system, exThermal_loads]
    simp [exThermal, mapE, Member.spanK, Member.refSum, Member.ref, Member.cnl, Load.getCnl]
  obtain ⟨hn, hk, _, hr, hp, _, _⟩ := BeamDef.system_ok hs
  have hpn : ∀ i : ℕ, exThermal.presc.getD i none = none := by
    intro i
    rcases i with _ | _ | _ | _ | _ | _ | i <;> simp [exThermal]
  have hns : s.Nonsingular := by
    have hn1 : s.n = 2 := hn
    have hN : s.N = 6 := by simp [System.N, hn1]
    have hk0 : s.kb 0 = kFF 6 2 := by
      have := hk 0 (by simp [exThermal])
      simp [exThermal, Member.spanK] at this
      exact this.symm
    have hk1 : s.kb 1 = kPF 6 3 := by
      have := hk 1 (by simp [exThermal])
      simp [exThermal, Member.spanK] at this
      exact this.symm
    have cc : ∀ p : ℕ, p = 0 ∨ p = 1 ∨ p = 2 ∨ p = 4 ∨ p = 5 → (s.constr p).isSome := by
      intro p h
      simp only [System.constr, hp, hpn, hr]
      rcases h with rfl | rfl | rfl | rfl | rfl <;> simp [exThermal]
    have cn : s.constr 3 = none := by
      simp only [System.constr, hp, hpn, hr]
      simp [exThermal]
    intro x hx hf
    have x0 := hx 0 (by omega) (cc 0 (by simp))
    have x1 := hx 1 (by omega) (cc 1 (by simp))
    have x2 := hx 2 (by omega) (cc 2 (by simp))
    have x4 := hx 4 (by omega) (cc 4 (by simp))
    have x5 := hx 5 (by omega) (cc 5 (by simp))
    have f3 := hf 3 (by omega) cn
    rw [s.mulN_assemble _ _ (by omega), hn1] at f3
    simp [Finset.sum_range_succ, hk0, hk1, kPF, blockVec, mulVec4, elemVec, kFF, x0, x1, x2,
      System.spring, hr, exThermal] at f3
    intro p hp
    rw [hN] at hp
    interval_cases p <;> assumption
  obtain ⟨solve, hsd, res, hres⟩ := BeamDef.completes hs hns (by
    simp only [System.validate, hp]
    simp only [hpn]
    simp)
  have hpp : exThermal.ImposedPins [⟨0, .ic [5] none⟩, ⟨1, .udl 3⟩, ⟨1, .ic [1, 0, 2] none⟩] :=
    exThermal.imposedPins_of (by
      intro m hm
      simp only [exThermal, List.mem_cons, List.not_mem_nil, or_false] at hm
      rcases hm with rfl | rfl <;> simp) _
  obtain ⟨v, θ, hE⟩ := C124_exact_partial exThermal _ exThermal_loads exThermal_imposed hpp _ solve hsd
    res hres
  obtain ⟨C, hC⟩ := C124_convergence exThermal _ exThermal_loads exThermal_imposed res v θ hE 1
    (by simp [exThermal])
  refine ⟨solve, res, v, θ, C, hsd, hres, hE, fun npts hn => ?_⟩
  obtain ⟨rs, hrs⟩ : ∃ rs, exThermal.memberResults res npts (fun _ => []) = .ok rs := by
    rw [BeamDef.memberResults, exThermal_loads]
    simp [exThermal, mapE, Member.values, Member.ctx, ownLoads, Member.cnl, Load.getCnl]
  obtain ⟨hl, _⟩ := BeamDef.memberResults_ok hrs
  have hi : 1 < rs.length := by rw [hl]; simp [exThermal]
  exact ⟨rs, hi, hrs, fun k h1 h2 => (hC npts _ rs hn hrs hi k h1 h2).2⟩

/-- A simply supported span under a linear curvature. -/
noncomputable def exWarm : BeamDef ℝ :=
  ⟨[⟨.const 6, 2, .FF, none⟩], [-1, 0, -1, 0], [none, none, none, none], [⟨1, 6, [3, 6]⟩]⟩

/-- C124 at a simply supported span: it takes the free shape, and there are no forces. -/
example : ∃ (solve : Solver ℝ) (res : Result ℝ), solve.Sound ∧
    exWarm.analyze (fun _ => true) solve = .ok res ∧ res.fmbr 0 = 0 ∧ res.d 1 = -7 := by
  have hls : exWarm.setLoads = .ok [⟨0, .ic [3, 6] none⟩] := by
    simp [BeamDef.setLoads, exWarm, parseLM, parseRow]
  have hb : exWarm.Imposed [⟨0, .ic [3, 6] none⟩] := by
    refine ⟨by simp [exWarm], ?_, ?_⟩
    · intro m hm
      simp only [exWarm, List.mem_cons, List.not_mem_nil, or_false] at hm
      rcases hm with rfl
      exact ⟨rfl, 6, by norm_num, rfl⟩
    · intro i hi l hl hli
      simp only [List.mem_cons, List.not_mem_nil, or_false] at hl
      rcases hl with rfl
      exact .inr ⟨_, _, rfl, by simp⟩
  obtain ⟨s, hs⟩ : ∃ s, exWarm.system = .ok s := by
    rw [BeamDef.system, hls]
    simp [exWarm, mapE, Member.spanK, Member.refSum, Member.ref, Member.cnl, Load.getCnl]
  have hff : ∀ m ∈ exWarm.members, m.et = .FF := by
    intro m hm
    simp only [exWarm, List.mem_cons, List.not_mem_nil, or_false] at hm
    rcases hm with rfl
    rfl
  have hns := C77_adequate_supports exWarm (by
    intro m hm
    refine ⟨?_, hff m hm⟩
    simp only [exWarm, List.mem_cons, List.not_mem_nil, or_false] at hm
    rcases hm with rfl
    simp [Member.Good, Rigidity.Good]) s hs 0 1 (by simp)
    (by simp [exWarm]) (by simp [exWarm]) (Or.inl (by simp [exWarm]))
  have hpn : ∀ i : ℕ, exWarm.presc.getD i none = none := by
    intro i
    rcases i with _ | _ | _ | _ | i <;> simp [exWarm]
  obtain ⟨hn, hk, _, hr, hp, _, _⟩ := BeamDef.system_ok hs
  obtain ⟨solve, hsd, res, hres⟩ := BeamDef.completes hs hns (by
    simp only [System.validate, hp]
    simp only [hpn]
    simp)
  have hpp := exWarm.imposedPins_of (fun m hm => by rw [hff m hm]; simp) [⟨0, .ic [3, 6] none⟩]
  have d1 : ∀ x : ℝ, HasDerivAt (fun x : ℝ => 3 / 2 * x ^ 2 + x ^ 3 - 7 * x)
      (3 * x + 3 * x ^ 2 - 7) x := by
    intro x
    refine ((((hasDerivAt_pow 2 x).const_mul (3 / 2 : ℝ)).add (hasDerivAt_pow 3 x)).sub
      ((hasDerivAt_id x).const_mul 7)).congr_deriv ?_
    simp only [Nat.cast_ofNat, Nat.add_one_sub_one, pow_one]
    ring
  have d2 : ∀ x : ℝ, HasDerivAt (fun x : ℝ => 3 * x + 3 * x ^ 2 - 7) (3 + 6 * x) x := by
    intro x
    refine ((((hasDerivAt_id x).const_mul 3).add ((hasDerivAt_pow 2 x).const_mul 3)).sub_const
      7).congr_deriv ?_
    simp only [Nat.cast_ofNat, Nat.add_one_sub_one, pow_one]
    ring
  have hv : FreeShape exWarm [⟨0, .ic [3, 6] none⟩]
      (fun p => if p = 1 then -7 else if p = 3 then 11 else 0)
      (fun _ x => 3 / 2 * x ^ 2 + x ^ 3 - 7 * x) (fun _ x => 3 * x + 3 * x ^ 2 - 7) := by
    refine ⟨fun i hi x hx => d1 x, fun i hi x hx => ?_, fun i hi => by fun_prop,
      fun i hi => by fun_prop, fun i hi => ?_, fun i hi => ?_, fun i hi _ => ?_, fun i hi _ => ?_,
      fun p _ w hw => ?_, fun p hp' _ hr' => ?_⟩
    · have hi0 : i = 0 := by simpa [exWarm] using hi
      subst hi0
      have e : imposedCurv (ownLoads 0 [⟨0, .ic [3, 6] none⟩]) x = 3 + 6 * x := by
        simp [imposedCurv, ownLoads, Load.kappaImp, polyInc]
        ring
      rw [e]
      exact d2 x
    · have hi0 : i = 0 := by simpa [exWarm] using hi
      subst hi0
      norm_num
    · have hi0 : i = 0 := by simpa [exWarm] using hi
      subst hi0
      norm_num [exWarm]
    · have hi0 : i = 0 := by simpa [exWarm] using hi
      subst hi0
      norm_num
    · have hi0 : i = 0 := by simpa [exWarm] using hi
      subst hi0
      norm_num [exWarm]
    · rw [hpn] at hw
      cases hw
    · have h4 : p < 4 := by simpa [exWarm] using hp'
      interval_cases p <;> simp [exWarm] at hr' ⊢
  obtain ⟨g1, g2⟩ := C124_compatible exWarm _ hls hb hpp (by
    intro l hl
    simp only [List.mem_cons, List.not_mem_nil, or_false] at hl
    rcases hl with rfl
    exact ⟨_, _, rfl⟩) s hs hns _ _ _ hv _ solve hsd res hres
  exact ⟨solve, res, hsd, hres, g2 0 (by simp [exWarm]), by
    rw [g1 1 (by simp [exWarm])]
    simp⟩

end PyCBA
