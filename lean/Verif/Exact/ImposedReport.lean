import Verif.Exact.ImposedShearAny

set_option linter.unusedSectionVars false
set_option linter.unusedSimpArgs false

/-!
C146 along the members: with imposed curvatures of any degree the reported shears, moments, rotations
and deflections are within a proven distance of the lines of the exact solution.
-/

namespace PyCBA

open MeasureTheory Set Matrix

/-! ### How the reported lines depend on end forces and displacements -/

/-- How much the reported lines of a prismatic member change with its end forces and displacements. -/
noncomputable def Member.sens (m : Member ℝ) : ℝ :=
  let L := m.L
  let e := m.EI.value
  let p := 3 * L / e
  let g := 2 * m.shearFlex / L
  let p0 := 1 + 2 / L + (p + g) + L / e
  3 + 2 / L + (p + p0) + ((p + p0 + g) * L + 1)

theorem Member.Uniform.shearFlex_nonneg {m : Member ℝ} (h : m.Uniform) : 0 ≤ m.shearFlex := by
  rcases h.2.2 with hG | ⟨g, hg, hG⟩ <;> simp only [Member.shearFlex, hG]
  · exact le_rfl
  · positivity

theorem MCtx.stable {c c' : MCtx ℝ} (hu : c.m.Uniform) (hn : 0 < c.npts) (hm : c'.m = c.m)
    (ho : c'.own = c.own) (hnp : c'.npts = c.npts) (hsp : c'.sp = c.sp) {η : ℝ} (hη : 0 ≤ η)
    (hf : ∀ j, |c.f j - c'.f j| ≤ η) (hd : ∀ j, |c.d j - c'.d j| ≤ η) (hMa : |c.Ma - c'.Ma| ≤ η)
    (hMb : |c.Mb - c'.Mb| ≤ η) (k : ℕ) (hk : 0 < k) (hk' : k + 1 < c.n) :
    |c.V k - c'.V k| ≤ c.m.sens * η ∧ |c.M k - c'.M k| ≤ c.m.sens * η ∧
    |c.R k - c'.R k| ≤ c.m.sens * η ∧ |c.D k - c'.D k| ≤ c.m.sens * η := by
  have hγ := hu.shearFlex_nonneg
  obtain ⟨hL, ⟨e, he, hEI⟩, hG⟩ := hu
  have hL0 := hL.ne'
  have he0 := he.ne'
  have hgr : c'.grid = c.grid := by simp only [MCtx.grid, hm, hnp, hsp]
  have hnn : c'.n = c.n := by simp only [MCtx.n, hgr]
  have hx : c'.x = c.x := by simp only [MCtx.x, hgr]
  have hh : c'.h = c.h := by
    funext j
    simp only [MCtx.h, hm, hnp, hsp, hx]
  have hend : ∀ j, c'.IsEnd j ↔ c.IsEnd j := fun j => by simp only [MCtx.IsEnd, hnn]
  have hkap : c'.kappa = c.kappa := by
    funext j
    simp only [MCtx.kappa, ho, hx]
  have hbc : c'.useBc = c.useBc := by simp only [MCtx.useBc, hm, hnn, hkap]
  obtain ⟨x1, x2, x3, x4, x5, x6⟩ := c.x_spec hL hn
  set L := c.m.L with hLd
  set γ := c.m.shearFlex with hγd
  set p := 3 * L / e with hp
  set g := 2 * γ / L with hg
  set p0 := 1 + 2 / L + (p + g) + L / e with hp0
  have hs : c.m.sens = 3 + 2 / L + (p + p0) + ((p + p0 + g) * L + 1) := by
    simp only [Member.sens, hEI, Rigidity.value, ← hLd, ← hγd, ← hp, ← hg, ← hp0]
  have hpn : 0 ≤ p := by positivity
  have hgn : 0 ≤ g := by positivity
  have hp0n : 0 ≤ p0 := by positivity
  have hxI : ∀ j, 0 < j → j + 1 < c.n → c.x j ∈ Icc 0 L := by
    intro j h1 h2
    exact ⟨x2 ▸ x6 0 j (by omega) (by omega), x5 ▸ x6 j (c.n - 1) (by omega) (by omega)⟩
  have f1 := hf 1
  have f3 := hf 3
  have f13 : |(c.f 1 + c.f 3) - (c'.f 1 + c'.f 3)| ≤ 2 * η := by
    rw [show (c.f 1 + c.f 3) - (c'.f 1 + c'.f 3) = (c.f 1 - c'.f 1) + (c.f 3 - c'.f 3) by ring]
    exact (abs_add_le _ _).trans (by linarith)
  have hV : ∀ j, 0 < j → j + 1 < c.n → |c.V j - c'.V j| ≤ 2 / L * η := by
    intro j h1 h2
    have hI : ¬ c.IsEnd j := by simp only [MCtx.IsEnd]; omega
    rw [MCtx.V, MCtx.V, if_neg hI, if_neg ((hend j).not.2 hI), hm, ho, hx]
    simp only [mambStn, ← hLd]
    rw [show (c.f 1 + c.f 3) / L + (c.own.map fun l => l.ssV L (c.x j)).sum
      - ((c'.f 1 + c'.f 3) / L + (c.own.map fun l => l.ssV L (c.x j)).sum)
      = ((c.f 1 + c.f 3) - (c'.f 1 + c'.f 3)) / L by ring, abs_div, abs_of_pos hL]
    calc _ ≤ 2 * η / L := div_le_div_of_nonneg_right f13 hL.le
      _ = 2 / L * η := by ring
  have hM : ∀ j, 0 < j → j + 1 < c.n → |c.M j - c'.M j| ≤ 3 * η := by
    intro j h1 h2
    have hI : ¬ c.IsEnd j := by simp only [MCtx.IsEnd]; omega
    obtain ⟨y1, y2⟩ := hxI j h1 h2
    rw [MCtx.M, MCtx.M, if_neg hI, if_neg ((hend j).not.2 hI), hm, ho, hx]
    simp only [mambStn, ← hLd]
    rw [show (c.f 1 + c.f 3) / L * c.x j - c.f 1 + (c.own.map fun l => l.ssM L (c.x j)).sum
      - ((c'.f 1 + c'.f 3) / L * c.x j - c'.f 1 + (c.own.map fun l => l.ssM L (c.x j)).sum)
      = ((c.f 1 + c.f 3) - (c'.f 1 + c'.f 3)) * (c.x j / L) + -(c.f 1 - c'.f 1) by ring]
    refine (abs_add_le _ _).trans ?_
    rw [abs_neg, abs_mul, abs_of_nonneg (div_nonneg y1 hL.le)]
    have : |(c.f 1 + c.f 3) - (c'.f 1 + c'.f 3)| * (c.x j / L) ≤ 2 * η * 1 :=
      mul_le_mul f13 ((div_le_one hL).2 y2) (div_nonneg y1 hL.le) (by linarith)
    linarith
  have hcur : ∀ j, j + 2 < c.n → |c.curv (j + 1) - c'.curv (j + 1)| ≤ 3 / e * η := by
    intro j h2
    simp only [MCtx.curv, hm, hEI, Rigidity.eval, hkap]
    rw [show c.M (j + 1) / e + c.kappa (j + 1) - (c'.M (j + 1) / e + c.kappa (j + 1))
      = (c.M (j + 1) - c'.M (j + 1)) / e by ring, abs_div, abs_of_pos he]
    calc _ ≤ 3 * η / e := div_le_div_of_nonneg_right (hM (j + 1) (by omega) (by omega)) he.le
      _ = 3 / e * η := by ring
  have hgam : ∀ j, j + 2 < c.n → |c.gamma j - c'.gamma j| ≤ g * η := by
    intro j h2
    rcases hG with hG | ⟨G, hG0, hG⟩
    · simp only [MCtx.gamma, hm, hG, sub_self, abs_zero]
      positivity
    · simp only [MCtx.gamma, hm, hG, Rigidity.eval]
      rw [show -c.V (j + 1) / G - -c'.V (j + 1) / G = -((c.V (j + 1) - c'.V (j + 1)) / G) by ring,
        abs_neg, abs_div, abs_of_pos hG0]
      have e1 : γ = 1 / G := by simp only [hγd, Member.shearFlex, hG]
      calc _ ≤ 2 / L * η / G := div_le_div_of_nonneg_right (hV (j + 1) (by omega) (by omega)) hG0.le
        _ = g * η := by rw [hg, e1]; ring
  have hhn : ∀ j < c.n - 3, 0 ≤ c.h j := by
    intro j hj
    rw [(c.h_eq hL hn j (by omega)).1]
    have := x6 (j + 1) (j + 2) (by omega) (by omega)
    linarith
  have hsum : ∀ j ≤ c.n - 3, ∑ q ∈ Finset.range j, c.h q ≤ L := by
    intro j hj
    have : ∑ q ∈ Finset.range j, c.h q = c.x (j + 1) := by
      rw [Finset.sum_congr rfl fun q hq =>
        (c.h_eq hL hn q (by have := Finset.mem_range.1 hq; omega)).1,
        Finset.sum_range_sub (fun q => c.x (q + 1)), x3, sub_zero]
    rw [this]
    exact x5 ▸ x6 (j + 1) (c.n - 1) (by omega) (by omega)
  have hpsi : ∀ j ≤ c.n - 3, |c.psiProv j - c'.psiProv j| ≤ p * η := by
    intro j hj
    simp only [MCtx.psiProv, hh]
    refine (cumTrap_close c.h _ _ (3 / e * η) j (fun q hq => hhn q (by omega))
      (fun q hq => hcur q (by omega))).trans ?_
    refine (mul_le_mul_of_nonneg_left (hsum j hj) (by positivity)).trans (le_of_eq ?_)
    rw [hp]; ring
  have hDp : ∀ j ≤ c.n - 3, |c.Dprov j - c'.Dprov j| ≤ (p + g) * η * L := by
    intro j hj
    simp only [MCtx.Dprov, hh]
    refine (cumTrap_close c.h _ _ ((p + g) * η) j (fun q hq => hhn q (by omega))
      (fun q hq => ?_)).trans (mul_le_mul_of_nonneg_left (hsum j hj) (by positivity))
    rw [show c.psiProv q + c.gamma q - (c'.psiProv q + c'.gamma q)
      = (c.psiProv q - c'.psiProv q) + (c.gamma q - c'.gamma q) by ring, add_mul]
    exact (abs_add_le _ _).trans (add_le_add (hpsi q (by omega)) (hgam q (by omega)))
  have d02 : |(c.d 2 - c.d 0) - (c'.d 2 - c'.d 0)| ≤ 2 * η := by
    rw [show (c.d 2 - c.d 0) - (c'.d 2 - c'.d 0) = (c.d 2 - c'.d 2) + -(c.d 0 - c'.d 0) by ring]
    refine (abs_add_le _ _).trans ?_
    rw [abs_neg]
    linarith [hd 0, hd 2]
  have hη' : 0 ≤ 1 / L * η := by positivity
  have hbcd : |c.psiBc - c'.psiBc| ≤ p0 * η := by
    simp only [MCtx.psiBc, hm, hnn, ← hLd]
    rw [show (c.d 2 - c.d 0 - c.Dprov (c.n - 3)) / L - (c'.d 2 - c'.d 0 - c'.Dprov (c.n - 3)) / L
      = ((c.d 2 - c.d 0) - (c'.d 2 - c'.d 0) + -(c.Dprov (c.n - 3) - c'.Dprov (c.n - 3))) / L by ring,
      abs_div, abs_of_pos hL]
    have h1 : |(c.d 2 - c.d 0) - (c'.d 2 - c'.d 0) + -(c.Dprov (c.n - 3) - c'.Dprov (c.n - 3))|
        ≤ 2 * η + (p + g) * η * L := by
      refine (abs_add_le _ _).trans ?_
      rw [abs_neg]
      exact add_le_add d02 (hDp _ le_rfl)
    refine (div_le_div_of_nonneg_right h1 hL.le).trans ?_
    have h2 : (2 * η + (p + g) * η * L) / L = 2 / L * η + (p + g) * η := by field_simp
    rw [h2, hp0]
    have h3 : 0 ≤ L / e * η := by positivity
    linarith
  have hcl : |c.psiClosed e - c'.psiClosed e| ≤ p0 * η := by
    simp only [MCtx.psiClosed, hm, ← hLd]
    rw [show (c.d 2 - c.d 0) / L - L / (3 * e) * (-(c.f 1 - 1 / 2 * c.f 3) + (c.Ma - 1 / 2 * c.Mb))
      - ((c'.d 2 - c'.d 0) / L - L / (3 * e) * (-(c'.f 1 - 1 / 2 * c'.f 3) + (c'.Ma - 1 / 2 * c'.Mb)))
      = ((c.d 2 - c.d 0) - (c'.d 2 - c'.d 0)) / L + L / (3 * e) * ((c.f 1 - c'.f 1)
        - 1 / 2 * (c.f 3 - c'.f 3) - (c.Ma - c'.Ma) + 1 / 2 * (c.Mb - c'.Mb)) by ring]
    refine (abs_add_le _ _).trans ?_
    have h1 : |((c.d 2 - c.d 0) - (c'.d 2 - c'.d 0)) / L| ≤ 2 / L * η := by
      rw [abs_div, abs_of_pos hL]
      exact (div_le_div_of_nonneg_right d02 hL.le).trans (le_of_eq (by ring))
    have h2 : |(c.f 1 - c'.f 1) - 1 / 2 * (c.f 3 - c'.f 3) - (c.Ma - c'.Ma)
        + 1 / 2 * (c.Mb - c'.Mb)| ≤ 3 * η := by
      obtain ⟨a1, b1⟩ := abs_le.1 f1
      obtain ⟨a2, b2⟩ := abs_le.1 f3
      obtain ⟨a3, b3⟩ := abs_le.1 hMa
      obtain ⟨a4, b4⟩ := abs_le.1 hMb
      rw [abs_le]
      constructor <;> linarith
    have h3 : |L / (3 * e) * ((c.f 1 - c'.f 1) - 1 / 2 * (c.f 3 - c'.f 3) - (c.Ma - c'.Ma)
        + 1 / 2 * (c.Mb - c'.Mb))| ≤ L / e * η := by
      rw [abs_mul, abs_of_pos (by positivity : 0 < L / (3 * e))]
      refine (mul_le_mul_of_nonneg_left h2 (by positivity)).trans (le_of_eq ?_)
      field_simp
    rw [hp0]
    have h4 : 0 ≤ (p + g) * η := by positivity
    linarith
  have hψ0 : |c.psi0 - c'.psi0| ≤ p0 * η := by
    simp only [MCtx.psi0, hm, hbc, hEI]
    split_ifs with t1 t2
    · refine (hd 1).trans ?_
      have h3 : 0 ≤ (2 / L + (p + g) + L / e) * η := by positivity
      rw [hp0]
      linarith
    · exact hbcd
    · exact hcl
  have hps : ∀ j ≤ c.n - 3, |c.psi j - c'.psi j| ≤ (p + p0) * η := by
    intro j hj
    simp only [MCtx.psi]
    rw [show c.psiProv j + c.psi0 - (c'.psiProv j + c'.psi0)
      = (c.psiProv j - c'.psiProv j) + (c.psi0 - c'.psi0) by ring, add_mul]
    exact (abs_add_le _ _).trans (add_le_add (hpsi j hj) hψ0)
  have hdf : ∀ j ≤ c.n - 3, |c.defl j - c'.defl j| ≤ ((p + p0 + g) * L + 1) * η := by
    intro j hj
    simp only [MCtx.defl, hh]
    have h1 := (cumTrap_close c.h (fun q => c.psi q + c.gamma q) (fun q => c'.psi q + c'.gamma q)
      ((p + p0 + g) * η) j (fun q hq => hhn q (by omega)) (fun q hq => by
        rw [show c.psi q + c.gamma q - (c'.psi q + c'.gamma q)
          = (c.psi q - c'.psi q) + (c.gamma q - c'.gamma q) by ring, add_mul _ g]
        exact (abs_add_le _ _).trans (add_le_add (hps q (by omega)) (hgam q (by omega))))).trans
      (mul_le_mul_of_nonneg_left (hsum j hj) (by positivity))
    rw [show ∀ a b u v : ℝ, a + u - (b + v) = (a - b) + (u - v) by intros; ring]
    refine (abs_add_le _ _).trans ?_
    have := hd 0
    linarith
  have hIs : ¬ c.IsEnd k := by simp only [MCtx.IsEnd]; omega
  have hIs' := (hend k).not.2 hIs
  have q1 : 0 ≤ 2 / L * η := by positivity
  have q2 : 0 ≤ (p + p0) * η := by positivity
  have q3 : 0 ≤ ((p + p0 + g) * L + 1) * η := by positivity
  have hsη : c.m.sens * η
      = 3 * η + 2 / L * η + (p + p0) * η + ((p + p0 + g) * L + 1) * η := by rw [hs]; ring
  rw [hsη]
  refine ⟨(hV k hk hk').trans (by linarith), (hM k hk hk').trans (by linarith), ?_, ?_⟩
  · rw [MCtx.R, MCtx.R, if_neg hIs, if_neg hIs']
    exact (hps (k - 1) (by omega)).trans (by linarith)
  · rw [MCtx.D, MCtx.D, if_neg hIs, if_neg hIs']
    exact (hdf (k - 1) (by omega)).trans (by linarith)

/-! ### The lines of the exact solution -/

theorem polyInc_smooth (k : List ℝ) :
    ∃ f' : ℝ → ℝ, (∀ x, HasDerivAt (fun y => polyInc k y) (f' x) x) ∧ Continuous f' := by
  induction k with
  | nil => exact ⟨fun _ => 0, fun x => hasDerivAt_const x 0, continuous_const⟩
  | cons a l ih =>
    obtain ⟨f', h1, h2⟩ := ih
    have hc := polyInc_continuous l
    refine ⟨fun x => polyInc l x + x * f' x, fun x => ?_, by fun_prop⟩
    refine (((hasDerivAt_id x).mul (h1 x)).const_add a).congr_deriv ?_
    simp

theorem free_quads {L : ℝ} {own : List (Load ℝ)} (hown : ∀ ld ∈ own, ld.ImposableAny L) :
    (∃ Φ, Quad L (imposedCurv own) (freeRot own) Φ) ∧
    ∃ Φ, Quad L (freeRot own) (freeDefl own) Φ := by
  have hz : ∀ ld ∈ own, ld.IsMechanical → (fun y => ld.kappaImp y) = (fun _ => (0 : ℝ)) ∧
      (fun y => ld.rotFree y) = (fun _ => (0 : ℝ)) ∧ (fun y => ld.deflFree y) = fun _ => (0 : ℝ) := by
    intro ld _ h
    cases ld <;> first | exact h.elim | exact ⟨rfl, rfl, rfl⟩
  have z : Quad L (fun _ => 0) (fun _ => 0) (fun _ => 0) := fun a b _ _ _ => by simp
  constructor
  · refine quad_sum L own (fun ld x => ld.kappaImp x) (fun ld x => ld.rotFree x) fun ld hld => ?_
    rcases hown ld hld with h | ⟨k, E, rfl⟩
    · obtain ⟨h1, h2, h3⟩ := hz ld hld h.2.1
      rw [h1, h2]
      exact ⟨_, z⟩
    · obtain ⟨f', g1, g2⟩ := polyInc_smooth k
      exact quad_smooth (f' := f')
        (fun x => ((polyInc_continuous k).integral_hasStrictDerivAt 0 x).hasDerivAt) g1 g2
  · refine quad_sum L own (fun ld x => ld.rotFree x) (fun ld x => ld.deflFree x) fun ld hld => ?_
    rcases hown ld hld with h | ⟨k, E, rfl⟩
    · obtain ⟨h1, h2, h3⟩ := hz ld hld h.2.1
      rw [h2, h3]
      exact ⟨_, z⟩
    · exact quad_smooth (f' := fun x => polyInc k x)
        (fun x => ((rotFree_continuous k).integral_hasStrictDerivAt 0 x).hasDerivAt)
        (fun x => ((polyInc_continuous k).integral_hasStrictDerivAt 0 x).hasDerivAt)
        (polyInc_continuous k)

/-- What the code would report from the exact end forces and displacements converges to the lines of
the exact solution. -/
theorem ShearImposedBeam.ctx_converge {b : BeamDef ℝ} {ls : List (SpanLoad ℝ)}
    (hls : b.setLoads = .ok ls) (hb : b.UniformAny ls) {u : ℕ → ℝ} {F₀ : ℕ → Vec4 ℝ}
    {v ψ : ℕ → ℝ → ℝ} (hE : ShearImposedBeam b ls u F₀ v ψ) (i : ℕ) (hi : i < b.members.length) :
    ∃ C : ℝ, ∀ c : MCtx ℝ, c.m = b.members[i] → c.own = ownLoads i ls → c.f = F₀ i →
      c.d = elemVec u i → 0 < c.npts →
      c.Ma = (clampedSumX b.members[i].EI.value b.members[i].L (ownLoads i ls)).Ma →
      c.Mb = (clampedSumX b.members[i].EI.value b.members[i].L (ownLoads i ls)).Mb →
      ∀ k, 0 < k → k + 1 < c.n →
      |c.R k - ψ i (c.x k)| ≤ C / c.npts ∧ |c.D k - v i (c.x k)| ≤ C / c.npts := by
  obtain ⟨hL, ⟨e, he, hEI⟩, hGG⟩ := hb.uniform _ (List.getElem_mem hi)
  have hown := hb.own hls i hi
  have hpl := mechOnly_plainX hown
  have hsp := hE.span i hi e hEI
  have hstiff := hsp.stiffnessX he.ne' hL hown
  have hss := (shearImposedSpan_iffX hown _ _ _).1 hsp
  have hel := hss.bending hL hpl
  have hst := hel.start hL hpl
  have hv0 := hE.left i hi
  have hvL := hE.right i hi
  have hr0 := hE.rotLeft i hi
  obtain ⟨l2, l1⟩ := hel.eq_line hL hpl
  obtain ⟨z1, z2⟩ := free_start (ownLoads i ls)
  obtain ⟨⟨Φ1, p1⟩, ⟨Ψ1, p2⟩⟩ := free_quads hown
  generalize hm : b.members[i] = m at *
  generalize ho : ownLoads i ls = own at *
  set F := F₀ i with hF
  set L := m.L with hLd
  set γ := m.shearFlex with hγ
  set w0 := v i 0 - freeDefl own 0 + γ * smoothN L (mechOnly own) F 0 with hw0
  obtain ⟨Ψ0, q4⟩ := shear_quad γ hL hpl F hst
  obtain ⟨Φ, Bt, hBt0, q2, q3⟩ := line_quads he hL hpl F hst w0
    (ψ i 0 - freeRot own 0)
  obtain ⟨Φ2, Q2⟩ : ∃ Φ2, Quad L (fun x => momentLine e L (mechOnly own) F x + imposedCurv own x)
      (fun x => exLineT e L (mechOnly own) F (ψ i 0 - freeRot own 0) x + freeRot own x) Φ2 :=
    ⟨_, q2.add p1⟩
  obtain ⟨Ψ2, Q3⟩ : ∃ Ψ2, Quad L
      (fun x => exLineT e L (mechOnly own) F (ψ i 0 - freeRot own 0) x + freeRot own x
        + -γ * shearLine L (mechOnly own) F x)
      (fun x => exLineV e L (mechOnly own) F w0 (ψ i 0 - freeRot own 0) x
        + freeDefl own x + -γ * smoothN L (mechOnly own) F x) Ψ2 := ⟨_, (q3.add p2).add q4⟩
  have hT : ∀ x ∈ Icc 0 L, exLineT e L (mechOnly own) F (ψ i 0 - freeRot own 0) x
      + freeRot own x = ψ i x := fun x hx => by
    rw [← l2 x hx]; ring
  have hW : ∀ x ∈ Icc 0 L, exLineV e L (mechOnly own) F w0 (ψ i 0 - freeRot own 0) x
      + freeDefl own x + -γ * smoothN L (mechOnly own) F x = v i x := fun x hx => by
    rw [← l1 x hx]; ring
  have h0 : (0 : ℝ) ∈ Icc 0 L := ⟨le_rfl, hL.le⟩
  have h1 : L ∈ Icc 0 L := ⟨hL.le, le_rfl⟩
  refine ⟨L * (Φ2 L - Φ2 0) + (L * (Φ2 L - Φ2 0) * L + L * (Ψ2 L - Ψ2 0)) / L
    + 2 * (L * (Φ2 L - Φ2 0) * L + L * (Ψ2 L - Ψ2 0)), ?_⟩
  intro c m1 m2 m3 m4 hn hMa hMb k hk hk'
  rw [hEI] at hMa hMb
  simp only [Rigidity.value] at hMa hMb
  obtain ⟨x1, x2, x3, x4, x5, x6⟩ := c.x_spec (by rw [m1]; exact hL) hn
  have hxk : c.x k ∈ Icc 0 L := by
    rw [m1, ← hLd] at x5
    exact ⟨x2 ▸ x6 0 k (by omega) (by omega), x5 ▸ x6 k (c.n - 1) (by omega) (by omega)⟩
  have hd0 : c.d 0 = v i 0 := by rw [hv0, m4]; rfl
  have hd2 : c.d 2 = v i L := by rw [hvL, m4]; rfl
  have key := shear_converge (c := c) (S := fun x => -γ * shearLine L (mechOnly own) F x) hL Q2 Q3
    (by rw [m1]) hn
    (fun j hj => by
      have hIs : ¬ c.IsEnd (j + 1) := by simp only [MCtx.IsEnd]; omega
      rcases hGG with hG | ⟨g, hg, hG⟩
      · simp only [MCtx.gamma, m1, hG, hγ, Member.shearFlex]
        ring
      · simp only [MCtx.gamma, m1, hG, hγ, Member.shearFlex, MCtx.V, if_neg hIs, m2, m3,
          mambStn, Rigidity.eval, shearLine]
        rw [← sum_mechOnly own (fun l => l.ssV m.L (c.x (j + 1))) fun _ _ => rfl]
        simp only [ssV_eq]
        rw [← hLd]
        ring)
    (fun j hj hj' => by
      have hIs : ¬ c.IsEnd j := by simp only [MCtx.IsEnd]; omega
      simp only [MCtx.curv, MCtx.kappa, MCtx.M, if_neg hIs, m1, m2, m3, hEI, momentLine, mambStn,
        Rigidity.eval, imposedCurv]
      rw [← sum_mechOnly own (fun l => l.ssM m.L (c.x j)) fun _ _ => rfl]
      simp only [ssM_eq]
      rw [← hLd]
      ring)
    (by rw [hW 0 h0, hd0]) (by rw [hW L h1, hd2]) (by
      rw [hT 0 h0]
      simp only [MCtx.psi0]
      split_ifs with t1 t2
      · left
        rw [m1] at t1
        rw [t1] at hr0
        simp only [EType.freeLeft, Bool.false_eq_true, if_false] at hr0
        rw [m4]
        exact hr0.symm
      · exact .inr rfl
      · left
        have hG : m.GAv = none := by
          rcases hGG with hG | ⟨g, hg, hG⟩
          · exact hG
          · exfalso
            apply t2
            simp [MCtx.useBc, m1, hG]
        have hγ0 : γ = 0 := by simp only [hγ, Member.shearFlex, hG]
        rw [m1, hEI]
        simp only [MCtx.psiClosed]
        rw [hMa, hMb, m1, m3, ← hLd, hd0, hd2]
        have g1 := congrFun hstiff 1
        have g3 := congrFun hstiff 3
        rw [hγ0] at g1 g3
        simp only [kFF_mulVec, Pi.add_apply, CNL.vec, Matrix.cons_val, zero_mul, sub_zero,
          add_zero] at g1 g3
        rw [g1, g3]
        have := hL.ne'
        have := he.ne'
        field_simp
        ring) k hk hk'
  simp only [hT _ hxk, hW _ hxk] at key
  exact key

/-- The clamped end moments that the code works with. -/
theorem Member.ctx_clamped {m : Member ℝ} (hL : 0 < m.L) {e : ℝ} (hEI : m.EI = .const e)
    {own : List (Load ℝ)} (hown : ∀ ld ∈ own, ld.ImposableAny m.L) {cnls : List (CNL ℝ)}
    (h : mapE m.cnl own = .ok cnls) :
    (cnls.map CNL.Ma).sum = (clampedSumE e m.L own).Ma ∧
    (cnls.map CNL.Mb).sum = (clampedSumE e m.L own).Mb := by
  have hcn : ∀ ld ∈ own, m.cnl ld = .ok (ld.clampedE e m.L) := by
    intro ld hld
    rcases hown ld hld with hp | ⟨k, E, rfl⟩
    · have g1 := hp.2.1
      have g2 := hp.getCnl hL
      cases ld <;> first | exact g1.elim | (simp only [Member.cnl, Load.clampedE]; rw [g2])
    · simp only [Member.cnl, hEI, Load.clampedE]
  have : cnls = own.map fun ld => ld.clampedE e m.L := by
    obtain ⟨p1, p2⟩ := mapE_ok h
    apply List.ext_getElem
    · simp [p1]
    · intro j hj1 hj2
      have := p2 j (by simpa using hj2) hj1
      rw [hcn _ (List.getElem_mem _)] at this
      rw [List.getElem_map]
      exact (Except.ok.inj this).symm
  rw [this]
  simp only [List.map_map, Function.comp_def, clampedSumE, and_self]

/-- **C146, partial**: for every beam that is not a mechanism there is one constant `C` such that,
whatever the loads, the imposed curvatures (of any degree) and the prescribed values, at every station
between the two padding stations of a member the reported shear and moment (the moment away from
applied couples) are within `C ε` of those of the exact solution, and the reported rotation and
deflection within `C ε + C' / npts` of its lines, `C'` depending on the loads but not on `ε`, the
number of stations or the shear points.  Missing as in `C146_shear_partial`. -/
theorem C146_reported_partial (b₀ : BeamDef ℝ) (s₀ : System ℝ) (h₀ : b₀.system = .ok s₀)
    (hns : s₀.Nonsingular) :
    ∃ C : ℝ, 0 < C ∧ ∀ (LM : List (Row ℝ)) (P : List (Option ℝ)),
      P.map Option.isSome = b₀.presc.map Option.isSome →
      ∀ (b : BeamDef ℝ), b = ⟨b₀.members, b₀.restraints, P, LM⟩ →
      ∀ (ls : List (SpanLoad ℝ)), b.setLoads = .ok ls → b.UniformAny ls →
      ∀ (stable : System ℝ → Bool) (solve : Solver ℝ), solve.Sound → ∀ res : Result ℝ,
      b.analyze stable solve = .ok res →
      ∀ (u : ℕ → ℝ) (F : ℕ → Vec4 ℝ) (v ψ : ℕ → ℝ → ℝ), ShearImposedBeam b ls u F v ψ →
      ∃ C' : ℝ, ∀ ε : ℝ, 0 ≤ ε →
        (∀ i (hi : i < b.members.length), curvErr b.members[i].L (ownLoads i ls) ≤ ε) →
        ∀ (npts : ℕ) (sp : ℕ → List ℝ) (rs : List (MRes ℝ)), 0 < npts →
        b.memberResults res npts sp = .ok rs →
        ∀ i (hi : i < b.members.length) (hi' : i < rs.length) (k : ℕ), 0 < k → k + 1 < rs[i].n →
        |rs[i].V k - cutV b.members[i].L (ownLoads i ls) (F i) (rs[i].x k - b.nodeX i)| ≤ C * ε ∧
        ((∀ ld ∈ ownLoads i ls, ∀ p ∈ ld.couplesAt, p.2 ≠ rs[i].x k - b.nodeX i) →
          |rs[i].M k - cutM b.members[i].L (ownLoads i ls) (F i) (rs[i].x k - b.nodeX i)| ≤ C * ε) ∧
        |rs[i].R k - ψ i (rs[i].x k - b.nodeX i)| ≤ C * ε + C' / npts ∧
        |rs[i].D k - v i (rs[i].x k - b.nodeX i)| ≤ C * ε + C' / npts := by
  obtain ⟨C0, hC0, hw⟩ := C146_shear_partial b₀ s₀ h₀ hns
  set Q : ℝ := (b₀.members.map fun m => |6 * m.EI.value / m.L|).sum with hQ
  set S : ℝ := (b₀.members.map fun m => |m.sens|).sum with hS
  have hQ0 : 0 ≤ Q := List.sum_nonneg fun y hy => by
    obtain ⟨m, _, rfl⟩ := List.mem_map.1 hy
    exact abs_nonneg _
  have hS0 : 0 ≤ S := List.sum_nonneg fun y hy => by
    obtain ⟨m, _, rfl⟩ := List.mem_map.1 hy
    exact abs_nonneg _
  refine ⟨(S + 1) * (C0 + Q), by positivity, ?_⟩
  intro LM P hP b hb ls hls himp stable solve hso res ha u F v ψ hE
  have hbm : b.members = b₀.members := by rw [hb]
  obtain ⟨u₁, F₁, v₁, ψ₁, _, huniq, hclose⟩ := hw LM P hP b hb ls hls himp stable solve hso res ha
  obtain ⟨hu1, hF1⟩ := huniq u F v ψ hE
  have hconv : ∀ i, ∃ C : ℝ, ∀ hi : i < b.members.length, ∀ c : MCtx ℝ, c.m = b.members[i] →
      c.own = ownLoads i ls → c.f = F i → c.d = elemVec u i → 0 < c.npts →
      c.Ma = (clampedSumX b.members[i].EI.value b.members[i].L (ownLoads i ls)).Ma →
      c.Mb = (clampedSumX b.members[i].EI.value b.members[i].L (ownLoads i ls)).Mb →
      ∀ k, 0 < k → k + 1 < c.n →
      |c.R k - ψ i (c.x k)| ≤ C / c.npts ∧ |c.D k - v i (c.x k)| ≤ C / c.npts := by
    intro i
    by_cases hi : i < b.members.length
    · obtain ⟨C, hC⟩ := hE.ctx_converge hls himp i hi
      exact ⟨C, fun _ => hC⟩
    · exact ⟨0, fun h => absurd h hi⟩
  choose Cf hCf using hconv
  refine ⟨∑ i ∈ Finset.range b.members.length, |Cf i|, ?_⟩
  intro ε hε hc npts sp rs hn hr i hi hi' k hk hk'
  obtain ⟨hd, hf⟩ := hclose ε hε hc
  have hCi : Cf i ≤ ∑ i ∈ Finset.range b.members.length, |Cf i| :=
    (le_abs_self _).trans (Finset.single_le_sum (f := fun i => |Cf i|) (fun _ _ => abs_nonneg _)
      (Finset.mem_range.2 hi))
  obtain ⟨_, ls', hls', hc'⟩ := BeamDef.memberResults_ok hr
  rw [hls] at hls'
  cases hls'
  obtain ⟨c, hc1, hc2⟩ := hc' i hi hi'
  obtain ⟨m1, m2, m3, m4, m5, m6, cnls, n1, n2, n3⟩ := Member.ctx_ok hc1
  have hunif := himp.uniform _ (List.getElem_mem hi)
  obtain ⟨hL, ⟨e, he, hEI⟩, hGG⟩ := id hunif
  have hown := himp.own hls i hi
  obtain ⟨cl1, cl2⟩ := Member.ctx_clamped hL hEI hown n1
  have hv : b.members[i].EI.value = e := by rw [hEI]; rfl
  set c' : MCtx ℝ := ⟨c.m, c.own, F i, elemVec u i, c.npts, c.sp,
    (clampedSumX e b.members[i].L (ownLoads i ls)).Ma,
    (clampedSumX e b.members[i].L (ownLoads i ls)).Mb⟩ with hcd
  have hmq : |6 * b.members[i].EI.value / b.members[i].L| ≤ Q := by
    have hmem : |6 * b.members[i].EI.value / b.members[i].L| ∈
        b₀.members.map fun m => |6 * m.EI.value / m.L| := by
      rw [← hbm]
      exact List.mem_map.2 ⟨b.members[i], List.getElem_mem hi, rfl⟩
    exact List.single_le_sum (fun y hy => by
      obtain ⟨m, _, rfl⟩ := List.mem_map.1 hy
      exact abs_nonneg _) _ hmem
  have hms : |b.members[i].sens| ≤ S := by
    have hmem : |b.members[i].sens| ∈ b₀.members.map fun m => |m.sens| := by
      rw [← hbm]
      exact List.mem_map.2 ⟨b.members[i], List.getElem_mem hi, rfl⟩
    exact List.single_le_sum (fun y hy => by
      obtain ⟨m, _, rfl⟩ := List.mem_map.1 hy
      exact abs_nonneg _) _ hmem
  have hη : 0 ≤ (C0 + Q) * ε := by positivity
  have hC0ε : C0 * ε ≤ (C0 + Q) * ε := mul_le_mul_of_nonneg_right (by linarith) hε
  have hQε : 6 * e / b.members[i].L * curvErr b.members[i].L (ownLoads i ls) ≤ (C0 + Q) * ε := by
    have q0 : 0 ≤ 6 * e / b.members[i].L := by positivity
    rw [hv, abs_of_nonneg q0] at hmq
    have h1 := mul_le_mul_of_nonneg_left (hc i hi) q0
    have h2 := mul_le_mul_of_nonneg_right hmq hε
    have h3 : 0 ≤ C0 * ε := by positivity
    linarith
  obtain ⟨t1, t2, _, _⟩ := clampedSum_err hL he (ownLoads i ls)
  obtain ⟨w1, w2, w3, w4⟩ := MCtx.stable (c := c) (c' := c') (by rw [m1]; exact hunif)
    (by rw [m5]; exact hn) rfl rfl rfl rfl hη
    (fun j => by
      simp only [hcd, m3]
      rw [(hF1 i hi).1]
      exact (hf i hi j).trans hC0ε)
    (fun j => by
      have hp : 2 * i + (j : ℕ) < 2 * b.members.length + 2 := by have := j.isLt; omega
      simp only [hcd, m4]
      have := (hd _ hp).trans hC0ε
      rw [← hu1 _ hp] at this
      exact this)
    (by rw [n2, cl1]; exact t1.trans hQε) (by rw [n3, cl2]; exact t2.trans hQε) k hk
    (by rw [hc2] at hk'; exact hk')
  have hCε : c.m.sens * ((C0 + Q) * ε) ≤ (S + 1) * (C0 + Q) * ε := by
    rw [mul_assoc, m1]
    exact mul_le_mul_of_nonneg_right (by linarith [le_abs_self b.members[i].sens]) hη
  have hspan := hE.span i hi e hEI
  have hpl := mechOnly_plainX hown
  have hst := (((shearImposedSpan_iffX hown _ _ _).1 hspan).bending hL hpl).start hL hpl
  obtain ⟨x1, x2, x3, x4, x5, x6⟩ := c.x_spec (by rw [m1]; exact hL) (by rw [m5]; exact hn)
  rw [hc2] at hk' ⊢
  simp only [MCtx.result] at hk' ⊢
  rw [show c.x k + b.nodeX i - b.nodeX i = c.x k by ring]
  have hIs : ¬ c.IsEnd k := by simp only [MCtx.IsEnd]; omega
  have hIs' : ¬ c'.IsEnd k := hIs
  have hxI : c.x k ∈ Icc 0 b.members[i].L := by
    rw [m1] at x5
    exact ⟨x2 ▸ x6 0 k (by omega) (by omega), x5 ▸ x6 k (c.n - 1) (by omega) (by omega)⟩
  have hxc : c'.x k = c.x k := rfl
  obtain ⟨r1, r2⟩ := hCf i hi c' m1 m2 rfl rfl (by simp only [hcd]; rw [m5]; exact hn)
    (by rw [hv]) (by rw [hv]) k hk hk'
  have hnp : (c'.npts : ℝ) = npts := by rw [show c'.npts = c.npts from rfl, m5]
  rw [hxc, hnp] at r1 r2
  have hdiv : Cf i / (npts : ℝ) ≤ (∑ i ∈ Finset.range b.members.length, |Cf i|) / npts :=
    div_le_div_of_nonneg_right hCi (by positivity)
  have tri : ∀ a b d x y : ℝ, |a - b| ≤ x → |b - d| ≤ y → |a - d| ≤ x + y := by
    intro a b d x y h1 h2
    rw [show a - d = (a - b) + (b - d) by ring]
    exact (abs_add_le _ _).trans (add_le_add h1 h2)
  refine ⟨?_, fun hcp => ?_, ?_, ?_⟩
  · have e1 : c'.V k = cutV b.members[i].L (ownLoads i ls) (F i) (c.x k) := by
      rw [← cutV_mechOnly, cutV_eq hL hpl _ hxI, MCtx.V, if_neg hIs']
      rw [hxc, show c'.m = b.members[i] from m1, show c'.own = ownLoads i ls from m2,
        show c'.f = F i from rfl]
      simp only [mambStn]
      rw [hst, ← sum_mechOnly (ownLoads i ls) (fun l => l.ssV b.members[i].L (c.x k)) fun k E => rfl]
      simp only [ssV_eq]
      ring
    rw [← e1]
    exact w1.trans hCε
  · have e1 : c'.M k = cutM b.members[i].L (ownLoads i ls) (F i) (c.x k) := by
      rw [← cutM_mechOnly, cutM_eq hL hpl _ hxI ((mechOnly_couples _ _).2 hcp), MCtx.M, if_neg hIs']
      rw [hxc, show c'.m = b.members[i] from m1, show c'.own = ownLoads i ls from m2,
        show c'.f = F i from rfl]
      simp only [mambStn]
      rw [hst, list_sum_sub, list_sum_mul,
        ← sum_mechOnly (ownLoads i ls) (fun l => l.ssM b.members[i].L (c.x k)) fun k E => rfl]
      simp only [ssM_eq]
      ring
    rw [← e1]
    exact w2.trans hCε
  · exact (tri _ _ _ _ _ w3 r1).trans (add_le_add hCε hdiv)
  · exact (tri _ _ _ _ _ w4 r2).trans (add_le_add hCε hdiv)

/-- C146 at two spans under a cubic curvature, a point load and a couple: the reported moments and
deflections of the shear-flexible span are near those of the exact solution. -/
example : ∃ (solve : Solver ℝ) (res : Result ℝ) (u : ℕ → ℝ) (F : ℕ → Vec4 ℝ) (v ψ : ℕ → ℝ → ℝ)
    (C C' : ℝ), solve.Sound ∧ exCubicShear.analyze (fun _ => true) solve = .ok res ∧
    ShearImposedBeam exCubicShear exCubicShearLoads u F v ψ ∧
    ∀ npts : ℕ, 0 < npts → ∃ rs : List (MRes ℝ), ∃ hi : 0 < rs.length,
      exCubicShear.memberResults res npts (fun _ => []) = .ok rs ∧
      ∀ k, 0 < k → k + 1 < rs[0].n →
        |rs[0].M k - cutM 2 [.ic [0, 0, 0, 4] none, .pl 9 1] (F 0)
          (rs[0].x k - exCubicShear.nodeX 0)| ≤ C * (54 / 10 ^ 14) ∧
        |rs[0].D k - v 0 (rs[0].x k - exCubicShear.nodeX 0)| ≤ C * (54 / 10 ^ 14) + C' / npts := by
  obtain ⟨s, hs, hns, solve, res, hsd, hres⟩ := exCubicShear_analysis
  obtain ⟨_, _, h1⟩ := C146_shear_partial exCubicShear s hs hns
  obtain ⟨u, F, v, ψ, hE, _⟩ := h1 exCubicShear.LM exCubicShear.presc rfl exCubicShear rfl _
    exCubicShear_loads exCubicShear_any _ solve hsd res hres
  obtain ⟨C, _, h⟩ := C146_reported_partial exCubicShear s hs hns
  obtain ⟨C', hC'⟩ := h exCubicShear.LM exCubicShear.presc rfl exCubicShear rfl _
    exCubicShear_loads exCubicShear_any _ solve hsd res hres u F v ψ hE
  refine ⟨solve, res, u, F, v, ψ, C, C', hsd, hres, hE, fun npts hn => ?_⟩
  obtain ⟨rs, hrs⟩ : ∃ rs, exCubicShear.memberResults res npts (fun _ => []) = .ok rs := by
    rw [BeamDef.memberResults, exCubicShear_loads]
    simp [exCubicShear, exThermalShear, exCubicShearLoads, mapE, Member.values, Member.ctx, ownLoads,
      Member.cnl, Load.getCnl]
  obtain ⟨hl, _⟩ := BeamDef.memberResults_ok hrs
  have hi : 0 < rs.length := by rw [hl]; simp [exCubicShear, exThermalShear]
  have ho : ownLoads 0 exCubicShearLoads = [.ic [0, 0, 0, 4] none, .pl 9 1] := by
    simp [ownLoads, exCubicShearLoads]
  refine ⟨rs, hi, hrs, fun k h1 h2 => ?_⟩
  obtain ⟨_, hM, _, hD⟩ := hC' (54 / 10 ^ 14) (by norm_num) (by
    intro i hi
    have hi2 : i < 2 := by simpa [exCubicShear, exThermalShear] using hi
    interval_cases i
    · norm_num [curvErr, ownLoads, icErr, List.range_succ, exCubicShear, exThermalShear, exCubicShearLoads]
    · norm_num [curvErr, ownLoads, icErr, List.range_succ, exCubicShear, exThermalShear, exCubicShearLoads])
    npts _ rs hn hrs 0 (by simp [exCubicShear, exThermalShear]) hi k h1 h2
  refine ⟨?_, hD⟩
  rw [ho] at hM
  exact hM (by simp [Load.couplesAt])

end PyCBA
