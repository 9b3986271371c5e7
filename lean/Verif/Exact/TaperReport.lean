import Verif.Exact.TaperSection
import Verif.Exact.ImposedReport

set_option linter.unusedSectionVars false
set_option linter.unusedSimpArgs false

/-!
C151 along the members: the reported shears, moments, rotations and deflections of beams with
tapered members.
-/

namespace PyCBA

open MeasureTheory Set Matrix

/-! ### Functions of bounded variation -/

/-- Bounded, and of bounded variation, on `[0, L]`. -/
def Bv (L : ℝ) (f : ℝ → ℝ) : Prop :=
  ∃ (A : ℝ) (Φ : ℝ → ℝ), (∀ x ∈ Icc 0 L, |f x| ≤ A) ∧
    ∀ a b, 0 ≤ a → a ≤ b → b ≤ L → |f b - f a| ≤ Φ b - Φ a

theorem Bv.const (L c : ℝ) : Bv L fun _ => c :=
  ⟨|c|, fun _ => 0, fun _ _ => le_rfl, fun _ _ _ _ _ => by simp⟩

theorem Bv.mono {L : ℝ} {f : ℝ → ℝ} (h : ∀ a b, a ≤ b → f a ≤ f b) : Bv L f := by
  refine ⟨|f 0| + |f L|, f, fun x hx => ?_, fun a b _ hab _ => ?_⟩
  · have h1 := h 0 x hx.1
    have h2 := h x L hx.2
    rw [abs_le]
    have := neg_abs_le (f 0)
    have := le_abs_self (f L)
    have := abs_nonneg (f 0)
    have := abs_nonneg (f L)
    constructor <;> linarith
  · rw [abs_of_nonneg (sub_nonneg.2 (h a b hab))]

theorem Bv.id (L : ℝ) : Bv L fun x => x := Bv.mono fun _ _ h => h

theorem Bv.add {L : ℝ} {f g : ℝ → ℝ} (hf : Bv L f) (hg : Bv L g) : Bv L fun x => f x + g x := by
  obtain ⟨A, Φ, h1, h2⟩ := hf
  obtain ⟨B, Ψ, h3, h4⟩ := hg
  refine ⟨A + B, fun x => Φ x + Ψ x, fun x hx => (abs_add_le _ _).trans (add_le_add (h1 x hx) (h3 x hx)),
    fun a b h0 hab hb => ?_⟩
  have := h2 a b h0 hab hb
  have := h4 a b h0 hab hb
  rw [show f b + g b - (f a + g a) = (f b - f a) + (g b - g a) by ring]
  exact (abs_add_le _ _).trans (by linarith)

theorem Bv.mul {L : ℝ} {f g : ℝ → ℝ} (hf : Bv L f) (hg : Bv L g) : Bv L fun x => f x * g x := by
  obtain ⟨A, Φ, h1, h2⟩ := hf
  obtain ⟨B, Ψ, h3, h4⟩ := hg
  refine ⟨A * B, fun x => B * Φ x + A * Ψ x, fun x hx => ?_, fun a b h0 hab hb => ?_⟩
  · rw [abs_mul]
    exact mul_le_mul (h1 x hx) (h3 x hx) (abs_nonneg _) ((abs_nonneg _).trans (h1 x hx))
  · have q1 := h2 a b h0 hab hb
    have q2 := h4 a b h0 hab hb
    have ha : a ∈ Icc 0 L := ⟨h0, hab.trans hb⟩
    have hb' : b ∈ Icc 0 L := ⟨h0.trans hab, hb⟩
    rw [show f b * g b - f a * g a = (f b - f a) * g b + f a * (g b - g a) by ring]
    refine (abs_add_le _ _).trans ?_
    rw [abs_mul, abs_mul]
    have e1 : |f b - f a| * |g b| ≤ (Φ b - Φ a) * B :=
      mul_le_mul q1 (h3 b hb') (abs_nonneg _) ((abs_nonneg _).trans q1)
    have e2 : |f a| * |g b - g a| ≤ A * (Ψ b - Ψ a) :=
      mul_le_mul (h1 a ha) q2 (abs_nonneg _) ((abs_nonneg _).trans (h1 a ha))
    linarith

theorem Bv.neg {L : ℝ} {f : ℝ → ℝ} (hf : Bv L f) : Bv L fun x => -f x := by
  simpa using (Bv.const L (-1)).mul hf

theorem Bv.sub {L : ℝ} {f g : ℝ → ℝ} (hf : Bv L f) (hg : Bv L g) : Bv L fun x => f x - g x := by
  simpa only [sub_eq_add_neg] using hf.add hg.neg

theorem Bv.pow {L : ℝ} {f : ℝ → ℝ} (hf : Bv L f) (n : ℕ) : Bv L fun x => f x ^ n := by
  induction n with
  | zero => simpa using Bv.const L 1
  | succ n ih => simpa only [pow_succ] using ih.mul hf

theorem Bv.inv {L e : ℝ} {f : ℝ → ℝ} (hf : Bv L f) (he : 0 < e) (h : ∀ x ∈ Icc 0 L, e ≤ f x) :
    Bv L fun x => (f x)⁻¹ := by
  obtain ⟨A, Φ, h1, h2⟩ := hf
  refine ⟨e⁻¹, fun x => Φ x / e ^ 2, fun x hx => ?_, fun a b h0 hab hb => ?_⟩
  · rw [abs_of_pos (inv_pos.2 (he.trans_le (h x hx)))]
    exact inv_anti₀ he (h x hx)
  · have ha := h a ⟨h0, hab.trans hb⟩
    have hb' := h b ⟨h0.trans hab, hb⟩
    have pa := he.trans_le ha
    have pb := he.trans_le hb'
    have q := h2 a b h0 hab hb
    rw [show (f b)⁻¹ - (f a)⁻¹ = -(f b - f a) / (f b * f a) by field_simp; ring, abs_div, abs_neg,
      abs_of_pos (mul_pos pb pa), ← sub_div]
    refine div_le_div₀ ((abs_nonneg _).trans q) q (by positivity) ?_
    rw [sq]
    exact mul_le_mul hb' ha he.le pb.le

theorem Bv.ite {L : ℝ} {f g : ℝ → ℝ} (p : ℝ → Prop) [DecidablePred p] (hp : ∀ a b, a ≤ b → p a → p b)
    (hf : Bv L f) (hg : Bv L g) : Bv L fun x => if p x then f x else g x := by
  have hs : Bv L fun x => if p x then (1 : ℝ) else 0 := by
    refine Bv.mono fun a b hab => ?_
    by_cases ha : p a
    · rw [if_pos ha, if_pos (hp a b hab ha)]
    · rw [if_neg ha]
      split_ifs <;> norm_num
  have := (hs.mul hf).add (((Bv.const L 1).sub hs).mul hg)
  refine (funext fun x => ?_ : (fun x => if p x then f x else g x) = _) ▸ this
  by_cases h : p x <;> simp [h]

theorem Bv.list_sum {α : Type*} {L : ℝ} (l : List α) (f : α → ℝ → ℝ) (h : ∀ a ∈ l, Bv L (f a)) :
    Bv L fun x => (l.map fun a => f a x).sum := by
  induction l with
  | nil => simpa using Bv.const L 0
  | cons a l ih =>
    simpa using (h a (by simp)).add (ih fun b hb => h b (by simp [hb]))

theorem Bv.lipschitz {L B : ℝ} {f : ℝ → ℝ} 
    (h : ∀ a b, 0 ≤ a → a ≤ b → b ≤ L → |f b - f a| ≤ B * (b - a)) : Bv L f := by
  refine ⟨|f 0| + |B| * L, fun x => B * x, fun x hx => ?_, fun a b h0 hab hb => by
    rw [← mul_sub]; exact h a b h0 hab hb⟩
  have q := h 0 x le_rfl hx.1 hx.2
  have e : f x = f 0 + (f x - f 0) := by ring
  rw [e]
  refine (abs_add_le _ _).trans (add_le_add le_rfl (q.trans ?_))
  rw [sub_zero]
  exact mul_le_mul (le_abs_self B) hx.2 hx.1 (abs_nonneg _)

theorem mb_bv (L a : ℝ) : Bv L fun x => mb (x - a) :=
  Bv.mono fun _ _ h => max_le_max (sub_le_sub_right h a) le_rfl

theorem hv_bv (L a v : ℝ) (h0 : 0 ≤ v) (h1 : v ≤ 1) : Bv L fun x => hv (x - a) v := by
  refine Bv.mono fun x y h => ?_
  unfold hv
  rcases lt_trichotomy (x - a) 0 with q | q | q
  · rw [if_pos q]
    split_ifs <;> first | exact h0 | norm_num
  · rcases (show 0 ≤ y - a by linarith).eq_or_lt with q' | q'
    · rw [q, ← q']
    · rw [if_neg q.not_lt, if_pos q, if_neg q'.not_gt, if_neg q'.ne']
      exact h1
  · have q' : 0 < y - a := by linarith
    rw [if_neg q.not_gt, if_neg q.ne', if_neg q'.not_gt, if_neg q'.ne']

/-- The moments of the loads of the code. -/
theorem Load.ssM_bv (ld : Load ℝ) (L : ℝ) : Bv L (ld.ssM L) := by
  have X := Bv.id L
  have c := Bv.const L
  have m := mb_bv L
  cases ld with
  | udl w => exact (((c _).mul X).sub ((c _).mul (X.pow 2)))
  | pl P a => exact (((c _).mul X).sub ((c _).mul (m a)))
  | pudl w a b =>
    exact ((((c _).mul X).sub ((c _).mul ((m a).pow 2))).add ((c _).mul ((m (b + a)).pow 2)))
  | trapez w1 w2 a b =>
    unfold Load.ssM
    simp only [Load.stn]
    by_cases h : (resolveTrapez w1 w2 a b L).2.2.2.2 ≤ 0
    · simp only [if_pos h]
      exact c 0
    · simp only [if_neg h]
      exact (((((c _).mul X).sub ((c _).mul ((m _).pow 2))).sub ((c _).mul ((m _).pow 3))).add
        ((c _).mul ((m _).pow 2))).add ((c _).mul ((m _).pow 3))
  | mamb A B => exact ((c _).mul X).sub (c _)
  | ml w a =>
    unfold Load.ssM
    simp only [Load.stn, mlStn]
    by_cases h : a = 0
    · simp only [if_pos h]
      exact ((c _).mul X).sub ((c _).mul (hv_bv L a 1 (by norm_num) (by norm_num)))
    · by_cases h' : a = L
      · simp only [if_neg h, if_pos h']
        exact ((c _).mul X).sub ((c _).mul (hv_bv L a 0 (by norm_num) (by norm_num)))
      · simp only [if_neg h, if_neg h']
        exact ((c _).mul X).sub ((c _).mul (hv_bv L a (1 / 2) (by norm_num) (by norm_num)))
  | ic k E => exact c 0

/-- The trapezium rule for a function of bounded variation. -/
theorem quad_bv {L : ℝ} {f κ G : ℝ → ℝ} (hf : Bv L f) (hi : IntervalIntegrable κ volume 0 L)
    {s : Set ℝ} (hs : s.Countable) (hc : ContinuousOn G (Icc 0 L))
    (hd : ∀ x ∈ Ioo 0 L, x ∉ s → HasDerivAt G (κ x) x)
    (he : ∀ x ∈ Ioo 0 L, x ∉ s → κ x = f x) : ∃ Φ, Quad L f G Φ := by
  obtain ⟨A, Φ, h1, h2⟩ := hf
  refine ⟨Φ, fun a b h0 hab hb => ⟨?_, by
    have := (abs_nonneg _).trans (h2 a b h0 hab hb); linarith⟩⟩
  have hsub : IntervalIntegrable κ volume a b := hi.mono_set (by
    rw [uIcc_of_le hab, uIcc_of_le (h0.trans (hab.trans hb))]
    exact Icc_subset_Icc h0 hb)
  have hG := integral_eq_of_hasDerivAt_off_countable_of_le G κ hab hs
    (hc.mono (Icc_subset_Icc h0 hb))
    (fun x hx => hd x ⟨h0.trans_lt hx.1.1, hx.1.2.trans_le hb⟩ hx.2) hsub
  have e : (b - a) * (f a + f b) / 2 - (G b - G a)
      = -∫ x in a..b, (κ x - (f a + f b) / 2) := by
    rw [intervalIntegral.integral_sub hsub (by simp), hG]
    simp
    ring
  rw [e, abs_neg]
  have := intervalIntegral.norm_integral_le_of_norm_le_const_ae (a := a) (b := b) (C := Φ b - Φ a)
    (f := fun x => κ x - (f a + f b) / 2) (by
      have hb0 : ∀ᵐ x ∂(volume : Measure ℝ), x ∉ s ∪ {b} := by
        rw [ae_iff]
        simp only [not_not]
        exact (hs.union (countable_singleton b)).measure_zero volume
      filter_upwards [hb0] with x hx hI
      rw [uIoc_of_le hab] at hI
      simp only [mem_union, mem_singleton_iff, not_or] at hx
      have hxb : x < b := lt_of_le_of_ne hI.2 hx.2
      rw [he x ⟨h0.trans_lt hI.1, hxb.trans_le hb⟩ hx.1, Real.norm_eq_abs]
      have q1 := h2 a x h0 hI.1.le (hI.2.trans hb)
      have q2 := h2 x b (h0.trans hI.1.le) hI.2 hb
      rw [show f x - (f a + f b) / 2 = (f x - f a) / 2 + -((f b - f x) / 2) by ring]
      refine (abs_add_le _ _).trans ?_
      rw [abs_neg, abs_div, abs_div, abs_two]
      have := abs_nonneg (f x - f a)
      have := abs_nonneg (f b - f x)
      linarith)
  rw [Real.norm_eq_abs, abs_of_nonneg (by linarith : 0 ≤ b - a)] at this
  linarith

/-! ### How the reported lines depend on end forces and displacements -/

/-- How much the reported lines of a member change with its end forces and displacements. -/
noncomputable def taperSens (L e : ℝ) : ℝ :=
  let p := 3 * L / e
  let p0 := 1 + 2 / L + p + L / e
  3 + 2 / L + (p + p0) + ((p + p0) * L + 1)

theorem MCtx.stableTaper {c c' : MCtx ℝ} (hL : 0 < c.m.L) (hG : c.m.GAv = none) {e : ℝ}
    (he : 0 < e) (hlow : ∀ x ∈ Icc 0 c.m.L, e ≤ c.m.EI.eval x) (hn : 0 < c.npts) (hm : c'.m = c.m)
    (ho : c'.own = c.own) (hnp : c'.npts = c.npts) (hsp : c'.sp = c.sp) {η : ℝ} (hη : 0 ≤ η)
    (hf : ∀ j, |c.f j - c'.f j| ≤ η) (hd : ∀ j, |c.d j - c'.d j| ≤ η) (hMa : |c.Ma - c'.Ma| ≤ η)
    (hMb : |c.Mb - c'.Mb| ≤ η) (k : ℕ) (hk : 0 < k) (hk' : k + 1 < c.n) :
    |c.V k - c'.V k| ≤ taperSens c.m.L e * η ∧ |c.M k - c'.M k| ≤ taperSens c.m.L e * η ∧
    |c.R k - c'.R k| ≤ taperSens c.m.L e * η ∧ |c.D k - c'.D k| ≤ taperSens c.m.L e * η := by
  have hL0 := hL.ne'
  have he0 := he.ne'
  have hgr : c'.grid = c.grid := by simp only [MCtx.grid, hm, hnp, hsp]
  have hnn : c'.n = c.n := by simp only [MCtx.n, hgr]
  have hx : c'.x = c.x := by simp only [MCtx.x, hgr]
  have hh : c'.h = c.h := by
    funext j
    simp only [MCtx.h, hm, hnp, hsp, hx]
  have hend : ∀ j, c'.IsEnd j ↔ c.IsEnd j := fun j => by simp only [MCtx.IsEnd, hnn]
  have hkap : c'.kappa = c.kappa := by
    funext j
    simp only [MCtx.kappa, ho, hx]
  have hbc : c'.useBc = c.useBc := by simp only [MCtx.useBc, hm, hnn, hkap]
  obtain ⟨x1, x2, x3, x4, x5, x6⟩ := c.x_spec hL hn
  set L := c.m.L with hLd
  set p := 3 * L / e with hp
  set p0 := 1 + 2 / L + p + L / e with hp0
  have hs : taperSens c.m.L e = 3 + 2 / L + (p + p0) + ((p + p0) * L + 1) := by
    rfl
  have hpn : 0 ≤ p := by positivity
  have hp0n : 0 ≤ p0 := by positivity
  have hxI : ∀ j, 0 < j → j + 1 < c.n → c.x j ∈ Icc 0 L := by
    intro j h1 h2
    exact ⟨x2 ▸ x6 0 j (by omega) (by omega), x5 ▸ x6 j (c.n - 1) (by omega) (by omega)⟩
  have f1 := hf 1
  have f3 := hf 3
  have f13 : |(c.f 1 + c.f 3) - (c'.f 1 + c'.f 3)| ≤ 2 * η := by
    rw [show (c.f 1 + c.f 3) - (c'.f 1 + c'.f 3) = (c.f 1 - c'.f 1) + (c.f 3 - c'.f 3) by ring]
    exact (abs_add_le _ _).trans (by linarith)
  have hV : ∀ j, 0 < j → j + 1 < c.n → |c.V j - c'.V j| ≤ 2 / L * η := by
    intro j h1 h2
    have hI : ¬ c.IsEnd j := by simp only [MCtx.IsEnd]; omega
    rw [MCtx.V, MCtx.V, if_neg hI, if_neg ((hend j).not.2 hI), hm, ho, hx]
    simp only [mambStn, ← hLd]
    rw [show (c.f 1 + c.f 3) / L + (c.own.map fun l => l.ssV L (c.x j)).sum
      - ((c'.f 1 + c'.f 3) / L + (c.own.map fun l => l.ssV L (c.x j)).sum)
      = ((c.f 1 + c.f 3) - (c'.f 1 + c'.f 3)) / L by ring, abs_div, abs_of_pos hL]
    calc _ ≤ 2 * η / L := div_le_div_of_nonneg_right f13 hL.le
      _ = 2 / L * η := by ring
  have hM : ∀ j, 0 < j → j + 1 < c.n → |c.M j - c'.M j| ≤ 3 * η := by
    intro j h1 h2
    have hI : ¬ c.IsEnd j := by simp only [MCtx.IsEnd]; omega
    obtain ⟨y1, y2⟩ := hxI j h1 h2
    rw [MCtx.M, MCtx.M, if_neg hI, if_neg ((hend j).not.2 hI), hm, ho, hx]
    simp only [mambStn, ← hLd]
    rw [show (c.f 1 + c.f 3) / L * c.x j - c.f 1 + (c.own.map fun l => l.ssM L (c.x j)).sum
      - ((c'.f 1 + c'.f 3) / L * c.x j - c'.f 1 + (c.own.map fun l => l.ssM L (c.x j)).sum)
      = ((c.f 1 + c.f 3) - (c'.f 1 + c'.f 3)) * (c.x j / L) + -(c.f 1 - c'.f 1) by ring]
    refine (abs_add_le _ _).trans ?_
    rw [abs_neg, abs_mul, abs_of_nonneg (div_nonneg y1 hL.le)]
    have : |(c.f 1 + c.f 3) - (c'.f 1 + c'.f 3)| * (c.x j / L) ≤ 2 * η * 1 :=
      mul_le_mul f13 ((div_le_one hL).2 y2) (div_nonneg y1 hL.le) (by linarith)
    linarith
  have hcur : ∀ j, j + 2 < c.n → |c.curv (j + 1) - c'.curv (j + 1)| ≤ 3 / e * η := by
    intro j h2
    have hle := hlow _ (hxI (j + 1) (by omega) (by omega))
    simp only [MCtx.curv, hm, hkap, hx]
    rw [show c.M (j + 1) / c.m.EI.eval (c.x (j + 1)) + c.kappa (j + 1)
      - (c'.M (j + 1) / c.m.EI.eval (c.x (j + 1)) + c.kappa (j + 1))
      = (c.M (j + 1) - c'.M (j + 1)) / c.m.EI.eval (c.x (j + 1)) by ring, abs_div,
      abs_of_pos (he.trans_le hle)]
    calc _ ≤ 3 * η / e := div_le_div₀ (by linarith) (hM (j + 1) (by omega) (by omega)) he hle
      _ = 3 / e * η := by ring
  have hgam : ∀ j, c.gamma j = 0 := fun j => by simp only [MCtx.gamma, hG]
  have hgam' : ∀ j, c'.gamma j = 0 := fun j => by simp only [MCtx.gamma, hm, hG]
  have hhn : ∀ j < c.n - 3, 0 ≤ c.h j := by
    intro j hj
    rw [(c.h_eq hL hn j (by omega)).1]
    have := x6 (j + 1) (j + 2) (by omega) (by omega)
    linarith
  have hsum : ∀ j ≤ c.n - 3, ∑ q ∈ Finset.range j, c.h q ≤ L := by
    intro j hj
    have : ∑ q ∈ Finset.range j, c.h q = c.x (j + 1) := by
      rw [Finset.sum_congr rfl fun q hq =>
        (c.h_eq hL hn q (by have := Finset.mem_range.1 hq; omega)).1,
        Finset.sum_range_sub (fun q => c.x (q + 1)), x3, sub_zero]
    rw [this]
    exact x5 ▸ x6 (j + 1) (c.n - 1) (by omega) (by omega)
  have hpsi : ∀ j ≤ c.n - 3, |c.psiProv j - c'.psiProv j| ≤ p * η := by
    intro j hj
    simp only [MCtx.psiProv, hh]
    refine (cumTrap_close c.h _ _ (3 / e * η) j (fun q hq => hhn q (by omega))
      (fun q hq => hcur q (by omega))).trans ?_
    refine (mul_le_mul_of_nonneg_left (hsum j hj) (by positivity)).trans (le_of_eq ?_)
    rw [hp]; ring
  have hDp : ∀ j ≤ c.n - 3, |c.Dprov j - c'.Dprov j| ≤ p * η * L := by
    intro j hj
    simp only [MCtx.Dprov, hh]
    refine (cumTrap_close c.h _ _ (p * η) j (fun q hq => hhn q (by omega))
      (fun q hq => ?_)).trans (mul_le_mul_of_nonneg_left (hsum j hj) (by positivity))
    rw [hgam, hgam', add_zero, add_zero]
    exact hpsi q (by omega)
  have d02 : |(c.d 2 - c.d 0) - (c'.d 2 - c'.d 0)| ≤ 2 * η := by
    rw [show (c.d 2 - c.d 0) - (c'.d 2 - c'.d 0) = (c.d 2 - c'.d 2) + -(c.d 0 - c'.d 0) by ring]
    refine (abs_add_le _ _).trans ?_
    rw [abs_neg]
    linarith [hd 0, hd 2]
  have hη' : 0 ≤ 1 / L * η := by positivity
  have hbcd : |c.psiBc - c'.psiBc| ≤ p0 * η := by
    simp only [MCtx.psiBc, hm, hnn, ← hLd]
    rw [show (c.d 2 - c.d 0 - c.Dprov (c.n - 3)) / L - (c'.d 2 - c'.d 0 - c'.Dprov (c.n - 3)) / L
      = ((c.d 2 - c.d 0) - (c'.d 2 - c'.d 0) + -(c.Dprov (c.n - 3) - c'.Dprov (c.n - 3))) / L by ring,
      abs_div, abs_of_pos hL]
    have h1 : |(c.d 2 - c.d 0) - (c'.d 2 - c'.d 0) + -(c.Dprov (c.n - 3) - c'.Dprov (c.n - 3))|
        ≤ 2 * η + p * η * L := by
      refine (abs_add_le _ _).trans ?_
      rw [abs_neg]
      exact add_le_add d02 (hDp _ le_rfl)
    refine (div_le_div_of_nonneg_right h1 hL.le).trans ?_
    have h2 : (2 * η + p * η * L) / L = 2 / L * η + p * η := by field_simp
    rw [h2, hp0]
    have h3 : 0 ≤ L / e * η := by positivity
    linarith
  have hcl : ∀ e', e ≤ e' → |c.psiClosed e' - c'.psiClosed e'| ≤ p0 * η := by
    intro e' hee
    have he' := he.trans_le hee
    simp only [MCtx.psiClosed, hm, ← hLd]
    rw [show (c.d 2 - c.d 0) / L - L / (3 * e') * (-(c.f 1 - 1 / 2 * c.f 3) + (c.Ma - 1 / 2 * c.Mb))
      - ((c'.d 2 - c'.d 0) / L - L / (3 * e') * (-(c'.f 1 - 1 / 2 * c'.f 3) + (c'.Ma - 1 / 2 * c'.Mb)))
      = ((c.d 2 - c.d 0) - (c'.d 2 - c'.d 0)) / L + L / (3 * e') * ((c.f 1 - c'.f 1)
        - 1 / 2 * (c.f 3 - c'.f 3) - (c.Ma - c'.Ma) + 1 / 2 * (c.Mb - c'.Mb)) by ring]
    refine (abs_add_le _ _).trans ?_
    have h1 : |((c.d 2 - c.d 0) - (c'.d 2 - c'.d 0)) / L| ≤ 2 / L * η := by
      rw [abs_div, abs_of_pos hL]
      exact (div_le_div_of_nonneg_right d02 hL.le).trans (le_of_eq (by ring))
    have h2 : |(c.f 1 - c'.f 1) - 1 / 2 * (c.f 3 - c'.f 3) - (c.Ma - c'.Ma)
        + 1 / 2 * (c.Mb - c'.Mb)| ≤ 3 * η := by
      obtain ⟨a1, b1⟩ := abs_le.1 f1
      obtain ⟨a2, b2⟩ := abs_le.1 f3
      obtain ⟨a3, b3⟩ := abs_le.1 hMa
      obtain ⟨a4, b4⟩ := abs_le.1 hMb
      rw [abs_le]
      constructor <;> linarith
    have h3 : |L / (3 * e') * ((c.f 1 - c'.f 1) - 1 / 2 * (c.f 3 - c'.f 3) - (c.Ma - c'.Ma)
        + 1 / 2 * (c.Mb - c'.Mb))| ≤ L / e * η := by
      rw [abs_mul, abs_of_pos (by positivity : 0 < L / (3 * e'))]
      refine (mul_le_mul_of_nonneg_left h2 (by positivity)).trans ?_
      rw [show L / (3 * e') * (3 * η) = L / e' * η by field_simp]
      exact mul_le_mul_of_nonneg_right (div_le_div_of_nonneg_left hL.le he hee) hη
    rw [hp0]
    have h4 : 0 ≤ p * η := by positivity
    linarith
  have hψ0 : |c.psi0 - c'.psi0| ≤ p0 * η := by
    simp only [MCtx.psi0, hm, hbc]
    split_ifs with t1 t2
    · refine (hd 1).trans ?_
      have h3 : 0 ≤ (2 / L + p + L / e) * η := by positivity
      rw [hp0]
      linarith
    · exact hbcd
    · rcases hEI : c.m.EI with e' | s
      · refine hcl e' ?_
        have := hlow 0 ⟨le_rfl, hL.le⟩
        rw [hEI] at this
        exact this
      · exact hbcd
  have hps : ∀ j ≤ c.n - 3, |c.psi j - c'.psi j| ≤ (p + p0) * η := by
    intro j hj
    simp only [MCtx.psi]
    rw [show c.psiProv j + c.psi0 - (c'.psiProv j + c'.psi0)
      = (c.psiProv j - c'.psiProv j) + (c.psi0 - c'.psi0) by ring, add_mul]
    exact (abs_add_le _ _).trans (add_le_add (hpsi j hj) hψ0)
  have hdf : ∀ j ≤ c.n - 3, |c.defl j - c'.defl j| ≤ ((p + p0) * L + 1) * η := by
    intro j hj
    simp only [MCtx.defl, hh]
    have h1 := (cumTrap_close c.h (fun q => c.psi q + c.gamma q) (fun q => c'.psi q + c'.gamma q)
      ((p + p0) * η) j (fun q hq => hhn q (by omega)) (fun q hq => by
        rw [hgam, hgam', add_zero, add_zero]
        exact hps q (by omega))).trans
      (mul_le_mul_of_nonneg_left (hsum j hj) (by positivity))
    rw [show ∀ a b u v : ℝ, a + u - (b + v) = (a - b) + (u - v) by intros; ring]
    refine (abs_add_le _ _).trans ?_
    have := hd 0
    linarith
  have hIs : ¬ c.IsEnd k := by simp only [MCtx.IsEnd]; omega
  have hIs' := (hend k).not.2 hIs
  have q1 : 0 ≤ 2 / L * η := by positivity
  have q2 : 0 ≤ (p + p0) * η := by positivity
  have q3 : 0 ≤ ((p + p0) * L + 1) * η := by positivity
  have hsη : taperSens c.m.L e * η
      = 3 * η + 2 / L * η + (p + p0) * η + ((p + p0) * L + 1) * η := by rw [hs]; ring
  rw [hsη]
  refine ⟨(hV k hk hk').trans (by linarith), (hM k hk hk').trans (by linarith), ?_, ?_⟩
  · rw [MCtx.R, MCtx.R, if_neg hIs, if_neg hIs']
    exact (hps (k - 1) (by omega)).trans (by linarith)
  · rw [MCtx.D, MCtx.D, if_neg hIs, if_neg hIs']
    exact (hdf (k - 1) (by omega)).trans (by linarith)


/-! ### The lines of the continuous beam -/

/-- Away from couples the moment of a free-body cut is the one the code works with. -/
theorem TaperSpan.cut_ss {EI : ℝ → ℝ} {L : ℝ} (hL : 0 < L)
    {own : List (Load ℝ)} (hown : ∀ ld ∈ own, ld.Plain L) {F : Vec4 ℝ} {v θ : ℝ → ℝ}
    (h : TaperSpan EI L own F v θ) {x : ℝ} (hx : x ∈ Icc 0 L) :
    cutV L own F x = (F 1 + F 3) / L + (own.map fun ld => ld.ssV L x).sum ∧
    ((∀ ld ∈ own, ∀ p ∈ ld.couplesAt, p.2 ≠ x) →
      cutM L own F x = (F 1 + F 3) / L * x - F 1 + (own.map fun ld => ld.ssM L x).sum) := by
  obtain ⟨h0, _, _⟩ := h.shears hL hown
  constructor
  · rw [cutV_eq hL hown _ hx, h0]
    simp only [ssV_eq]
    ring
  · intro hc
    rw [cutM_eq hL hown _ hx hc, h0, list_sum_sub, list_sum_mul]
    simp only [ssM_eq]
    ring

/-- What the code would report from the exact end forces and displacements converges to the lines of
the continuous span. -/
theorem Member.Tapered.converge {m : Member ℝ} (hm : m.Tapered) (hbv : Bv m.L m.EI.eval)
    {own : List (Load ℝ)} (hown : ∀ ld ∈ own, ld.Plain m.L) {F d : Vec4 ℝ} {v θ : ℝ → ℝ}
    (h : TaperSpan m.EI.eval m.L own F v θ) (hv0 : v 0 = d 0) (hvL : v m.L = d 2)
    (hl : if m.et.freeLeft then F 1 = 0 else θ 0 = d 1) :
    ∃ C : ℝ, ∀ c : MCtx ℝ, c.m = m → c.own = own → c.f = F → c.d = d → 0 < c.npts →
      c.Ma = (clampedSum m.L own).Ma → c.Mb = (clampedSum m.L own).Mb →
      ∀ k, 0 < k → k + 1 < c.n →
      |c.R k - θ (c.x k)| ≤ C / c.npts ∧ |c.D k - v (c.x k)| ≤ C / c.npts := by
  have hL : 0 < m.L := hm.good.1
  obtain ⟨e, he, hlow⟩ := hm.sensible.2.1
  have hsh := h.shape hL hm.sensible
  set f : ℝ → ℝ := fun x => ((F 1 + F 3) / m.L * x - F 1 + (own.map fun ld => ld.ssM m.L x).sum)
    / m.EI.eval x with hf
  have hbf : Bv m.L f := by
    simp only [hf, div_eq_mul_inv]
    exact (((((Bv.const _ _).mul (Bv.id _)).sub (Bv.const _ _)).add
      (Bv.list_sum own (fun ld x => ld.ssM m.L x) fun ld _ => ld.ssM_bv m.L))).mul (hbv.inv he hlow)
  obtain ⟨s, hs, hbend⟩ := hsh.bend
  have hfin := couples_finite own
  have heq : ∀ x ∈ Ioo 0 m.L, x ∉ s ∪ {x | ∃ ld ∈ own, ∃ p ∈ ld.couplesAt, p.2 = x} →
      cutM m.L own F x / m.EI.eval x = f x := by
    intro x hx hn
    simp only [mem_union, mem_ofPred_eq, not_or, not_exists, not_and] at hn
    simp only [hf]
    rw [(h.cut_ss hL hown ⟨hx.1.le, hx.2.le⟩).2 fun ld h1 p h2 => hn.2 ld h1 p h2]
  obtain ⟨Φ, q2⟩ := quad_bv hbf hsh.int (hs.union hfin).countable hsh.contT
    (fun x hx hn => hbend x hx fun h' => hn (Or.inl h')) heq
  have hlip : Bv m.L θ := by
    obtain ⟨A, Φ', hA, -⟩ := hbf
    have q := q2
    refine Bv.lipschitz (B := A + (Φ m.L - Φ 0)) fun a b h0 hab hb => ?_
    obtain ⟨g1, g2⟩ := q a b h0 hab hb
    have g3 : Φ b - Φ a ≤ Φ m.L - Φ 0 := by
      have := (q 0 a le_rfl h0 (hab.trans hb)).2
      have := (q b m.L (h0.trans hab) hb le_rfl).2
      linarith
    have a1 := hA a ⟨h0, hab.trans hb⟩
    have a2 := hA b ⟨h0.trans hab, hb⟩
    have hd : 0 ≤ b - a := by linarith
    have g4 : |(b - a) * (f a + f b) / 2| ≤ (b - a) * A := by
      rw [show (b - a) * (f a + f b) / 2 = (b - a) * ((f a + f b) / 2) by ring, abs_mul,
        abs_of_nonneg hd]
      refine mul_le_mul_of_nonneg_left ?_ hd
      rw [abs_div, abs_two]
      have := abs_add_le (f a) (f b)
      linarith
    have g5 := mul_le_mul_of_nonneg_left g3 hd
    rw [show θ b - θ a = (b - a) * (f a + f b) / 2
      + -((b - a) * (f a + f b) / 2 - (θ b - θ a)) by ring]
    refine (abs_add_le _ _).trans ?_
    rw [abs_neg]
    linarith
  obtain ⟨Ψ, q3⟩ := quad_bv (f := fun x => θ x + (fun _ => (0 : ℝ)) x) (κ := θ) (G := v) (s := ∅)
    (by simpa using hlip) (hsh.contT.intervalIntegrable_of_Icc hL.le) countable_empty hsh.contV
    (fun x hx _ => hsh.slope x hx) (fun x _ _ => by simp)
  refine ⟨m.L * (Φ m.L - Φ 0) + (m.L * (Φ m.L - Φ 0) * m.L + m.L * (Ψ m.L - Ψ 0)) / m.L
    + 2 * (m.L * (Φ m.L - Φ 0) * m.L + m.L * (Ψ m.L - Ψ 0)), ?_⟩
  intro c m1 m2 m3 m4 hn hMa hMb k hk hk'
  have hkap : ∀ j, c.kappa j = 0 := by
    intro j
    simp only [MCtx.kappa, m2]
    rw [List.map_congr_left (g := fun _ => (0 : ℝ))]
    · simp
    · intro ld hld
      have g1 := (hown ld hld).2.1
      cases ld <;> first | exact g1.elim | rfl
  refine shear_converge (c := c) (S := fun _ => 0) hL q2 q3 (by rw [m1]) hn
    (fun j _ => by simp only [MCtx.gamma, m1, hm.slender]) ?_ (by rw [m4, hv0]) (by rw [m4, hvL]) ?_
    k hk hk'
  · intro j hj hj'
    have hIs : ¬ c.IsEnd j := by simp only [MCtx.IsEnd]; omega
    simp only [MCtx.curv, hkap, MCtx.M, if_neg hIs, m1, m2, m3, mambStn, hf, add_zero]
  · simp only [MCtx.psi0]
    split_ifs with t1 t2
    · left
      rw [m1] at t1
      rw [t1] at hl
      simp only [EType.freeLeft, Bool.false_eq_true, if_false] at hl
      rw [m4, hl]
    · exact .inr rfl
    · rcases hEI : c.m.EI with e' | sd
      · left
        rw [m1] at hEI
        have he' : 0 < e' := by
          have := hm.good.2.1
          rw [hEI] at this
          exact this
        rw [hEI] at h
        have hS : ElasticSpan e' m.L own F v θ :=
          ⟨h.slope, fun x hx hcp => h.curvature x hx continuousAt_const hcp, h.contV,
            h.contT, h.force, h.moment⟩
        have := psi0_exact he' hL hown hS
        simp only [MCtx.psiClosed]
        rw [← this, m1, m3, m4, hMa, hMb, hv0, hvL]
      · exact .inr rfl

/-- **C151** (along the members): under the hypotheses of `C151_tapered_partial`, for rigidities of
bounded variation, the reported shears and moments between the padding stations of a member are within
`C ε` of those of a free-body cut of the continuous beam (the moments away from applied couples), and
the reported rotations and deflections within `C ε + C' / npts` of its elastic line, `C` depending on
members and supports only, `C'` not on `ε`, the number of stations and the shear points. -/
theorem C151_reported_partial (b₀ : BeamDef ℝ) (s₀ : System ℝ) (h₀ : b₀.system = .ok s₀)
    (hns : s₀.Nonsingular) (hm : ∀ m ∈ b₀.members, m.Tapered)
    (hbv : ∀ m ∈ b₀.members, Bv m.L m.EI.eval) :
    ∃ C : ℝ, 0 < C ∧ ∀ (LM : List (Row ℝ)) (P : List (Option ℝ)),
      P.map Option.isSome = b₀.presc.map Option.isSome →
      ∀ (b : BeamDef ℝ), b = ⟨b₀.members, b₀.restraints, P, LM⟩ →
      ∀ (ls : List (SpanLoad ℝ)), b.setLoads = .ok ls →
      (∀ i (hi : i < b.members.length), ∀ ld ∈ ownLoads i ls, ld.Plain b.members[i].L) →
      ∀ (stable : System ℝ → Bool) (solve : Solver ℝ), solve.Sound → ∀ res : Result ℝ,
      b.analyze stable solve = .ok res →
      ∀ (u : ℕ → ℝ) (F : ℕ → Vec4 ℝ) (v θ : ℕ → ℝ → ℝ), TaperBeam b ls u F v θ →
      ∃ C' : ℝ, ∀ ε : ℝ, 0 ≤ ε → (∀ i (hi : i < b.members.length),
        b.members[i].taperErr (ownLoads i ls) (F i) ≤ ε) →
        ∀ (npts : ℕ) (sp : ℕ → List ℝ) (rs : List (MRes ℝ)), 0 < npts →
        b.memberResults res npts sp = .ok rs →
        ∀ i (hi : i < b.members.length) (hi' : i < rs.length) (k : ℕ), 0 < k → k + 1 < rs[i].n →
        |rs[i].V k - cutV b.members[i].L (ownLoads i ls) (F i) (rs[i].x k - b.nodeX i)| ≤ C * ε ∧
        ((∀ ld ∈ ownLoads i ls, ∀ p ∈ ld.couplesAt, p.2 ≠ rs[i].x k - b.nodeX i) →
          |rs[i].M k - cutM b.members[i].L (ownLoads i ls) (F i) (rs[i].x k - b.nodeX i)| ≤ C * ε) ∧
        |rs[i].R k - θ i (rs[i].x k - b.nodeX i)| ≤ C * ε + C' / npts ∧
        |rs[i].D k - v i (rs[i].x k - b.nodeX i)| ≤ C * ε + C' / npts := by
  obtain ⟨C0, hC0, hw⟩ := C151_tapered_partial b₀ s₀ h₀ hns hm
  obtain ⟨S, hS0, hS⟩ := exists_common_bound b₀.members
    (fun m S => ∃ e, 0 < e ∧ (∀ x ∈ Icc 0 m.L, e ≤ m.EI.eval x) ∧ taperSens m.L e ≤ S)
    (fun m D D' hD ⟨e, h1, h2, h3⟩ => ⟨e, h1, h2, h3.trans hD⟩)
    (fun m hmm => by
      obtain ⟨e, he, hlow⟩ := (hm m hmm).sensible.2.1
      have hL : 0 < m.L := (hm m hmm).good.1
      exact ⟨taperSens m.L e, by simp only [taperSens]; positivity, e, he, hlow, le_rfl⟩)
  refine ⟨(S + 1) * C0, by positivity, ?_⟩
  intro LM P hP b hb ls hls hown stable solve hso res ha u F v θ hT
  have hbm : b.members = b₀.members := by rw [hb]
  have hmem : ∀ i (hi : i < b.members.length), b.members[i] ∈ b₀.members := fun i hi => by
    rw [← hbm]; exact List.getElem_mem hi
  have hconv : ∀ i, ∃ C : ℝ, ∀ hi : i < b.members.length, ∀ c : MCtx ℝ, c.m = b.members[i] →
      c.own = ownLoads i ls → c.f = F i → c.d = elemVec u i → 0 < c.npts →
      c.Ma = (clampedSum b.members[i].L (ownLoads i ls)).Ma →
      c.Mb = (clampedSum b.members[i].L (ownLoads i ls)).Mb →
      ∀ k, 0 < k → k + 1 < c.n →
      |c.R k - θ i (c.x k)| ≤ C / c.npts ∧ |c.D k - v i (c.x k)| ≤ C / c.npts := by
    intro i
    by_cases hi : i < b.members.length
    · obtain ⟨C, hC⟩ := (hm _ (hmem i hi)).converge (hbv _ (hmem i hi)) (hown i hi) (hT.span i hi)
        (d := elemVec u i) (hT.left i hi) (hT.right i hi) (hT.rotLeft i hi)
      exact ⟨C, fun _ => hC⟩
    · exact ⟨0, fun h => absurd h hi⟩
  choose Cf hCf using hconv
  refine ⟨∑ i ∈ Finset.range b.members.length, |Cf i|, ?_⟩
  intro ε hε hc npts sp rs hn hr i hi hi' k hk hk'
  obtain ⟨hd, hf⟩ := hw LM P hP b hb ls hls hown stable solve hso res ha u F v θ hT ε hc hε
  have hCi : Cf i ≤ ∑ i ∈ Finset.range b.members.length, |Cf i| :=
    (le_abs_self _).trans (Finset.single_le_sum (f := fun i => |Cf i|) (fun _ _ => abs_nonneg _)
      (Finset.mem_range.2 hi))
  obtain ⟨_, ls', hls', hc'⟩ := BeamDef.memberResults_ok hr
  rw [hls] at hls'
  cases hls'
  obtain ⟨c, hc1, hc2⟩ := hc' i hi hi'
  obtain ⟨m1, m2, m3, m4, m5, m6, cnls, n1, n2, n3⟩ := Member.ctx_ok hc1
  have hmi := hm _ (hmem i hi)
  have hL : 0 < b.members[i].L := hmi.good.1
  obtain ⟨e, he, hlow, hsen⟩ := hS _ (hmem i hi)
  have hcl : c.Ma = (clampedSum b.members[i].L (ownLoads i ls)).Ma ∧
      c.Mb = (clampedSum b.members[i].L (ownLoads i ls)).Mb := by
    have : cnls = (ownLoads i ls).map fun ld => ld.clamped b.members[i].L := by
      obtain ⟨p1, p2⟩ := mapE_ok n1
      apply List.ext_getElem
      · simp [p1]
      · intro j hj1 hj2
        have := p2 j (by simpa using hj2) hj1
        rw [(hown i hi _ (List.getElem_mem _)).cnl hL] at this
        rw [List.getElem_map]
        exact (Except.ok.inj this).symm
    rw [n2, n3, this]
    simp only [List.map_map, Function.comp_def, clampedSum, and_self]
  set c' : MCtx ℝ := ⟨c.m, c.own, F i, elemVec u i, c.npts, c.sp, c.Ma, c.Mb⟩ with hcd
  have hη : 0 ≤ C0 * ε := by positivity
  obtain ⟨w1, w2, w3, w4⟩ := MCtx.stableTaper (c := c) (c' := c') (by rw [m1]; exact hL)
    (by rw [m1]; exact hmi.slender) he (by rw [m1]; exact hlow) (by rw [m5]; exact hn) rfl rfl rfl rfl hη
    (fun j => by
      simp only [hcd, m3]
      exact hf i hi j)
    (fun j => by
      have hp : 2 * i + (j : ℕ) < 2 * b.members.length + 2 := by have := j.isLt; omega
      simp only [hcd, m4]
      exact hd _ hp)
    (by simpa [hcd] using hη) (by simpa [hcd] using hη) k hk (by rw [hc2] at hk'; exact hk')
  have hCε : taperSens c.m.L e * (C0 * ε) ≤ (S + 1) * C0 * ε := by
    rw [mul_assoc, m1]
    exact mul_le_mul_of_nonneg_right (by linarith) hη
  obtain ⟨x1, x2, x3, x4, x5, x6⟩ := c.x_spec (by rw [m1]; exact hL) (by rw [m5]; exact hn)
  rw [hc2] at hk' ⊢
  simp only [MCtx.result] at hk' ⊢
  rw [show c.x k + b.nodeX i - b.nodeX i = c.x k by ring]
  have hIs : ¬ c.IsEnd k := by simp only [MCtx.IsEnd]; omega
  have hIs' : ¬ c'.IsEnd k := hIs
  have hxI : c.x k ∈ Icc 0 b.members[i].L := by
    rw [m1] at x5
    exact ⟨x2 ▸ x6 0 k (by omega) (by omega), x5 ▸ x6 k (c.n - 1) (by omega) (by omega)⟩
  have hxc : c'.x k = c.x k := rfl
  obtain ⟨r1, r2⟩ := hCf i hi c' m1 m2 rfl rfl (by simp only [hcd]; rw [m5]; exact hn)
    hcl.1 hcl.2 k hk hk'
  have hnp : (c'.npts : ℝ) = npts := by rw [show c'.npts = c.npts from rfl, m5]
  rw [hxc, hnp] at r1 r2
  have hdiv : Cf i / (npts : ℝ) ≤ (∑ i ∈ Finset.range b.members.length, |Cf i|) / npts :=
    div_le_div_of_nonneg_right hCi (by positivity)
  have tri : ∀ a b d x y : ℝ, |a - b| ≤ x → |b - d| ≤ y → |a - d| ≤ x + y := by
    intro a b d x y h1 h2
    rw [show a - d = (a - b) + (b - d) by ring]
    exact (abs_add_le _ _).trans (add_le_add h1 h2)
  obtain ⟨cV, cM⟩ := (hT.span i hi).cut_ss hL (hown i hi) hxI
  refine ⟨?_, fun hcp => ?_, ?_, ?_⟩
  · have e1 : c'.V k = cutV b.members[i].L (ownLoads i ls) (F i) (c.x k) := by
      rw [cV, MCtx.V, if_neg hIs', hxc, show c'.m = b.members[i] from m1,
        show c'.own = ownLoads i ls from m2, show c'.f = F i from rfl]
      simp only [mambStn]
    rw [← e1]
    exact w1.trans hCε
  · have e1 : c'.M k = cutM b.members[i].L (ownLoads i ls) (F i) (c.x k) := by
      rw [cM hcp, MCtx.M, if_neg hIs', hxc, show c'.m = b.members[i] from m1,
        show c'.own = ownLoads i ls from m2, show c'.f = F i from rfl]
      simp only [mambStn]
    rw [← e1]
    exact w2.trans hCε
  · exact (tri _ _ _ _ _ w3 r1).trans (add_le_add hCε hdiv)
  · exact (tri _ _ _ _ _ w4 r2).trans (add_le_add hCε hdiv)

/-! ### Section objects -/

theorem polyval_bv (L : ℝ) (cs : List ℝ) : Bv L (polyval cs) := by
  have : ∀ f : ℝ → ℝ, Bv L f → Bv L fun x => cs.foldl (fun acc c => acc * x + c) (f x) := by
    induction cs with
    | nil => intro f hf; exact hf
    | cons c cs ih =>
      intro f hf
      exact ih (fun x => f x * x + c) ((hf.mul (Bv.id L)).add (Bv.const L c))
  exact this (fun _ => 0) (Bv.const L 0)

theorem pick_bv (L ε : ℝ) (ps : List (Piece ℝ)) (f : ℝ → ℝ) (hf : Bv L f) : Bv L (pick ε ps f) := by
  induction ps with
  | nil => exact hf
  | cons p ps ih =>
    have := Bv.ite (fun x => p.x0 - ε ≤ x) (fun a b h h' => h'.trans h)
      (Bv.ite (fun x => p.x1 + ε < x) (fun a b h h' => h'.trans_le h) ih (polyval_bv L p.coeffs)) ih
    rw [pick_cons]
    refine (funext fun x => ?_ : (fun x => if x ∈ Icc (p.x0 - ε) (p.x1 + ε) then p.eval x
      else pick ε ps f x) = _) ▸ this
    by_cases h1 : p.x0 - ε ≤ x
    · by_cases h2 : p.x1 + ε < x
      · have : x ∉ Icc (p.x0 - ε) (p.x1 + ε) := fun h => absurd h.2 (not_le.2 h2)
        simp only [if_neg this, if_pos h1, if_pos h2]
      · have : x ∈ Icc (p.x0 - ε) (p.x1 + ε) := ⟨h1, not_lt.1 h2⟩
        simp only [if_pos this, if_pos h1, if_neg h2]
        rfl
    · have : x ∉ Icc (p.x0 - ε) (p.x1 + ε) := fun h => absurd h.1 h1
      simp only [if_neg this, if_neg h1]

/-- **C151** (sections, along the members): the rigidity of every section object is of bounded
variation. -/
theorem C151_sections_variation (leg : Leg ℝ) (t : Sec ℝ) (L : ℝ) :
    Bv L (Rigidity.section (t.data leg)).eval := by
  show Bv L t.value
  rcases hps : t.pieces with _ | ⟨p0, ps⟩
  · have : t.value = fun _ => 0 := by
      funext x
      simp [Sec.value, Sec.eval, hps]
    rw [this]
    exact Bv.const L 0
  · rw [Sec.value_pick hps]
    refine pick_bv L _ _ _ ?_
    have h1 := Bv.ite (fun x => t.fin < x) (fun a b h h' => h'.trans_le h)
      (polyval_bv L (ps.getLastD p0).coeffs) (Bv.const L 0)
    have h2 := Bv.ite (fun x => t.x0 ≤ x) (fun a b h h' => h'.trans h) h1 (polyval_bv L p0.coeffs)
    refine (funext fun x => ?_ : t.beyond p0 ps = _) ▸ h2
    simp only [Sec.beyond]
    by_cases h : x < t.x0
    · rw [if_pos h, if_neg (not_le.2 h)]
      rfl
    · rw [if_neg h, if_pos (not_lt.1 h)]
      rfl

/-! ### A concrete case -/

theorem exTaper_bv (ns : List (GNode ℝ)) : ∀ m ∈ (exTaper ns).members, Bv m.L m.EI.eval := by
  intro m hm
  simp only [exTaper, List.mem_cons, List.not_mem_nil, or_false] at hm
  rcases hm with rfl | rfl
  · show Bv 2 fun x : ℝ => 6 / (1 + x)
    simp only [div_eq_mul_inv]
    exact (Bv.const 2 6).mul (((Bv.const 2 1).add (Bv.id 2)).inv one_pos fun x hx => by
      linarith [hx.1])
  · exact Bv.const _ 6

/-- The haunched beam of `Exact/TaperExists`, integrated with the midpoints of its halves: the
reported lines of both spans are near those of the continuous beam. -/
example : ∃ (C C' : ℝ) (solve : Solver ℝ) (res : Result ℝ) (u : ℕ → ℝ) (F : ℕ → Vec4 ℝ)
    (v θ : ℕ → ℝ → ℝ), 0 < C ∧ solve.Sound ∧
    (exTaper exTaperMid).analyze (fun _ => true) solve = .ok res ∧
    TaperBeam (exTaper exTaperMid) [⟨0, .udl 3⟩, ⟨1, .ml 5 1⟩] u F v θ ∧
    ∀ ε, 0 ≤ ε → (∀ i (hi : i < (exTaper exTaperMid).members.length),
      (exTaper exTaperMid).members[i].taperErr (ownLoads i [⟨0, .udl 3⟩, ⟨1, .ml 5 1⟩]) (F i) ≤ ε) →
      ∀ npts : ℕ, 0 < npts → ∃ rs : List (MRes ℝ), ∃ hi : 0 < rs.length,
        (exTaper exTaperMid).memberResults res npts (fun _ => []) = .ok rs ∧
        ∀ k, 0 < k → k + 1 < rs[0].n →
          |rs[0].M k - cutM 2 [.udl 3] (F 0) (rs[0].x k - (exTaper exTaperMid).nodeX 0)| ≤ C * ε ∧
          |rs[0].D k - v 0 (rs[0].x k - (exTaper exTaperMid).nodeX 0)| ≤ C * ε + C' / npts := by
  obtain ⟨s, hs, hns, hv⟩ := exTaper_system exTaperMid_good
  obtain ⟨solve, hsd, res, hres⟩ := BeamDef.completes hs hns hv
  obtain ⟨u, F, v, θ, hT, _⟩ := C151_exists_unique _ [⟨0, .udl 3⟩, ⟨1, .ml 5 1⟩] s hs hns
    (exTaper_tapered exTaperMid_good) (exTaper_own _)
  obtain ⟨C, hC, h⟩ := C151_reported_partial _ s hs hns (exTaper_tapered exTaperMid_good) (exTaper_bv _)
  obtain ⟨C', hC'⟩ := h _ _ rfl _ rfl _ (exTaper_loads _) (exTaper_own _) _ solve hsd res hres u F v θ hT
  refine ⟨C, C', solve, res, u, F, v, θ, hC, hsd, hres, hT, fun ε h0 hε npts hn => ?_⟩
  obtain ⟨rs, hrs⟩ : ∃ rs, (exTaper exTaperMid).memberResults res npts (fun _ => []) = .ok rs := by
    rw [BeamDef.memberResults, exTaper_loads]
    simp [exTaper, mapE, Member.values, Member.ctx, ownLoads, Member.cnl, Load.getCnl]
  obtain ⟨hl, _⟩ := BeamDef.memberResults_ok hrs
  have hi : 0 < rs.length := by rw [hl]; simp [exTaper]
  have ho : ownLoads 0 ([⟨0, .udl 3⟩, ⟨1, .ml 5 1⟩] : List (SpanLoad ℝ)) = [.udl 3] := by
    simp [ownLoads]
  refine ⟨rs, hi, hrs, fun k h1 h2 => ?_⟩
  obtain ⟨_, hM, _, hD⟩ := hC' ε h0 hε npts _ rs hn hrs 0 (by simp [exTaper]) hi k h1 h2
  rw [ho] at hM
  exact ⟨hM (by simp [Load.couplesAt]), hD⟩

end PyCBA
