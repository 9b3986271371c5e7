import Verif.Foundation.Ritz

/-!
A deflected shape and the recovered line of one foundation member (for C149).
-/

set_option linter.unusedSectionVars false
set_option linter.unusedSimpArgs false

namespace PyCBA

open Matrix Finset MeasureTheory

theorem integral_congr_inside {f g : ℝ → ℝ} {a b : ℝ} (hab : a ≤ b) (h : ∀ x ∈ Set.Ioo a b, f x = g x) :
    (IntervalIntegrable g volume a b → IntervalIntegrable f volume a b) ∧
    ∫ x in a..b, f x = ∫ x in a..b, g x := by
  have hae : ∀ᵐ x ∂volume, x ∈ Set.uIoc a b → f x = g x := by
    filter_upwards [compl_mem_ae_iff.2 (measure_singleton b)] with x hx hm
    rw [Set.uIoc_of_le hab] at hm
    exact h x ⟨hm.1, lt_of_le_of_ne hm.2 hx⟩
  refine ⟨fun hg => hg.congr_ae ?_, intervalIntegral.integral_congr_ae hae⟩
  rw [Filter.EventuallyEq, ae_restrict_iff' measurableSet_uIoc]
  filter_upwards [hae] with x hx hm
  exact (hx hm).symm

/-- An integral over a member as the sum of those over its pieces. -/
theorem integral_pieces {n : ℕ} (hn : 0 < n) {L : ℝ} (hL : 0 < L) {f : ℝ → ℝ} {g : ℕ → ℝ → ℝ}
    (hg : ∀ e < n, IntervalIntegrable (g e) volume (e * (L / n)) (e * (L / n) + L / n))
    (h : ∀ e < n, ∀ x ∈ Set.Ioo ((e : ℝ) * (L / n)) (e * (L / n) + L / n), f x = g e x) :
    IntervalIntegrable f volume 0 L ∧
    ∫ x in (0 : ℝ)..L, f x = ∑ e ∈ range n, ∫ x in (e * (L / n) : ℝ)..(e * (L / n) + L / n), g e x := by
  have hn' : (0 : ℝ) < n := by exact_mod_cast hn
  have hh : 0 < L / n := div_pos hL hn'
  have hend : (n : ℝ) * (L / n) = L := by field_simp
  have hi : IntervalIntegrable f volume 0 L := by
    have := IntervalIntegrable.trans_iterate (f := f) (μ := volume)
      (a := fun k : ℕ => (k : ℝ) * (L / n)) (n := n) (fun s hs => by
        have e : ((s + 1 : ℕ) : ℝ) * (L / n) = s * (L / n) + L / n := by push_cast; ring
        rw [e]; exact (integral_congr_inside (by linarith) (h s hs)).1 (hg s hs))
    simpa [hend] using this
  refine ⟨hi, ?_⟩
  rw [elem_sum hn hL hi]
  exact Finset.sum_congr rfl fun e he =>
    (integral_congr_inside (by linarith) (h e (Finset.mem_range.1 he))).2

/-! ### The recovered line -/

/-- Slope and curvature between the nodes of a mesh. -/
noncomputable def Found.lineT (F : Found ℝ) (D : ℕ → ℝ) (x : ℝ) : ℝ := (meshShape F.n (fun _ => F.L) D).t 0 x
noncomputable def Found.lineK (F : Found ℝ) (D : ℕ → ℝ) (x : ℝ) : ℝ := (meshShape F.n (fun _ => F.L) D).c 0 x

section line

variable (F : Found ℝ) (hn : 0 < F.n) (hL : 0 < F.L) (D : ℕ → ℝ)

include hn hL

theorem Found.line_inside {e : ℕ} (he : e < F.n) {x : ℝ} (h0 : (e : ℝ) * F.h ≤ x)
    (h1 : x < e * F.h + F.h) :
    F.line D x = cubV F.h (elemVec D e) (x - e * F.h) ∧
    F.lineT D x = cubT F.h (elemVec D e) (x - e * F.h) ∧
    F.lineK D x = cubK F.h (elemVec D e) (x - e * F.h) := by
  have hh := F.h_pos hn hL
  refine ⟨?_, ?_⟩
  · rw [Found.line, F.pieceAt_eq hn hL he h0 (by linarith), cubic_eq_cubV]
  · have := mesh_inside (n := F.n) (L := fun _ => F.L) (d := D) (i := 0) (s := e) hh h0 h1
    simp only [zero_mul, zero_add] at this
    exact this.2

theorem Found.line_curv {e : ℕ} (he : e < F.n) {x : ℝ}
    (hx : x ∈ Set.Ioo ((e : ℝ) * F.h) (e * F.h + F.h)) :
    deriv (deriv (F.line D)) x = cubK F.h (elemVec D e) (x - e * F.h) := by
  have hev : ∀ y ∈ Set.Ioo ((e : ℝ) * F.h) (e * F.h + F.h),
      deriv (F.line D) y = cubT F.h (elemVec D e) (y - e * F.h) := by
    intro y hy
    have : F.line D =ᶠ[nhds y] fun x => cubV F.h (elemVec D e) (x - e * F.h) := by
      filter_upwards [isOpen_Ioo.mem_nhds hy] with z hz
      exact (F.line_inside hn hL D he hz.1.le hz.2).1
    rw [this.deriv_eq]
    exact (cubV_deriv F.h (elemVec D e) (e * F.h) y).deriv
  have : deriv (F.line D) =ᶠ[nhds x] fun x => cubT F.h (elemVec D e) (x - e * F.h) := by
    filter_upwards [isOpen_Ioo.mem_nhds hx] with z hz
    exact hev z hz
  rw [this.deriv_eq]
  exact (cubT_deriv F.h (elemVec D e) (e * F.h) x).deriv

theorem Found.line_mesh {x : ℝ} (hx : x ∈ Set.Icc 0 F.L) :
    F.line D x = (meshShape F.n (fun _ => F.L) D).w 0 x := by
  have hh := F.h_pos hn hL
  rcases lt_or_eq_of_le hx.2 with h1 | h1
  · have hfl : ⌊x / F.h⌋₊ < F.n := by
      rw [Nat.floor_lt (div_nonneg hx.1 hh.le), div_lt_iff₀ hh, F.n_h hn]
      exact h1
    have a1 : ((⌊x / F.h⌋₊ : ℕ) : ℝ) * F.h ≤ x := by
      rw [← le_div_iff₀ hh]
      exact Nat.floor_le (div_nonneg hx.1 hh.le)
    have a2 : x < (⌊x / F.h⌋₊ : ℕ) * F.h + F.h := by
      have := Nat.lt_floor_add_one (x / F.h)
      rw [div_lt_iff₀ hh] at this
      linarith
    have := mesh_inside (n := F.n) (L := fun _ => F.L) (d := D) (i := 0) (s := ⌊x / F.h⌋₊) hh a1 a2
    simp only [zero_mul, zero_add] at this
    rw [(F.line_inside hn hL D hfl a1 a2).1, this.1]
    rfl
  · have := (mesh_at (n := F.n) (L := fun _ => F.L) (d := D) (i := 0) hh F.n).1
    simp only [zero_mul, zero_add] at this
    have e : (F.n : ℝ) * (F.L / F.n) = F.L := F.n_h hn
    rw [e] at this
    rw [h1, this, (F.line_ends hn hL D).2]

theorem Found.line_slopes : SlopeOn (F.line D) (F.lineT D) 0 F.L ∧
    SlopeOn (F.lineT D) (F.lineK D) 0 F.L := by
  obtain ⟨a1, a2⟩ := mesh_slopes (n := F.n) (L := fun _ => F.L) (d := D) (i := 0) hn hL
  refine ⟨⟨a1.cont.congr fun x hx => F.line_mesh hn hL D hx, fun x hx => ?_⟩, a2⟩
  refine (a1.deriv x hx).congr_of_eventuallyEq ?_ (F.line_mesh hn hL D ⟨hx.1.le, hx.2.le⟩)
  filter_upwards [Ioo_mem_nhdsGT hx.2] with y hy
  exact F.line_mesh hn hL D ⟨hx.1.le.trans hy.1.le, hy.2.le⟩

end line

/-! ### Error of one member -/

/-- The deflections and slopes of a shape at the nodes of a mesh. -/
noncomputable def sampleAt (h : ℝ) (w t : ℝ → ℝ) (p : ℕ) : ℝ :=
  if p % 2 = 0 then w ((p / 2 : ℕ) * h) else t ((p / 2 : ℕ) * h)

theorem sampleAt_elem (h : ℝ) (w t : ℝ → ℝ) (e : ℕ) :
    elemVec (sampleAt h w t) e = endVals w t (e * h) h := by
  have e1 : 2 * e / 2 = e := by omega
  have e2 : (2 * e + 1) / 2 = e := by omega
  have e3 : 2 * e % 2 = 0 := by omega
  have e4 : (2 * e + 1) % 2 ≠ 0 := by omega
  have e5 : 2 * (e + 1) / 2 = e + 1 := by omega
  have e6 : (2 * (e + 1) + 1) / 2 = e + 1 := by omega
  have e7 : 2 * (e + 1) % 2 = 0 := by omega
  have e8 : (2 * (e + 1) + 1) % 2 ≠ 0 := by omega
  rw [elemVec_eq, endVals]
  simp only [sampleAt, e1, e2, e3, e4, e5, e6, e7, e8, if_true, if_false]
  have : ((e + 1 : ℕ) : ℝ) * h = e * h + h := by push_cast; ring
  rw [this]

theorem dot_piece (F : Found ℝ) (d e : Vec4 ℝ) :
    d ⬝ᵥ ((kEbeam F.EI F.h + mConsistent F.kf F.h) *ᵥ e)
      = F.EI * d ⬝ᵥ (kEbeam 1 F.h *ᵥ e) + F.kf * d ⬝ᵥ (mConsistent 1 F.h *ᵥ e) := by
  have h1 : kEbeam F.EI F.h = F.EI • kEbeam 1 F.h := by
    ext i j
    fin_cases i <;> fin_cases j <;> simp [kEbeam]
  have h2 : mConsistent F.kf F.h = F.kf • mConsistent 1 F.h := by
    ext i j
    fin_cases i <;> fin_cases j <;> simp [mConsistent] <;> ring
  rw [h1, h2, add_mulVec, dotProduct_add, smul_mulVec, smul_mulVec, dotProduct_smul, dotProduct_smul]
  rfl

/-- The distance of the recovered line from any shape: that of the cubics with the values of
the shape at the nodes, and a part that vanishes in the sum over a beam whose shape and mesh
are in equilibrium. -/
theorem Found.member_error (F : Found ℝ) (hn : 0 < F.n) (hL : 0 < F.L) (hE : 0 ≤ F.EI) (hk : 0 ≤ F.kf)
    {w t c : ℝ → ℝ} (hw : SlopeOn w t 0 F.L) (ht : SlopeOn t c 0 F.L)
    (hc : IntervalIntegrable c volume 0 F.L)
    (hc2 : IntervalIntegrable (fun x => c x ^ 2) volume 0 F.L) (α β ε : ℕ → ℝ)
    (hε : ∀ e < F.n, ∀ x ∈ Set.Icc ((e : ℝ) * F.h) (e * F.h + F.h), |c x - (α e + β e * x)| ≤ ε e)
    (D U : ℕ → ℝ) (hU : ∀ p, U p = sampleAt F.h w t p - D p) :
    F.EI * (∫ x in (0 : ℝ)..F.L, (c x - deriv (deriv (F.line D)) x) ^ 2)
        + F.kf * (∫ x in (0 : ℝ)..F.L, (w x - F.line D x) ^ 2)
      ≤ (F.EI + F.kf * F.h ^ 4) * ∑ e ∈ range F.n, F.h * ε e ^ 2
        + 2 * (F.EI * (∫ x in (0 : ℝ)..F.L, c x * F.lineK U x)
            + F.kf * (∫ x in (0 : ℝ)..F.L, w x * F.line U x)
            - ∑ e ∈ range F.n, elemVec U e ⬝ᵥ
              ((kEbeam F.EI F.h + mConsistent F.kf F.h) *ᵥ elemVec D e)) := by
  have hh := F.h_pos hn hL
  have hhe : F.L / F.n = F.h := rfl
  have hin : ∀ e < F.n, 0 ≤ (e : ℝ) * F.h ∧ (e : ℝ) * F.h + F.h ≤ F.L := fun e he => elem_in he hL
  have hsub : ∀ e < F.n, Set.uIcc ((e : ℝ) * F.h) (e * F.h + F.h) ⊆ Set.uIcc 0 F.L := by
    intro e he
    rw [Set.uIcc_of_le (by linarith), Set.uIcc_of_le hL.le]
    exact Set.Icc_subset_Icc (hin e he).1 (hin e he).2
  have pw := fun e he => hw.mono (hin e he).1 (hin e he).2
  have pt := fun e he => ht.mono (hin e he).1 (hin e he).2
  have pc := fun e he => hc.mono_set (hsub e he)
  have pc2 := fun e he => hc2.mono_set (hsub e he)
  have pwi : ∀ e < F.n, IntervalIntegrable w volume (e * F.h) (e * F.h + F.h) := fun e he =>
    ContinuousOn.intervalIntegrable (by rw [Set.uIcc_of_le (by linarith)]; exact (pw e he).cont)
  have pwi2 : ∀ e < F.n, IntervalIntegrable (fun x => w x ^ 2) volume (e * F.h) (e * F.h + F.h) := fun e he =>
    ContinuousOn.intervalIntegrable (by rw [Set.uIcc_of_le (by linarith)]; exact (pw e he).cont.pow 2)
  obtain ⟨-, s1⟩ := integral_pieces hn hL (f := fun x => (c x - deriv (deriv (F.line D)) x) ^ 2)
    (g := fun e x => (c x - cubK F.h (elemVec D e) (x - e * F.h)) ^ 2)
    (fun e he => (sq_expand (pc e he) (pc2 e he) (cubK_cont F.h (elemVec D e) (e * F.h))).1)
    (fun e he x hx => by rw [F.line_curv hn hL D he hx])
  obtain ⟨-, s2⟩ := integral_pieces hn hL (f := fun x => (w x - F.line D x) ^ 2)
    (g := fun e x => (w x - cubV F.h (elemVec D e) (x - e * F.h)) ^ 2)
    (fun e he => (sq_expand (pwi e he) (pwi2 e he) (cubV_cont F.h (elemVec D e) (e * F.h))).1)
    (fun e he x hx => by rw [(F.line_inside hn hL D he hx.1.le hx.2).1])
  obtain ⟨-, s3⟩ := integral_pieces hn hL (f := fun x => c x * F.lineK U x)
    (g := fun e x => c x * cubK F.h (elemVec U e) (x - e * F.h))
    (fun e he => (pc e he).mul_continuousOn (cubK_cont F.h (elemVec U e) (e * F.h)).continuousOn)
    (fun e he x hx => by rw [(F.line_inside hn hL U he hx.1.le hx.2).2.2])
  obtain ⟨-, s4⟩ := integral_pieces hn hL (f := fun x => w x * F.line U x)
    (g := fun e x => w x * cubV F.h (elemVec U e) (x - e * F.h))
    (fun e he => (pwi e he).mul_continuousOn (cubV_cont F.h (elemVec U e) (e * F.h)).continuousOn)
    (fun e he x hx => by rw [(F.line_inside hn hL U he hx.1.le hx.2).1])
  simp only [hhe] at s1 s2 s3 s4
  rw [s1, s2, s3, s4]
  simp only [Finset.mul_sum]
  rw [← Finset.sum_add_distrib, ← Finset.sum_add_distrib, ← Finset.sum_sub_distrib, Finset.mul_sum,
    ← Finset.sum_add_distrib]
  refine Finset.sum_le_sum fun e he => ?_
  have he := Finset.mem_range.1 he
  have hUe : elemVec U e = endVals w t (e * F.h) F.h - elemVec D e := by
    rw [← sampleAt_elem]
    funext p
    simp only [elemVec, Pi.sub_apply, hU]
  have k1 := curv_change hh (pc e he) (pc2 e he) (endVals w t (e * F.h) F.h) (elemVec D e)
  have k2 := defl_change hh (pw e he).cont (endVals w t (e * F.h) F.h) (elemVec D e)
  rw [← hUe] at k1 k2
  obtain ⟨b1, b2⟩ := piece_interp hh (pw e he) (pt e he) (pc e he) (pc2 e he) (hε e he)
  have n1 := mul_nonneg hE (kEbeam_one_nonneg hh (elemVec U e))
  have n2 := mul_nonneg hk (mConsistent_one_nonneg hh (elemVec U e))
  have m1 := mul_le_mul_of_nonneg_left b1 hE
  have m2 := mul_le_mul_of_nonneg_left b2 hk
  rw [k1, k2, dot_piece]
  linarith

end PyCBA
