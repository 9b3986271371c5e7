import Verif.Exact.TaperSection
import Verif.Exact.Simpson
import Mathlib.LinearAlgebra.AffineSpace.FiniteDimensional
import Mathlib.Analysis.Convex.Caratheodory
import Mathlib.Analysis.Convex.Integral
import Mathlib.Topology.Algebra.Polynomial
import Mathlib.Algebra.Polynomial.Eval.Degree
import Mathlib.Algebra.Polynomial.Degree.Lemmas

set_option linter.unusedSectionVars false
set_option linter.unusedSimpArgs false

/-!
How exact the flexibility coefficients of a member of variable section are.
-/

namespace PyCBA

open MeasureTheory Set Matrix

/-- What is asked of the table `leggauss n`: positive weights, points within `[-1, 1]`, and exact
integrals of the powers below twice the number of points. -/
def Leg.Exact (leg : Leg ℝ) (n : ℕ) : Prop :=
  (∀ q ∈ leg n, 0 < q.2 ∧ -1 ≤ q.1 ∧ q.1 ≤ 1) ∧
    ∀ j < 2 * n, ((leg n).map fun q => q.2 * q.1 ^ j).sum = ∫ x in (-1 : ℝ)..1, x ^ j

/-! ### A rule on one piece -/

theorem list_sum_finset {α : Type*} (l : List α) (N : ℕ) (f : α → ℕ → ℝ) :
    (l.map fun q => ∑ i ∈ Finset.range N, f q i).sum
      = ∑ i ∈ Finset.range N, (l.map fun q => f q i).sum := by
  induction l with
  | nil => simp
  | cons a l ih => simp [ih, Finset.sum_add_distrib]

theorem rule_poly {l : List (ℝ × ℝ)} {N : ℕ}
    (h : ∀ j < N, (l.map fun q => q.2 * q.1 ^ j).sum = ∫ x in (-1 : ℝ)..1, x ^ j)
    (Q : Polynomial ℝ) (hQ : Q.natDegree < N) :
    (l.map fun q => q.2 * Q.eval q.1).sum = ∫ x in (-1 : ℝ)..1, Q.eval x := by
  have e : ∀ x, Q.eval x = ∑ i ∈ Finset.range N, Q.coeff i * x ^ i :=
    fun x => Polynomial.eval_eq_sum_range' hQ x
  simp only [e]
  rw [intervalIntegral.integral_finsetSum fun i _ =>
    (by fun_prop : Continuous fun x : ℝ => Q.coeff i * x ^ i).intervalIntegrable _ _]
  simp only [Finset.mul_sum]
  rw [list_sum_finset]
  refine Finset.sum_congr rfl fun i hi => ?_
  rw [intervalIntegral.integral_const_mul, ← h i (Finset.mem_range.1 hi), ← List.sum_map_mul_left]
  refine congrArg List.sum (List.map_congr_left fun q _ => ?_)
  ring

/-- A rule mapped onto an interval is exact for the same degrees. -/
theorem rule_interval {l : List (ℝ × ℝ)} {N : ℕ}
    (h : ∀ j < N, (l.map fun q => q.2 * q.1 ^ j).sum = ∫ x in (-1 : ℝ)..1, x ^ j)
    (P : Polynomial ℝ) (hP : P.natDegree < N) (a b : ℝ) (hab : a < b) :
    (l.map fun q => 1 / 2 * (b - a) * q.2 * P.eval (1 / 2 * (b - a) * (q.1 + 1) + a)).sum
      = ∫ x in a..b, P.eval x := by
  set Q : Polynomial ℝ := P.comp (Polynomial.C (1 / 2 * (b - a)) * Polynomial.X
    + Polynomial.C (1 / 2 * (b - a) + a)) with hQ
  have hc : (1 / 2 * (b - a) : ℝ) ≠ 0 := by
    have : 0 < b - a := by linarith
    positivity
  have hdeg : Q.natDegree < N := by
    rw [hQ, Polynomial.natDegree_comp, Polynomial.natDegree_linear hc, mul_one]
    exact hP
  have hev : ∀ x, Q.eval x = P.eval (1 / 2 * (b - a) * x + (1 / 2 * (b - a) + a)) := by
    intro x
    simp [hQ, Polynomial.eval_comp]
  have key := rule_poly h Q hdeg
  simp only [hev] at key
  rw [intervalIntegral.integral_comp_mul_add (fun x => P.eval x) hc] at key
  rw [show (1 / 2 * (b - a) * -1 + (1 / 2 * (b - a) + a)) = a by ring,
    show (1 / 2 * (b - a) * 1 + (1 / 2 * (b - a) + a)) = b by ring, smul_eq_mul] at key
  have : ∫ x in a..b, P.eval x = 1 / 2 * (b - a) * ((1 / 2 * (b - a))⁻¹ * ∫ x in a..b, P.eval x) :=
    (mul_inv_cancel_left₀ hc _).symm
  rw [this, ← key, ← List.sum_map_mul_left]
  refine congrArg List.sum (List.map_congr_left fun q _ => ?_)
  rw [show 1 / 2 * (b - a) * (q.1 + 1) + a = 1 / 2 * (b - a) * q.1 + (1 / 2 * (b - a) + a) by ring]
  ring

theorem rule_abs (l : List (ℝ × ℝ)) (w f : ℝ × ℝ → ℝ) (δ : ℝ) (h : ∀ q ∈ l, 0 ≤ w q ∧ |f q| ≤ δ) :
    |(l.map fun q => w q * f q).sum| ≤ δ * (l.map fun q => w q).sum := by
  induction l with
  | nil => simp
  | cons a l ih =>
    simp only [List.map_cons, List.sum_cons]
    obtain ⟨h1, h2⟩ := h a (by simp)
    have := ih fun q hq => h q (by simp [hq])
    have h3 : |w a * f a| ≤ δ * w a := by
      rw [abs_mul, abs_of_nonneg h1, mul_comm]
      exact mul_le_mul_of_nonneg_right h2 h1
    linarith [abs_add_le (w a * f a) (l.map fun q => w q * f q).sum]

/-- The error of a rule on a function close to a polynomial, except near the left end. -/
theorem rule_error {l : List (ℝ × ℝ)} {N : ℕ} (hN : 0 < N)
    (hw : ∀ q ∈ l, 0 < q.2 ∧ -1 ≤ q.1 ∧ q.1 ≤ 1)
    (h : ∀ j < N, (l.map fun q => q.2 * q.1 ^ j).sum = ∫ x in (-1 : ℝ)..1, x ^ j)
    (P : Polynomial ℝ) (hP : P.natDegree < N) (a b η δ B : ℝ) (hab : a < b) (hη : 0 ≤ η)
    (hηb : a + η ≤ b) (g : ℝ → ℝ) (hg : IntervalIntegrable g volume a b)
    (hin : ∀ x ∈ Icc a b, a + η < x ∨ η = 0 → |g x - P.eval x| ≤ δ)
    (hout : ∀ x ∈ Icc a b, x ≤ a + η → |g x - P.eval x| ≤ δ + B)
    (hnode : ∀ q ∈ l, a + η < 1 / 2 * (b - a) * (q.1 + 1) + a ∨ η = 0) :
    |(l.map fun q => 1 / 2 * (b - a) * q.2 * g (1 / 2 * (b - a) * (q.1 + 1) + a)).sum
      - ∫ x in a..b, g x| ≤ 2 * (b - a) * δ + η * B := by
  have hPi : ∀ c d : ℝ, IntervalIntegrable (fun x => P.eval x) volume c d :=
    fun c d => P.continuous.intervalIntegrable c d
  have hsub : (l.map fun q => 1 / 2 * (b - a) * q.2 * g (1 / 2 * (b - a) * (q.1 + 1) + a)).sum
      = (l.map fun q => 1 / 2 * (b - a) * q.2 * P.eval (1 / 2 * (b - a) * (q.1 + 1) + a)).sum
      + (l.map fun q => 1 / 2 * (b - a) * q.2 * (g (1 / 2 * (b - a) * (q.1 + 1) + a)
        - P.eval (1 / 2 * (b - a) * (q.1 + 1) + a))).sum := by
    rw [← List.sum_map_add]
    refine congrArg List.sum (List.map_congr_left fun q _ => ?_)
    ring
  have h1 := rule_interval h P hP a b hab
  have hsum : (l.map fun q => 1 / 2 * (b - a) * q.2).sum = b - a := by
    have h0 := h 0 hN
    simp only [pow_zero, mul_one, intervalIntegral.integral_const, smul_eq_mul] at h0
    rw [List.sum_map_mul_left, h0]
    ring
  have h2 := rule_abs l (fun q => 1 / 2 * (b - a) * q.2)
    (fun q => g (1 / 2 * (b - a) * (q.1 + 1) + a) - P.eval (1 / 2 * (b - a) * (q.1 + 1) + a)) δ
    (fun q hq => by
      obtain ⟨w, lo, hi⟩ := hw q hq
      have hd : 0 < b - a := by linarith
      refine ⟨by positivity, hin _ ⟨?_, ?_⟩ (hnode q hq)⟩
      · nlinarith [mul_nonneg hd.le (by linarith : 0 ≤ q.1 + 1)]
      · nlinarith [mul_nonneg hd.le (by linarith : 0 ≤ 1 - q.1)])
  rw [hsum] at h2
  set c := a + η with hc
  have hac : a ≤ c := by linarith
  have hgi : ∀ u v, a ≤ u → u ≤ v → v ≤ b → IntervalIntegrable g volume u v := by
    intro u v h1 h2 h3
    refine hg.mono_set ?_
    rw [uIcc_of_le h2, uIcc_of_le (h1.trans (h2.trans h3))]
    exact Icc_subset_Icc h1 h3
  have i1 : |∫ x in a..c, (P.eval x - g x)| ≤ (δ + B) * (c - a) := by
    have := intervalIntegral.norm_integral_le_of_norm_le_const (a := a) (b := c)
      (f := fun x => P.eval x - g x) (C := δ + B) (fun x hx => by
        rw [uIoc_of_le hac] at hx
        rw [Real.norm_eq_abs, abs_sub_comm]
        exact hout x ⟨hx.1.le, hx.2.trans hηb⟩ hx.2)
    rwa [Real.norm_eq_abs, abs_of_nonneg (sub_nonneg.2 hac)] at this
  have i2 : |∫ x in c..b, (P.eval x - g x)| ≤ δ * (b - c) := by
    have := intervalIntegral.norm_integral_le_of_norm_le_const (a := c) (b := b)
      (f := fun x => P.eval x - g x) (C := δ) (fun x hx => by
        rw [uIoc_of_le hηb] at hx
        rw [Real.norm_eq_abs, abs_sub_comm]
        exact hin x ⟨hac.trans hx.1.le, hx.2⟩ (Or.inl hx.1))
    rwa [Real.norm_eq_abs, abs_of_nonneg (sub_nonneg.2 hηb)] at this
  have i3 : (∫ x in a..b, P.eval x) - ∫ x in a..b, g x
      = (∫ x in a..c, (P.eval x - g x)) + ∫ x in c..b, (P.eval x - g x) := by
    rw [intervalIntegral.integral_add_adjacent_intervals
      ((hPi a c).sub (hgi a c le_rfl hac hηb)) ((hPi c b).sub (hgi c b hac hηb le_rfl)),
      intervalIntegral.integral_sub (hPi a b) hg]
  rw [hsub, h1]
  have e : c - a = η := by rw [hc]; ring
  have e' : b - c = b - a - η := by rw [hc]; ring
  rw [e] at i1
  rw [e'] at i2
  have := abs_le.1 h2
  have := abs_le.1 i1
  have := abs_le.1 i2
  rw [abs_le]
  constructor <;> nlinarith

/-! ### Polynomials near the reciprocal of a rigidity -/

/-- The polynomial of a piece. -/
noncomputable def polyOf (cs : List ℝ) : Polynomial ℝ :=
  cs.foldl (fun acc c => acc * Polynomial.X + Polynomial.C c) 0

theorem polyOf_aux (cs : List ℝ) (A : Polynomial ℝ) (x : ℝ) :
    (cs.foldl (fun acc c => acc * Polynomial.X + Polynomial.C c) A).eval x
      = cs.foldl (fun acc c => acc * x + c) (A.eval x) := by
  induction cs generalizing A with
  | nil => rfl
  | cons c cs ih => simp [ih]

theorem polyOf_eval (cs : List ℝ) (x : ℝ) : (polyOf cs).eval x = polyval cs x := by
  unfold polyOf polyval
  rw [polyOf_aux]
  simp

theorem polyOf_degree_aux (cs : List ℝ) (A : Polynomial ℝ) (n : ℕ) (hA : A.natDegree ≤ n) :
    (cs.foldl (fun acc c => acc * Polynomial.X + Polynomial.C c) A).natDegree ≤ n + cs.length := by
  induction cs generalizing A n with
  | nil => simpa using hA
  | cons c cs ih =>
    refine (ih _ (n + 1) ?_).trans (by simp; omega)
    refine (Polynomial.natDegree_add_le _ _).trans (max_le ?_ (by simp))
    refine Polynomial.natDegree_mul_le.trans ?_
    have := Polynomial.natDegree_X_le (R := ℝ)
    omega

theorem polyOf_degree (cs : List ℝ) (d : ℕ) (h : cs.length ≤ d + 1) : (polyOf cs).natDegree ≤ d := by
  cases cs with
  | nil => simp [polyOf]
  | cons c cs =>
    unfold polyOf
    simp only [List.foldl_cons]
    refine (polyOf_degree_aux cs _ 0 (by simp)).trans ?_
    simp at h
    omega

/-- A geometric sum of a polynomial near a constant approximates its reciprocal. -/
theorem recip_poly (f : Polynomial ℝ) (d K : ℕ) (hf : f.natDegree ≤ d) (m r : ℝ) (hm : 0 < m)
    (hr : r < 1) : ∃ G : Polynomial ℝ, G.natDegree ≤ K * d ∧
      ∀ x, |f.eval x - m| ≤ r * m → |1 / f.eval x - G.eval x| ≤ r ^ (K + 1) / ((1 - r) * m) := by
  set g : Polynomial ℝ := 1 - Polynomial.C (1 / m) * f with hg
  have hgd : g.natDegree ≤ d := by
    refine (Polynomial.natDegree_sub_le _ _).trans (max_le (by simp) ?_)
    exact (Polynomial.natDegree_C_mul_le _ _).trans hf
  refine ⟨Polynomial.C (1 / m) * ∑ k ∈ Finset.range (K + 1), g ^ k, ?_, fun x hx => ?_⟩
  · refine (Polynomial.natDegree_C_mul_le _ _).trans ?_
    refine Polynomial.natDegree_sum_le_of_forall_le _ _ fun k hk => ?_
    refine Polynomial.natDegree_pow_le.trans ?_
    have : k ≤ K := Nat.lt_succ_iff.1 (Finset.mem_range.1 hk)
    exact Nat.mul_le_mul this hgd
  · set y := g.eval x with hy
    have hyf : f.eval x = m * (1 - y) := by
      rw [hy, hg]
      simp
      field_simp
    have hyr : |y| ≤ r := by
      rw [hyf, show m * (1 - y) - m = -(m * y) by ring, abs_neg, abs_mul, abs_of_pos hm,
        mul_comm r m] at hx
      exact le_of_mul_le_mul_left hx hm
    have hr0 : 0 ≤ r := (abs_nonneg y).trans hyr
    have h1 : 0 < 1 - r := by linarith
    have h2 : 1 - r ≤ 1 - y := by linarith [le_abs_self y]
    have h3 : 0 < 1 - y := by linarith
    have hs : (∑ k ∈ Finset.range (K + 1), y ^ k) * (1 - y) = 1 - y ^ (K + 1) := geom_sum_mul_neg y (K + 1)
    have e : 1 / f.eval x - (Polynomial.C (1 / m) * ∑ k ∈ Finset.range (K + 1), g ^ k).eval x
        = y ^ (K + 1) / ((1 - y) * m) := by
      rw [hyf]
      simp only [Polynomial.eval_mul, Polynomial.eval_C, Polynomial.eval_finsetSum,
        Polynomial.eval_pow, ← hy]
      field_simp
      linear_combination -hs
    rw [e, abs_div, abs_pow, abs_of_pos (mul_pos h3 hm)]
    exact div_le_div₀ (pow_nonneg hr0 _) (pow_le_pow_left₀ (abs_nonneg y) hyr _) (mul_pos h1 hm)
      (mul_le_mul_of_nonneg_right h2 hm.le)

/-! ### The pieces of a section -/

theorem pick_head {ε : ℝ} (hε : 0 ≤ ε) (p : Piece ℝ) (ps : List (Piece ℝ)) (f : ℝ → ℝ) {x : ℝ}
    (hx : x ∈ Icc p.x0 p.x1) : pick ε (p :: ps) f x = p.eval x := by
  rw [pick_cons]
  simp only
  rw [if_pos (mem_Icc.2 ⟨by linarith [hx.1], by linarith [hx.2]⟩)]

theorem pick_inside {ε : ℝ} (hε : 0 ≤ ε) (f : ℝ → ℝ) (ps : List (Piece ℝ)) : ∀ a b : ℝ,
    Joined a ps b → ∀ p ∈ ps, ∀ x, p.x0 + ε < x → x ≤ p.x1 → pick ε ps f x = p.eval x := by
  induction ps with
  | nil => intro a b _ p hp; simp at hp
  | cons q qs ih =>
    intro a b hj p hp x h1 h2
    rcases List.mem_cons.1 hp with rfl | hp
    · exact pick_head hε p qs f ⟨by linarith, h2⟩
    · have := (joined_outside qs hj.2.2 p hp).1
      rw [pick_cons]
      simp only
      rw [if_neg (fun h => by linarith [h.2])]
      exact ih _ _ hj.2.2 p hp x h1 h2

theorem integral_joined (ps : List (Piece ℝ)) : ∀ a b : ℝ, Joined a ps b → ∀ g : ℝ → ℝ,
    IntervalIntegrable g volume a b →
    ∫ x in a..b, g x = (ps.map fun p => ∫ x in p.x0..p.x1, g x).sum := by
  induction ps with
  | nil => intro a b hj g _; cases hj; simp
  | cons q qs ih =>
    intro a b hj g hg
    have h1 := hj.2.1
    have h2 := hj.2.2.le
    obtain rfl := hj.1
    have g1 : IntervalIntegrable g volume q.x0 q.x1 := hg.mono_set (by
      rw [uIcc_of_le h1.le, uIcc_of_le (h1.le.trans h2)]; exact Icc_subset_Icc le_rfl h2)
    have g2 : IntervalIntegrable g volume q.x1 b := hg.mono_set (by
      rw [uIcc_of_le h2, uIcc_of_le (h1.le.trans h2)]; exact Icc_subset_Icc h1.le le_rfl)
    rw [List.map_cons, List.sum_cons, ← ih _ _ hj.2.2 g g2,
      intervalIntegral.integral_add_adjacent_intervals g1 g2]

theorem joined_lt (ps : List (Piece ℝ)) : ∀ a b : ℝ, Joined a ps b → ∀ p ∈ ps, p.x0 < p.x1 := by
  induction ps with
  | nil => intro a b _ p hp; simp at hp
  | cons q qs ih =>
    intro a b hj p hp
    rcases List.mem_cons.1 hp with rfl | hp
    · exact hj.2.1
    · exact ih _ _ hj.2.2 p hp

theorem sum_abs_sub {α : Type*} (l : List α) (S I E : α → ℝ) (h : ∀ p ∈ l, |S p - I p| ≤ E p) :
    |(l.map S).sum - (l.map I).sum| ≤ (l.map E).sum := by
  induction l with
  | nil => simp
  | cons p l ih =>
    simp only [List.map_cons, List.sum_cons]
    have h1 := abs_le.1 (h p (by simp))
    have h2 := abs_le.1 (ih fun q hq => h q (by simp [hq]))
    rw [abs_le]
    constructor <;> linarith

theorem sec_gauss_sum (leg : Leg ℝ) (t : Sec ℝ) (f : GNode ℝ → ℝ) :
    ((t.gauss leg).map f).sum = (t.pieces.map fun p => ((leg p.points).map fun q =>
      f ⟨1 / 2 * (p.x1 - p.x0) * (q.1 + 1) + p.x0, 1 / 2 * (p.x1 - p.x0) * q.2,
        t.value (1 / 2 * (p.x1 - p.x0) * (q.1 + 1) + p.x0)⟩).sum).sum := by
  unfold Sec.gauss
  induction t.pieces with
  | nil => simp
  | cons p ps ih =>
    rw [List.flatMap_cons, List.map_append, List.sum_append, ih, List.map_cons, List.sum_cons,
      List.map_map]
    rfl

theorem flexibility_unit (ns : List (GNode ℝ)) (L : ℝ) (j k : Fin 2) :
    flexibility ns L j k = (ns.map fun n => n.w * (unitM L j n.x * unitM L k n.x / n.EI)).sum := by
  fin_cases j <;> fin_cases k <;> simp only [flexibility, unitM] <;> simp <;>
    refine congrArg List.sum (List.map_congr_left fun n _ => ?_) <;> ring

theorem unitM_le {L x : ℝ} (hL : 0 < L) (h0 : 0 ≤ x) (h1 : x ≤ L) (j : Fin 2) : |unitM L j x| ≤ 1 := by
  have a : 0 ≤ x / L := by positivity
  have b : x / L ≤ 1 := (div_le_one hL).2 h1
  unfold unitM
  split_ifs
  · rw [abs_le]; constructor <;> linarith
  · rw [neg_div, abs_neg, abs_of_nonneg a]; exact b

/-- The polynomial of a unit moment diagram. -/
theorem unitM_poly (L : ℝ) (j : Fin 2) : ∃ U : Polynomial ℝ, U.natDegree ≤ 1 ∧
    ∀ x, U.eval x = unitM L j x := by
  unfold unitM
  split_ifs
  · refine ⟨Polynomial.C (-1 / L) * Polynomial.X + Polynomial.C 1, Polynomial.natDegree_linear_le,
      fun x => ?_⟩
    simp
    ring
  · refine ⟨Polynomial.C (-1 / L) * Polynomial.X + Polynomial.C 0, Polynomial.natDegree_linear_le,
      fun x => ?_⟩
    simp
    ring

/-- The error allowed to the integration over a piece whose rigidity stays within the fraction `r`
of `m`. -/
noncomputable def Piece.gaussErr (p : Piece ℝ) (m r : ℝ) : ℝ :=
  2 * (p.x1 - p.x0) * (r ^ ((2 * p.points - 3) / p.degree + 1) / ((1 - r) * m))

theorem Piece.points_two (p : Piece ℝ) : 2 ≤ p.points := by
  unfold Piece.points
  split
  · exact le_rfl
  · exact le_trans (by norm_num) (le_max_right _ _)

theorem Leg.Exact.ne_nil {leg : Leg ℝ} {n : ℕ} (h : leg.Exact n) (hn : 0 < n) : leg n ≠ [] := by
  intro h0
  have := h.2 0 (by omega)
  rw [h0] at this
  simp at this
  norm_num at this

/-- One piece. -/
theorem piece_error {leg : Leg ℝ} (p : Piece ℝ) (hp : p.x0 < p.x1) (hleg : leg.Exact p.points)
    (hcs : p.coeffs.length ≤ p.degree + 1) {m r e η L : ℝ} (hm : 0 < m) (hr : r < 1)
    (hmr : ∀ x ∈ Icc p.x0 p.x1, |p.eval x - m| ≤ r * m) (he : 0 < e)
    (hpe : ∀ x ∈ Icc p.x0 p.x1, e ≤ p.eval x) (hη : 0 ≤ η)
    (hnode : ∀ q ∈ leg p.points, p.x0 + η < 1 / 2 * (p.x1 - p.x0) * (q.1 + 1) + p.x0 ∨ η = 0)
    (h0 : 0 ≤ p.x0) (h1 : p.x1 ≤ L) (E : ℝ → ℝ) (hE : ∀ x ∈ Icc p.x0 p.x1, e ≤ E x)
    (hval : ∀ x ∈ Icc p.x0 p.x1, p.x0 + η < x ∨ η = 0 → E x = p.eval x) (u : ℝ → ℝ) (U : Polynomial ℝ)
    (hU : U.natDegree ≤ 2) (hUe : ∀ x, U.eval x = u x) (hu : ∀ x ∈ Icc 0 L, |u x| ≤ 1)
    (hg : IntervalIntegrable (fun x => u x / E x) volume p.x0 p.x1) :
    |((leg p.points).map fun q => 1 / 2 * (p.x1 - p.x0) * q.2 *
        (u (1 / 2 * (p.x1 - p.x0) * (q.1 + 1) + p.x0) /
            E (1 / 2 * (p.x1 - p.x0) * (q.1 + 1) + p.x0))).sum
      - ∫ x in p.x0..p.x1, u x / E x| ≤ p.gaussErr m r + η * (1 / e) := by
  have h2 := p.points_two
  obtain ⟨G, hG, hGe⟩ := recip_poly (polyOf p.coeffs) p.degree ((2 * p.points - 3) / p.degree)
    (polyOf_degree _ _ hcs) m r hm hr
  have hdiv := Nat.div_mul_le_self (2 * p.points - 3) p.degree
  have hdeg : (U * G).natDegree < 2 * p.points := by
    have a1 := Polynomial.natDegree_mul_le (p := U) (q := G)
    omega
  have hηb : p.x0 + η ≤ p.x1 := by
    obtain ⟨q, hq⟩ := List.exists_mem_of_ne_nil _ (hleg.ne_nil (by omega))
    rcases hnode q hq with h | h
    · have := (hleg.1 q hq).2.2
      nlinarith [mul_nonneg (sub_pos.2 hp).le (by linarith : 0 ≤ 1 - q.1)]
    · linarith
  have huw : ∀ x ∈ Icc p.x0 p.x1, |u x| ≤ 1 := fun x hx => hu x ⟨h0.trans hx.1, hx.2.trans h1⟩
  set δ := r ^ ((2 * p.points - 3) / p.degree + 1) / ((1 - r) * m) with hδ
  have hclose : ∀ x ∈ Icc p.x0 p.x1,
      |u x / p.eval x - (U * G).eval x| ≤ δ := by
    intro x hx
    have := hGe x (by rw [polyOf_eval]; exact hmr x hx)
    rw [polyOf_eval] at this
    rw [Polynomial.eval_mul, hUe,
      show u x / p.eval x - u x * G.eval x
        = u x * (1 / p.eval x - G.eval x) by ring, abs_mul]
    calc _ ≤ 1 * δ := mul_le_mul (huw x hx) this (abs_nonneg _) zero_le_one
      _ = δ := one_mul _
  have hrec : ∀ y, e ≤ y → 0 < 1 / y ∧ 1 / y ≤ 1 / e := fun y hy =>
    ⟨one_div_pos.2 (he.trans_le hy), one_div_le_one_div_of_le he hy⟩
  have := rule_error (l := leg p.points) (N := 2 * p.points) (by omega) hleg.1 hleg.2 (U * G) hdeg
    p.x0 p.x1 η δ (1 / e) hp hη hηb (fun x => u x / E x) hg
    (fun x hx h => by
      rw [hval x hx h]
      exact hclose x hx)
    (fun x hx _ => by
      have a1 := hclose x hx
      have a2 : |u x / E x - u x / p.eval x| ≤ 1 / e := by
        rw [show u x / E x - u x / p.eval x
          = u x * (1 / E x - 1 / p.eval x) by ring, abs_mul]
        obtain ⟨b1, b2⟩ := hrec _ (hE x hx)
        obtain ⟨b3, b4⟩ := hrec _ (hpe x hx)
        have : |1 / E x - 1 / p.eval x| ≤ 1 / e := by
          rw [abs_le]; constructor <;> linarith
        calc _ ≤ 1 * (1 / e) := mul_le_mul (huw x hx) this (abs_nonneg _) zero_le_one
          _ = _ := one_mul _
      have b1 := abs_le.1 a1
      have b2 := abs_le.1 a2
      rw [abs_le]
      constructor <;> linarith)
    hnode
  simpa only [Piece.gaussErr] using this

theorem sec_rule (fit : Fit ℝ) (leg : Leg ℝ) (segs : List (Seg ℝ)) (t : Sec ℝ)
    (hne : segs ≠ []) (h : Sec.empty.build fit segs = .ok t) (ha : Abut 0 segs)
    (hcs : ∀ p ∈ t.pieces, p.coeffs.length ≤ p.degree + 1)
    (hleg : ∀ p ∈ t.pieces, leg.Exact p.points)
    (hnode : ∀ p ∈ t.pieces.tail, ∀ q ∈ leg p.points,
      1 / 10 ^ 12 < 1 / 2 * (p.x1 - p.x0) * (q.1 + 1))
    (e : ℝ) (he : 0 < e) (hpos : ∀ p ∈ t.pieces, ∀ x ∈ Icc p.x0 (p.x1 + 1 / 10 ^ 12),
      x ≤ t.fin → e ≤ p.eval x)
    (m r : Piece ℝ → ℝ) (hm : ∀ p ∈ t.pieces, 0 < m p ∧ r p < 1 ∧
      ∀ x ∈ Icc p.x0 p.x1, |p.eval x - m p| ≤ r p * m p) (u : ℝ → ℝ)
    (U : Polynomial ℝ) (hU : U.natDegree ≤ 2) (hUe : ∀ x, U.eval x = u x)
    (hu : ∀ x ∈ Icc 0 t.fin, |u x| ≤ 1) :
    |((t.gauss leg).map fun n => n.w * (u n.x / n.EI)).sum - ∫ x in (0 : ℝ)..t.fin, u x / t.value x|
      ≤ (t.pieces.map fun p => p.gaussErr (m p) (r p)).sum
        + (t.pieces.length - 1 : ℕ) * (1 / 10 ^ 12 / e) := by
  obtain ⟨g, n, -⟩ := Sec.build_good segs Sec.empty t Sec.empty_good ha h
  have hn := n (Or.inr hne)
  obtain ⟨_, _, ht⟩ := C53_total_partial fit segs t hne h ha
  have hval : ∀ x, 0 ≤ x → x ≤ t.fin → e ≤ t.value x := by
    intro x h0 h1
    obtain ⟨p, hpm, a1, a2, hev, -⟩ := ht x h0 h1
    rw [Sec.value, hev]
    exact hpos p hpm x ⟨a1, a2⟩ h1
  have hends := joined_outside t.pieces g.joined
  have hlt := joined_lt _ _ _ g.joined
  obtain ⟨p0, ps, hps⟩ := List.exists_cons_of_ne_nil hn
  have hp0 : p0 ∈ t.pieces := by rw [hps]; simp
  have hL : 0 < t.fin := lt_of_le_of_lt (hends p0 hp0).1 ((hlt p0 hp0).trans_le (hends p0 hp0).2)
  have hmeas : Measurable t.value := by
    rw [Sec.value_pick hps]
    exact pick_measurable _ _ _ (t.beyond_measurable p0 ps)
  have hgi : IntervalIntegrable (fun x => u x / t.value x) volume 0 t.fin := by
    have hut : Tame t.fin u := by
      have : u = fun x => U.eval x := funext fun x => (hUe x).symm
      rw [this]
      exact Tame.of_continuous U.continuous
    have hinv : Tame t.fin fun x => (t.value x)⁻¹ := by
      refine ⟨hmeas.inv, e⁻¹, fun x hx => ?_⟩
      have := hval x hx.1 hx.2
      rw [abs_of_pos (inv_pos.2 (he.trans_le this))]
      exact inv_anti₀ he this
    simpa only [div_eq_mul_inv] using (hut.mul hinv).integrable hL.le
  have hgp : ∀ p ∈ t.pieces, IntervalIntegrable (fun x => u x / t.value x)
      volume p.x0 p.x1 := by
    intro p hp
    refine hgi.mono_set ?_
    rw [uIcc_of_le (hlt p hp).le, uIcc_of_le hL.le]
    exact Icc_subset_Icc (hends p hp).1 (hends p hp).2
  have hε : (0 : ℝ) ≤ 1 / 10 ^ 12 := by positivity
  have one : ∀ p ∈ t.pieces, ∀ η : ℝ, 0 ≤ η →
      (∀ q ∈ leg p.points, p.x0 + η < 1 / 2 * (p.x1 - p.x0) * (q.1 + 1) + p.x0 ∨ η = 0) →
      (∀ x ∈ Icc p.x0 p.x1, p.x0 + η < x ∨ η = 0 → t.value x = p.eval x) → _ :=
    fun p hp η hη hnd hv => piece_error p (hlt p hp) (hleg p hp) (hcs p hp) (hm p hp).1 (hm p hp).2.1
      (hm p hp).2.2 he (fun x hx => hpos p hp x ⟨hx.1, by linarith [hx.2]⟩ (hx.2.trans (hends p hp).2)) hη hnd (hends p hp).1
      (hends p hp).2 t.value (fun x hx => hval x ((hends p hp).1.trans hx.1) (hx.2.trans (hends p hp).2))
      hv u U hU hUe hu (hgp p hp)
  have first := one p0 hp0 0 le_rfl (fun _ _ => Or.inr rfl) (fun x hx _ => by
    rw [Sec.value_pick hps]; exact pick_head hε _ _ _ hx)
  have rest : ∀ p ∈ ps, _ := fun p hp => one p (by rw [hps]; simp [hp]) (1 / 10 ^ 12) hε
    (fun q hq => Or.inl (by
      have := hnode p (by rw [hps]; simpa using hp) q hq
      linarith))
    (fun x hx hor => by
      rcases hor with h' | h'
      · rw [Sec.value_pick hps]
        exact pick_inside hε _ _ 0 t.fin (hps ▸ g.joined) p (by simp [hp]) x h' hx.2
      · norm_num at h')
  rw [sec_gauss_sum, integral_joined _ _ _ g.joined _ hgi]
  have restS := sum_abs_sub ps _ _ _ rest
  rw [List.sum_map_add, List.map_const', List.sum_replicate, nsmul_eq_mul] at restS
  simp only [hps, List.map_cons, List.sum_cons, List.length_cons, Nat.add_sub_cancel]
  have b1 := abs_le.1 first
  have b2 := abs_le.1 restS
  rw [abs_le]
  have e1 : (1 : ℝ) / 10 ^ 12 / e = 1 / 10 ^ 12 * (1 / e) := by ring
  rw [e1]
  constructor <;> linarith

/-- **C152**: the flexibility coefficients of a member with a section object differ from the exact
integrals of the unit moments over the rigidity by at most, for every piece, twice its length times
`r ^ (K + 1) / ((1 - r) m)`, where the rigidity stays within the fraction `r` of `m` on the piece and
`K` is the quotient of twice the number of points less three by the degree, plus `1e-12 / e` for
every joint (where the code evaluates the piece before it), `e` being a lower bound of the rigidity. -/
theorem C152_flexibility (fit : Fit ℝ) (leg : Leg ℝ) (segs : List (Seg ℝ)) (t : Sec ℝ)
    (hne : segs ≠ []) (h : Sec.empty.build fit segs = .ok t) (ha : Abut 0 segs)
    (hcs : ∀ p ∈ t.pieces, p.coeffs.length ≤ p.degree + 1)
    (hleg : ∀ p ∈ t.pieces, leg.Exact p.points)
    (hnode : ∀ p ∈ t.pieces.tail, ∀ q ∈ leg p.points,
      1 / 10 ^ 12 < 1 / 2 * (p.x1 - p.x0) * (q.1 + 1))
    (e : ℝ) (he : 0 < e) (hpos : ∀ p ∈ t.pieces, ∀ x ∈ Icc p.x0 (p.x1 + 1 / 10 ^ 12),
      x ≤ t.fin → e ≤ p.eval x)
    (m r : Piece ℝ → ℝ) (hm : ∀ p ∈ t.pieces, 0 < m p ∧ r p < 1 ∧
      ∀ x ∈ Icc p.x0 p.x1, |p.eval x - m p| ≤ r p * m p) (j k : Fin 2) :
    |flexibility (t.gauss leg) t.fin j k - exactFlex t.value t.fin j k|
      ≤ (t.pieces.map fun p => p.gaussErr (m p) (r p)).sum
        + (t.pieces.length - 1 : ℕ) * (1 / 10 ^ 12 / e) := by
  obtain ⟨g, n, -⟩ := Sec.build_good segs Sec.empty t Sec.empty_good ha h
  have hn := n (Or.inr hne)
  obtain ⟨p0, hp0⟩ := List.exists_mem_of_ne_nil _ hn
  have hends := joined_outside t.pieces g.joined p0 hp0
  have hL : 0 < t.fin := lt_of_le_of_lt hends.1 ((joined_lt _ _ _ g.joined p0 hp0).trans_le hends.2)
  obtain ⟨U, hU, hUe⟩ := unitM_poly t.fin j
  obtain ⟨W, hW, hWe⟩ := unitM_poly t.fin k
  rw [flexibility_unit, exactFlex]
  refine sec_rule fit leg segs t hne h ha hcs hleg hnode e he hpos m r hm
    (fun x => unitM t.fin j x * unitM t.fin k x) (U * W) ?_ ?_ ?_
  · have := Polynomial.natDegree_mul_le (p := U) (q := W)
    omega
  · intro x
    rw [Polynomial.eval_mul, hUe, hWe]
  · intro x hx
    rw [abs_mul]
    exact mul_le_one₀ (unitM_le hL hx.1 hx.2 j) (abs_nonneg _) (unitM_le hL hx.1 hx.2 k)

/-- **C152**, shear: the shear flexibility of a member whose shear rigidity is a section object
differs from the integral of its reciprocal over the square of the length by no more than the same
bound over the square of the length. -/
theorem C152_shear (fit : Fit ℝ) (leg : Leg ℝ) (segs : List (Seg ℝ)) (t : Sec ℝ)
    (hne : segs ≠ []) (h : Sec.empty.build fit segs = .ok t) (ha : Abut 0 segs)
    (hcs : ∀ p ∈ t.pieces, p.coeffs.length ≤ p.degree + 1)
    (hleg : ∀ p ∈ t.pieces, leg.Exact p.points)
    (hnode : ∀ p ∈ t.pieces.tail, ∀ q ∈ leg p.points,
      1 / 10 ^ 12 < 1 / 2 * (p.x1 - p.x0) * (q.1 + 1))
    (e : ℝ) (he : 0 < e) (hpos : ∀ p ∈ t.pieces, ∀ x ∈ Icc p.x0 (p.x1 + 1 / 10 ^ 12),
      x ≤ t.fin → e ≤ p.eval x)
    (m r : Piece ℝ → ℝ) (hm : ∀ p ∈ t.pieces, 0 < m p ∧ r p < 1 ∧
      ∀ x ∈ Icc p.x0 p.x1, |p.eval x - m p| ≤ r p * m p) :
    |shearFlexibility (.section (t.data leg)) t.fin - (∫ x in (0 : ℝ)..t.fin, 1 / t.value x) / t.fin ^ 2|
      ≤ ((t.pieces.map fun p => p.gaussErr (m p) (r p)).sum
        + (t.pieces.length - 1 : ℕ) * (1 / 10 ^ 12 / e)) / t.fin ^ 2 := by
  have := sec_rule fit leg segs t hne h ha hcs hleg hnode e he hpos m r hm
    (fun _ => 1) (Polynomial.C 1) (by simp) (by simp) (by simp)
  have e1 : shearFlexibility (.section (t.data leg)) t.fin
      = ((t.gauss leg).map fun n => n.w * (1 / n.EI)).sum / t.fin ^ 2 := by
    simp only [shearFlexibility, Sec.data, mul_one_div, sq]
  rw [e1, ← sub_div, abs_div, abs_of_nonneg (sq_nonneg t.fin)]
  exact div_le_div_of_nonneg_right this (sq_nonneg _)

/-! ### Stepped sections and straight haunches -/

theorem Sec.build_steps {fit : Fit ℝ} (segs : List (Seg ℝ)) (hk : ∀ s ∈ segs, s.kind = .const) :
    ∀ t t' : Sec ℝ, (∀ p ∈ t.pieces, p.degree = 0 ∧ ∃ v, 0 < v ∧ p.coeffs = [v]) →
      t.build fit segs = .ok t' → ∀ p ∈ t'.pieces, p.degree = 0 ∧ ∃ v, 0 < v ∧ p.coeffs = [v] := by
  induction segs with
  | nil =>
    intro t t' h0 h
    cases h
    exact h0
  | cons s ss ih =>
    intro t t' h0 h
    unfold Sec.build at h
    split at h
    · cases h
    · rename_i t1 h1
      refine ih (fun s' hs' => hk s' (by simp [hs'])) t1 t' ?_ h
      obtain ⟨_, _, _, ps, ks, hp, rfl⟩ := Sec.add_ok h1
      have hk' := hk s (by simp)
      intro p hpm
      rcases List.mem_append.1 hpm with hpm | hpm
      · exact h0 p hpm
      · rcases segPieces_ok hp with ⟨_, v, _, hv, rfl⟩ | ⟨h', _⟩ | ⟨h', _⟩ | ⟨h', _⟩
        · rw [List.mem_singleton.1 hpm]
          exact ⟨rfl, v, hv, rfl⟩
        all_goals (rw [hk'] at h'; simp at h')

/-- **C152**, stepped sections: the flexibility coefficients of a member whose segments are all
constant are exact but for `1e-12 / e` for every joint. -/
theorem C152_stepped (fit : Fit ℝ) (leg : Leg ℝ) (hleg : leg.Exact 2) (segs : List (Seg ℝ)) (t : Sec ℝ)
    (hne : segs ≠ []) (h : Sec.empty.build fit segs = .ok t) (ha : Abut 0 segs)
    (hk : ∀ s ∈ segs, s.kind = .const)
    (hnode : ∀ p ∈ t.pieces.tail, ∀ q ∈ leg 2, 1 / 10 ^ 12 < 1 / 2 * (p.x1 - p.x0) * (q.1 + 1))
    (e : ℝ) (he : 0 < e) (hpos : ∀ x ∈ Icc 0 t.fin, ∀ p ∈ t.pieces, e ≤ p.eval x) (j k : Fin 2) :
    |flexibility (t.gauss leg) t.fin j k - exactFlex t.value t.fin j k|
      ≤ (t.pieces.length - 1 : ℕ) * (1 / 10 ^ 12 / e) := by
  have hc := Sec.build_steps segs hk Sec.empty t (by simp [Sec.empty]) h
  have hpt : ∀ p ∈ t.pieces, p.points = 2 := fun p hp => by
    rw [Piece.points, if_pos (hc p hp).1]
  obtain ⟨g, n, -⟩ := Sec.build_good segs Sec.empty t Sec.empty_good ha h
  have := C152_flexibility fit leg segs t hne h ha
    (fun p hp => by obtain ⟨_, v, _, hv⟩ := hc p hp; rw [hv]; simp)
    (fun p hp => by rw [hpt p hp]; exact hleg)
    (fun p hp => by rw [hpt p (List.mem_of_mem_tail hp)]; exact hnode p hp) e he
    (fun p hp x hx hf => hpos x ⟨(joined_outside _ g.joined p hp).1.trans hx.1, hf⟩ p hp)
    (fun p => p.eval 0) (fun _ => 0)
    (fun p hp => by
      obtain ⟨_, v, hv0, hv⟩ := hc p hp
      simp [Piece.eval, polyval, hv, hv0]) j k
  refine this.trans_eq ?_
  simp [Piece.gaussErr]

/-- **C152**, straight haunches: the flexibility coefficients of a member whose rigidity varies
linearly from `ya` to `yb` are exact up to `2 L / min ya yb` times the thirtieth power of
`|yb - ya| / (ya + yb)`. -/
theorem C152_haunch (fit : Fit ℝ) (leg : Leg ℝ) (hleg : leg.Exact 16) (L ya yb : ℝ) (t : Sec ℝ)
    (h : Sec.empty.build fit [⟨.linear, [0, L], .values [ya, yb], none⟩] = .ok t) (j k : Fin 2) :
    t.fin = L ∧ |flexibility (t.gauss leg) L j k - exactFlex (fun x => ya + (yb - ya) * x / L) L j k|
      ≤ 2 * L * (|yb - ya| / (ya + yb)) ^ 30 / min ya yb := by
  have hb : 0 < L ∧ 0 < ya ∧ 0 < yb ∧ t.fin = L ∧
      t.pieces = [⟨0, L, [(yb - ya) / (L - 0), ya - (yb - ya) / (L - 0) * 0], 1⟩] := by
    simp only [Sec.build, Sec.add, Sec.empty, strictly, segPieces, linPieces, allPos] at h
    by_cases h1 : 0 < L
    · by_cases h2 : 0 < ya ∧ 0 < yb
      · simp [h1, h2.1, h2.2] at h
        subst h
        exact ⟨h1, h2.1, h2.2, rfl, by simp⟩
      · exfalso
        have : ¬ (0 < ya ∧ 0 < yb) := h2
        simp [h1, h2] at h
    · exfalso
      simp [h1] at h
  obtain ⟨hL, hya, hyb, hf, hps⟩ := hb
  refine ⟨hf, ?_⟩
  have hev : ∀ p ∈ t.pieces, p.x0 = 0 ∧ p.x1 = L ∧ p.degree = 1 ∧ p.coeffs.length = 2 ∧
      ∀ x, p.eval x = ya + (yb - ya) * x / L := by
    intro p hp
    rw [hps, List.mem_singleton] at hp
    subst hp
    refine ⟨rfl, rfl, rfl, rfl, fun x => ?_⟩
    simp [Piece.eval, polyval]
    ring
  have hpt : ∀ p ∈ t.pieces, p.points = 16 := fun p hp => by
    rw [Piece.points, (hev p hp).2.2.1]; simp
  have hbetween : ∀ x ∈ Icc 0 L, 0 ≤ x / L ∧ x / L ≤ 1 := fun x hx =>
    ⟨div_nonneg hx.1 hL.le, (div_le_one hL).2 hx.2⟩
  set e := min ya yb with hedef
  have he : 0 < e := lt_min hya hyb
  have he1 : e ≤ ya := min_le_left _ _
  have he2 : e ≤ yb := min_le_right _ _
  have hge : ∀ x ∈ Icc 0 L, e ≤ ya + (yb - ya) * x / L := by
    intro x hx
    obtain ⟨a1, a2⟩ := hbetween x hx
    rw [mul_div_assoc]
    nlinarith
  have hs : 0 < ya + yb := by linarith
  have hr : |yb - ya| / (ya + yb) < 1 := by
    rw [div_lt_one hs, abs_lt]
    constructor <;> linarith
  have main := C152_flexibility fit leg _ t (by simp) h ⟨rfl, trivial⟩
    (fun p hp => by rw [(hev p hp).2.2.1, (hev p hp).2.2.2.1])
    (fun p hp => by rw [hpt p hp]; exact hleg)
    (fun p hp => by rw [hps] at hp; simp at hp) e he
    (fun p hp x hx hxf => by
      rw [(hev p hp).2.2.2.2]
      exact hge x ⟨by rw [← (hev p hp).1]; exact hx.1, hf ▸ hxf⟩)
    (fun _ => (ya + yb) / 2) (fun _ => |yb - ya| / (ya + yb))
    (fun p hp => by
      refine ⟨by linarith, hr, fun x hx => ?_⟩
      rw [(hev p hp).2.2.2.2]
      rw [(hev p hp).1, (hev p hp).2.1] at hx
      obtain ⟨a1, a2⟩ := hbetween x hx
      rw [show ya + (yb - ya) * x / L - (ya + yb) / 2 = (yb - ya) * (x / L - 1 / 2) by ring, abs_mul,
        show |yb - ya| / (ya + yb) * ((ya + yb) / 2) = |yb - ya| * (1 / 2) by field_simp]
      refine mul_le_mul_of_nonneg_left ?_ (abs_nonneg _)
      rw [abs_le]
      constructor <;> linarith) j k
  have hval : exactFlex t.value t.fin j k = exactFlex (fun x => ya + (yb - ya) * x / L) L j k := by
    rw [hf]
    unfold exactFlex
    refine intervalIntegral.integral_congr fun x hx => ?_
    rw [uIcc_of_le hL.le] at hx
    have : t.value x = ya + (yb - ya) * x / L := by
      rw [Sec.value_pick hps, pick_head (by positivity) _ _ _ hx]
      exact (hev _ (by rw [hps]; simp)).2.2.2.2 x
    simp only [this]
  rw [hval, hf] at main
  refine main.trans_eq ?_
  have hmin : (1 - |yb - ya| / (ya + yb)) * ((ya + yb) / 2) = e := by
    rw [show (1 - |yb - ya| / (ya + yb)) * ((ya + yb) / 2) = (ya + yb - |yb - ya|) / 2 by field_simp,
      hedef]
    rcases le_total ya yb with h' | h'
    · rw [min_eq_left h', abs_of_nonneg (by linarith)]; ring
    · rw [min_eq_right h', abs_of_nonpos (by linarith)]; ring
  have hpp := fun p (hp : p ∈ t.pieces) => hpt p hp
  rw [hps] at hpp ⊢
  have hpp := hpp _ (List.mem_singleton.2 rfl)
  simp only [List.map_cons, List.map_nil, List.sum_cons, List.sum_nil, Piece.gaussErr, hpp, hmin,
    List.length_cons, List.length_nil]
  norm_num
  ring

/-! ### The integration errors of C151 -/

/-- **C152**: the integration error of the flexibility that C151 refers to. -/
theorem C152_flexErr (fit : Fit ℝ) (leg : Leg ℝ) (segs : List (Seg ℝ)) (t : Sec ℝ)
    (hne : segs ≠ []) (h : Sec.empty.build fit segs = .ok t) (ha : Abut 0 segs)
    (hcs : ∀ p ∈ t.pieces, p.coeffs.length ≤ p.degree + 1)
    (hleg : ∀ p ∈ t.pieces, leg.Exact p.points)
    (hnode : ∀ p ∈ t.pieces.tail, ∀ q ∈ leg p.points,
      1 / 10 ^ 12 < 1 / 2 * (p.x1 - p.x0) * (q.1 + 1))
    (e : ℝ) (he : 0 < e) (hpos : ∀ p ∈ t.pieces, ∀ x ∈ Icc p.x0 (p.x1 + 1 / 10 ^ 12),
      x ≤ t.fin → e ≤ p.eval x)
    (m r : Piece ℝ → ℝ) (hm : ∀ p ∈ t.pieces, 0 < m p ∧ r p < 1 ∧
      ∀ x ∈ Icc p.x0 p.x1, |p.eval x - m p| ≤ r p * m p) :
    flexErr (t.data leg) t.fin ≤ 3 * ((t.pieces.map fun p => p.gaussErr (m p) (r p)).sum
      + (t.pieces.length - 1 : ℕ) * (1 / 10 ^ 12 / e)) := by
  have k := C152_flexibility fit leg segs t hne h ha hcs hleg hnode e he hpos m r hm
  have k00 := k 0 0
  have k01 := k 0 1
  have k11 := k 1 1
  rw [abs_sub_comm] at k00 k01 k11
  unfold flexErr Sec.data
  simp only
  linarith

/-- **C152**: the integration error of the primary rotations that C151 refers to. -/
theorem C152_rotErr (ld : Load ℝ) (hmech : ld.IsMechanical) (s : SecData ℝ) (L B : ℝ)
    (hL : 0 < L) (hb : ∀ x ∈ s.bps, 0 ≤ x ∧ x ≤ L) (φ : ℝ × ℝ → ℝ → ℝ)
    (hφ : SmoothCurvature ld s L B φ) :
    rotErr s L ld ≤ ((pieces s.bps L).map fun p => (p.2 - p.1) ^ 5 / (2880 * 1000 ^ 4) * B
          + (p.2 - p.1) / 6000 * (|(1 - p.1 / L) * φ p p.1| + |(1 - p.2 / L) * φ p p.2|)).sum
      + ((pieces s.bps L).map fun p => (p.2 - p.1) ^ 5 / (2880 * 1000 ^ 4) * B
          + (p.2 - p.1) / 6000 * (|-p.1 / L * φ p p.1| + |-p.2 / L * φ p p.2|)).sum := by
  obtain ⟨h1, h2⟩ := C144_primary_rotations ld hmech s L B hL hb φ hφ
  exact add_le_add h1 h2

/-! ### Exact tables exist -/

theorem isClosed_convexHull_finite {d : ℕ} {s : Set (Fin d → ℝ)} (hs : IsCompact s) :
    IsClosed (convexHull ℝ s) := by
  have key : convexHull ℝ s = ⋃ n ∈ Finset.range (d + 2),
      (fun z : (Fin n → ℝ) × (Fin n → Fin d → ℝ) => ∑ i, z.1 i • z.2 i) ''
        (stdSimplex ℝ (Fin n) ×ˢ (Set.univ.pi fun _ => s)) := by
    ext x
    simp only [mem_iUnion, Finset.mem_range, exists_prop, mem_image]
    constructor
    · intro hx
      obtain ⟨ι, _, z, w, hz, hai, hw, hw1, hx⟩ := eq_pos_convex_span_of_mem_convexHull hx
      have hcard : Fintype.card ι ≤ d + 1 := by
        have h2 := Submodule.finrank_le (vectorSpan ℝ (Set.range z))
        rw [Module.finrank_fin_fun] at h2
        rcases isEmpty_or_nonempty ι with h0 | h0
        · rw [Fintype.card_eq_zero]; omega
        · have := hai.finrank_vectorSpan_add_one
          omega
      let f := (Fintype.equivFin ι).symm
      refine ⟨Fintype.card ι, by omega, (fun i => w (f i), fun i => z (f i)), ⟨⟨?_, ?_⟩, ?_⟩, ?_⟩
      · exact fun i => (hw _).le
      · rw [← hw1]; exact f.sum_comp w
      · exact fun i _ => hz ⟨_, rfl⟩
      · rw [← hx]; exact f.sum_comp fun i => w i • z i
    · rintro ⟨n, _, z, ⟨hz1, hz2⟩, rfl⟩
      exact (convex_convexHull ℝ s).sum_mem (fun i _ => hz1.1 i) hz1.2
        fun i _ => subset_convexHull ℝ s (hz2 i trivial)
  rw [key]
  refine (Finset.isCompact_biUnion _ fun n _ => ?_).isClosed
  refine ((isCompact_stdSimplex ℝ (Fin n)).prod (isCompact_univ_pi fun _ => hs)).image ?_
  fun_prop

/-- For every number of points there is a table that meets the contract. -/
theorem leg_exists : ∃ leg : Leg ℝ, ∀ n, leg.Exact n := by
  have one : ∀ n : ℕ, ∃ l : List (ℝ × ℝ), (∀ q ∈ l, 0 < q.2 ∧ -1 ≤ q.1 ∧ q.1 ≤ 1) ∧
      ∀ j < 2 * n, (l.map fun q => q.2 * q.1 ^ j).sum = ∫ x in (-1 : ℝ)..1, x ^ j := by
    intro n
    set c : ℝ → Fin (2 * n) → ℝ := fun x j => x ^ (j : ℕ) with hc
    have hcc : Continuous c := by fun_prop
    have hcomp : IsCompact (c '' Icc (-1) 1) := isCompact_Icc.image hcc
    have hvol : volume (Ioc (-1 : ℝ) 1) = 2 := by
      rw [Real.volume_Ioc]; norm_num
    have hmem : (⨍ x in Ioc (-1 : ℝ) 1, c x) ∈ convexHull ℝ (c '' Icc (-1) 1) := by
      refine (convex_convexHull ℝ _).set_average_mem (isClosed_convexHull_finite hcomp)
        (by rw [hvol]; norm_num) (by rw [hvol]; norm_num) ?_ ?_
      · rw [ae_restrict_iff' measurableSet_Ioc]
        exact Filter.Eventually.of_forall fun x hx =>
          subset_convexHull ℝ _ ⟨x, ⟨hx.1.le, hx.2⟩, rfl⟩
      · exact (hcc.integrableOn_Icc (a := -1) (b := 1)).mono_set Ioc_subset_Icc_self
    obtain ⟨ι, _, z, w, hz, -, hw, -, hx⟩ := eq_pos_convex_span_of_mem_convexHull hmem
    have hz' : ∀ i, ∃ y ∈ Icc (-1 : ℝ) 1, c y = z i := fun i => hz ⟨i, rfl⟩
    choose y hy hyz using hz'
    refine ⟨(Finset.univ : Finset ι).toList.map fun i => (y i, 2 * w i), ?_, ?_⟩
    · intro q hq
      obtain ⟨i, _, rfl⟩ := List.mem_map.1 hq
      exact ⟨by have := hw i; simp only; linarith, (hy i).1, (hy i).2⟩
    · intro j hj
      have hxj := congrFun hx ⟨j, hj⟩
      have hii : Integrable c (volume.restrict (Ioc (-1 : ℝ) 1)) :=
        (hcc.integrableOn_Icc (a := -1) (b := 1)).mono_set Ioc_subset_Icc_self
      have hint : (∫ x in Ioc (-1 : ℝ) 1, c x) ⟨j, hj⟩ = ∫ x in (-1 : ℝ)..1, x ^ j := by
        rw [intervalIntegral.integral_of_le (by norm_num)]
        exact ((ContinuousLinearMap.proj (R := ℝ) (φ := fun _ : Fin (2 * n) => ℝ)
          ⟨j, hj⟩).integral_comp_comm hii).symm
      rw [setAverage_eq, Pi.smul_apply, hint, Measure.real, hvol, Finset.sum_apply] at hxj
      simp only [Pi.smul_apply, smul_eq_mul, ← hyz, hc] at hxj
      rw [List.map_map]
      have e : (Finset.univ.toList.map ((fun q : ℝ × ℝ => q.2 * q.1 ^ j) ∘ fun i => (y i, 2 * w i))).sum
          = ∑ i, 2 * w i * y i ^ j := Finset.sum_map_toList Finset.univ _
      rw [e]
      have h2 : ∑ i, 2 * w i * y i ^ j = 2 * ∑ i, w i * y i ^ j := by
        rw [Finset.mul_sum]
        exact Finset.sum_congr rfl fun i _ => by ring
      rw [h2, hxj, show (ENNReal.toReal 2)⁻¹ = (1 / 2 : ℝ) by norm_num, ← mul_assoc,
        show (2 : ℝ) * (1 / 2) = 1 by norm_num, one_mul]
  choose leg hleg using one
  exact ⟨leg, hleg⟩

/-- A haunch from 20 to 40 over 6 m: the coefficients are exact to `5e-15`. -/
example (fit : Fit ℝ) : ∃ (leg : Leg ℝ) (t : Sec ℝ),
    Sec.empty.build fit [⟨.linear, [0, 6], .values [20, 40], none⟩] = .ok t ∧
    |flexibility (t.gauss leg) 6 0 1 - exactFlex (fun x => 20 + (40 - 20) * x / 6) 6 0 1|
      ≤ 5 / 10 ^ 15 := by
  obtain ⟨leg, hleg⟩ := leg_exists
  have hb : ∃ t, Sec.empty.build fit [⟨.linear, [0, 6], .values [20, 40], none⟩] = .ok t := by
    refine ⟨⟨[⟨0, 6, [20 / 6, 20], 1⟩], [6], [], 0, 6⟩, ?_⟩
    simp [Sec.build, Sec.add, Sec.empty, strictly, segPieces, linPieces, allPos]
    norm_num
  obtain ⟨t, ht⟩ := hb
  refine ⟨leg, t, ht, (C152_haunch fit leg (hleg 16) 6 20 40 t ht 0 1).2.trans ?_⟩
  rw [min_eq_left (by norm_num), abs_of_nonneg (by norm_num)]
  norm_num

/-- A shear rigidity that falls from 40 to 20 over 6 m. -/
example (fit : Fit ℝ) : ∃ (leg : Leg ℝ) (t : Sec ℝ),
    Sec.empty.build fit [⟨.linear, [0, 6], .values [40, 20], none⟩] = .ok t ∧
    |shearFlexibility (.section (t.data leg)) 6 - (∫ x in (0 : ℝ)..6, 1 / t.value x) / 6 ^ 2|
      ≤ 1 / 10 ^ 15 := by
  obtain ⟨leg, hleg⟩ := leg_exists
  have hb : ∃ t, Sec.empty.build fit [⟨.linear, [0, 6], .values [40, 20], none⟩] = .ok t ∧
      t.pieces = [⟨0, 6, [-20 / 6, 40], 1⟩] ∧ t.fin = 6 := by
    refine ⟨⟨[⟨0, 6, [-20 / 6, 40], 1⟩], [6], [], 0, 6⟩, ?_, rfl, rfl⟩
    simp [Sec.build, Sec.add, Sec.empty, strictly, segPieces, linPieces, allPos]
    norm_num
  obtain ⟨t, h, hp, hf⟩ := hb
  refine ⟨leg, t, h, ?_⟩
  have hev : ∀ p ∈ t.pieces, p = ⟨0, 6, [-20 / 6, 40], 1⟩ := by
    rw [hp]; intro p hpm; exact List.mem_singleton.1 hpm
  have := C152_shear fit leg _ t (by simp) h ⟨rfl, trivial⟩
    (fun p hpm => by rw [hev p hpm]; simp) (fun p _ => hleg _)
    (fun p hpm => by rw [hp] at hpm; simp at hpm) 20 (by norm_num)
    (fun p hpm x hx hxf => by
      rw [hf] at hxf
      rw [hev p hpm]
      simp only [Piece.eval, polyval, List.foldl]
      linarith) (fun _ => 30) (fun _ => 1 / 3)
    (fun p hpm => by
      refine ⟨by norm_num, by norm_num, fun x hx => ?_⟩
      rw [hev p hpm] at hx ⊢
      simp only [Piece.eval, polyval, List.foldl, mem_Icc] at hx ⊢
      rw [abs_le]
      constructor <;> linarith [hx.1, hx.2])
  rw [hf, hp] at this
  refine this.trans ?_
  simp [Piece.gaussErr, Piece.points]
  norm_num

theorem leg2_exact : leg2.Exact 2 := by
  refine ⟨(leg2_spread 2 le_rfl).1, fun j hj => ?_⟩
  rw [leg2_sound j (by omega), integral_pow]
  norm_num

/-- A member of 10 m stepping from 30 to 50 at 4 m. -/
example (fit : Fit ℝ) : ∃ t : Sec ℝ,
    Sec.empty.build fit [⟨.const, [0, 4], .values [30], none⟩, ⟨.const, [4, 10], .values [50], none⟩]
      = .ok t ∧ ∀ j k, |flexibility (t.gauss leg2) 10 j k - exactFlex t.value 10 j k|
        ≤ 1 / 10 ^ 12 / 30 := by
  have hb : ∃ t, Sec.empty.build fit
      [⟨.const, [0, 4], .values [30], none⟩, ⟨.const, [4, 10], .values [50], none⟩] = .ok t ∧
      t.pieces = [⟨0, 4, [30], 0⟩, ⟨4, 10, [50], 0⟩] ∧ t.fin = 10 := by
    refine ⟨⟨[⟨0, 4, [30], 0⟩, ⟨4, 10, [50], 0⟩], [4, 10], [], 0, 10⟩, ?_, rfl, rfl⟩
    simp [Sec.build, Sec.add, Sec.empty, strictly, segPieces, allPos]
    norm_num
  obtain ⟨t, h, hp, hf⟩ := hb
  refine ⟨t, h, fun j k => ?_⟩
  have h3 : (1.7 : ℝ) ≤ √3 := Real.le_sqrt_of_sq_le (by norm_num)
  have h1 : 1 / √3 ≤ (1 / 1.7 : ℝ) := one_div_le_one_div_of_le (by norm_num) h3
  have h0 : (0 : ℝ) ≤ 1 / √3 := by positivity
  have := C152_stepped fit leg2 leg2_exact _ t (by simp) h ⟨rfl, rfl, trivial⟩ (by simp)
    (fun p hpm q hq => by
      rw [hp] at hpm
      simp only [List.tail_cons, List.mem_singleton] at hpm
      subst hpm
      simp only [leg2, List.mem_cons, List.not_mem_nil, or_false] at hq
      have e : -1 / √3 = -(1 / √3 : ℝ) := by ring
      rcases hq with rfl | rfl
      · simp only [e]
        norm_num at h1 ⊢
        linarith
      · simp only
        refine lt_of_lt_of_le (b := 1 / 2 * (10 - 4) * 1) (by norm_num) ?_
        refine mul_le_mul_of_nonneg_left ?_ (by norm_num)
        linarith) 30 (by norm_num)
    (fun x _ p hpm => by
      rw [hp] at hpm
      simp only [List.mem_cons, List.not_mem_nil, or_false] at hpm
      rcases hpm with rfl | rfl <;> simp [Piece.eval, polyval]
      norm_num) j k
  rw [hf, hp] at this
  simpa using this

end PyCBA
