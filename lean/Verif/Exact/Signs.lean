import Verif.Exact.Broken
import Verif.Analysis.State

set_option linter.unusedSectionVars false
set_option linter.unusedSimpArgs false

/-!
C119: the signs of the influence lines of the bending moment of a continuous beam on rigid
supports: on the span of a section in the middle third the line is positive, and it changes its
sign from span to span; for the moment over a support it is negative on both adjacent spans and
changes its sign from there on.
-/

namespace PyCBA

open MeasureTheory Set Matrix

/-! ### Specification -/

/-- A continuous beam: no member has a hinge, and every node stands on a rigid support that has
not settled (rotations may be free, sprung or clamped). -/
structure BeamDef.Continuous (b : BeamDef ℝ) : Prop where
  rigid : ∀ m ∈ b.members, m.et = .FF
  supports : ∀ j ≤ b.members.length, b.restraints.getD (2 * j) 0 < 0
  unsettled : b.Unsettled

/-- The sign on span `i` for a section in span `j`: positive on span `j`, and opposite on
neighbouring spans. -/
def MidSign (j i : ℕ) (w : ℝ) : Prop := if Even (i + j) then 0 ≤ w else w ≤ 0

/-- The sign on span `i` for the section over support `j`, between spans `j - 1` and `j`: negative
on both, and opposite on neighbouring spans further on. -/
def SupportSign (j i : ℕ) (w : ℝ) : Prop :=
  if i < j then (if Even (i + j) then 0 ≤ w else w ≤ 0)
  else (if Even (i + j) then w ≤ 0 else 0 ≤ w)

/-! ### Carry-over along unloaded spans -/

/-- Rotations left of a span die out, with alternating signs. -/
theorem carry_left (θ k σ : ℕ → ℝ) (hσ : ∀ i, 0 ≤ σ i) (j : ℕ) (hk : ∀ i < j, 0 < k i)
    (h : ∀ i < j, θ i = 0 ∨ (if 0 < i then 2 * k (i - 1) * θ (i - 1) + 4 * k (i - 1) * θ i else 0)
      + (4 * k i * θ i + 2 * k i * θ (i + 1)) + σ i * θ i = 0) :
    ∀ i < j, ∃ ρ, 0 ≤ ρ ∧ ρ ≤ 1 / 2 ∧ θ i = -ρ * θ (i + 1) := by
  have step : ∀ i < j, ∀ S, 0 ≤ S →
      S * θ i + (4 * k i * θ i + 2 * k i * θ (i + 1)) + σ i * θ i = 0 →
      ∃ ρ, 0 ≤ ρ ∧ ρ ≤ 1 / 2 ∧ θ i = -ρ * θ (i + 1) := by
    intro i hi S hS e
    have hki := hk i hi
    have hD : 0 < S + 4 * k i + σ i := by have := hσ i; linarith
    refine ⟨2 * k i / (S + 4 * k i + σ i), by positivity, ?_, ?_⟩
    · rw [div_le_iff₀ hD]
      have := hσ i
      linarith
    · rw [neg_mul, div_mul_eq_mul_div, eq_neg_iff_add_eq_zero, ← mul_left_inj' hD.ne', add_mul,
        div_mul_cancel₀ _ hD.ne', zero_mul]
      linarith
  intro i
  induction i with
  | zero =>
    intro hi
    rcases h 0 hi with h0 | h0
    · exact ⟨0, le_rfl, by norm_num, by rw [h0]; ring⟩
    · exact step 0 hi 0 le_rfl (by simpa using h0)
  | succ i ih =>
    intro hi
    obtain ⟨r, r0, r1, er⟩ := ih (by omega)
    rcases h (i + 1) hi with h0 | h0
    · exact ⟨0, le_rfl, by norm_num, by rw [h0]; ring⟩
    · have hki := hk i (by omega)
      refine step (i + 1) hi ((4 - 2 * r) * k i) (mul_nonneg (by linarith) hki.le) ?_
      rw [if_pos (by omega), Nat.add_sub_cancel, er] at h0
      linarith

/-- Rotations right of a span die out, with alternating signs. -/
theorem carry_right (θ k σ : ℕ → ℝ) (hσ : ∀ i, 0 ≤ σ i) (j n : ℕ) (hk : ∀ i < n, 0 < k i)
    (h : ∀ i, j ≤ i → i < n → θ (i + 1) = 0 ∨ (2 * k i * θ i + 4 * k i * θ (i + 1))
      + (if i + 1 < n then 4 * k (i + 1) * θ (i + 1) + 2 * k (i + 1) * θ (i + 2) else 0)
      + σ (i + 1) * θ (i + 1) = 0) :
    ∀ i, j ≤ i → i < n → ∃ ρ, 0 ≤ ρ ∧ ρ ≤ 1 / 2 ∧ θ (i + 1) = -ρ * θ i := by
  have step : ∀ i < n, ∀ S, 0 ≤ S →
      (2 * k i * θ i + 4 * k i * θ (i + 1)) + S * θ (i + 1) + σ (i + 1) * θ (i + 1) = 0 →
      ∃ ρ, 0 ≤ ρ ∧ ρ ≤ 1 / 2 ∧ θ (i + 1) = -ρ * θ i := by
    intro i hi S hS e
    have hki := hk i hi
    have hs := hσ (i + 1)
    have hD : 0 < S + 4 * k i + σ (i + 1) := by linarith
    refine ⟨2 * k i / (S + 4 * k i + σ (i + 1)), by positivity, ?_, ?_⟩
    · rw [div_le_iff₀ hD]
      linarith
    · rw [neg_mul, div_mul_eq_mul_div, eq_neg_iff_add_eq_zero, ← mul_left_inj' hD.ne', add_mul,
        div_mul_cancel₀ _ hD.ne', zero_mul]
      linarith
  have main : ∀ m i, n - i = m → j ≤ i → i < n →
      ∃ ρ, 0 ≤ ρ ∧ ρ ≤ 1 / 2 ∧ θ (i + 1) = -ρ * θ i := by
    intro m
    induction m with
    | zero => intro i h1 _ h3; omega
    | succ m ih =>
      intro i h1 h2 h3
      rcases h i h2 h3 with h0 | h0
      · exact ⟨0, le_rfl, by norm_num, by rw [h0]; ring⟩
      · by_cases hl : i + 1 < n
        · obtain ⟨r, r0, r1, er⟩ := ih (i + 1) (by omega) (by omega) hl
          have hki := hk (i + 1) hl
          rw [if_pos hl, er] at h0
          refine step i h3 ((4 - 2 * r) * k (i + 1)) (mul_nonneg (by linarith) hki.le) ?_
          linarith
        · rw [if_neg hl] at h0
          exact step i h3 0 le_rfl (by linarith)
  exact fun i h1 h2 => main _ i rfl h1 h2

/-- The rotations at the ends of the broken span. -/
theorem broken_pair {k A B p q : ℝ} (hk : 0 < k)
    (h0 : p = 0 ∨ ∃ P, 4 * k ≤ P ∧ P * p + 2 * k * q = A)
    (h1 : q = 0 ∨ ∃ Q, 4 * k ≤ Q ∧ 2 * k * p + Q * q = B) :
    (0 ≤ A → B ≤ 0 → 0 ≤ p ∧ q ≤ 0) ∧
    (A = 4 * k → B = 2 * k → 0 ≤ p ∧ p ≤ 1 ∧ 0 ≤ q) ∧
    (A = -2 * k → B = -4 * k → p ≤ 0 ∧ -1 ≤ q ∧ q ≤ 0) := by
  rcases h0 with rfl | ⟨P, hP, e0⟩ <;> rcases h1 with rfl | ⟨Q, hQ, e1⟩
  · refine ⟨fun _ _ => ⟨le_rfl, le_rfl⟩, fun _ _ => ⟨le_rfl, by norm_num, le_rfl⟩,
      fun _ _ => ⟨le_rfl, by norm_num, le_rfl⟩⟩
  · have hQ0 : 0 < Q := by linarith
    have eq : q = B / Q := by field_simp; linarith
    refine ⟨fun _ hB => ⟨le_rfl, ?_⟩, fun _ hB => ⟨le_rfl, by norm_num, ?_⟩,
      fun _ hB => ⟨le_rfl, ?_, ?_⟩⟩
    · rw [eq]; exact div_nonpos_of_nonpos_of_nonneg hB hQ0.le
    · rw [eq, hB]; positivity
    · rw [eq, hB, le_div_iff₀ hQ0]; linarith
    · rw [eq, hB]; exact div_nonpos_of_nonpos_of_nonneg (by linarith) hQ0.le
  · have hP0 : 0 < P := by linarith
    have ep : p = A / P := by field_simp; linarith
    refine ⟨fun hA _ => ⟨?_, le_rfl⟩, fun hA _ => ⟨?_, ?_, le_rfl⟩,
      fun hA _ => ⟨?_, by norm_num, le_rfl⟩⟩
    · rw [ep]; exact div_nonneg hA hP0.le
    · rw [ep, hA]; positivity
    · rw [ep, hA, div_le_iff₀ hP0]; linarith
    · rw [ep, hA]; exact div_nonpos_of_nonpos_of_nonneg (by linarith) hP0.le
  · have hP0 : 0 < P := by linarith
    have hQ0 : 0 < Q := by linarith
    have hD : 0 < P * Q - 4 * k ^ 2 := by nlinarith
    have ep : p = (Q * A - 2 * k * B) / (P * Q - 4 * k ^ 2) := by
      rw [eq_div_iff hD.ne']
      linear_combination Q * e0 - 2 * k * e1
    have eq : q = (P * B - 2 * k * A) / (P * Q - 4 * k ^ 2) := by
      rw [eq_div_iff hD.ne']
      linear_combination P * e1 - 2 * k * e0
    refine ⟨fun hA hB => ⟨?_, ?_⟩, fun hA hB => ⟨?_, ?_, ?_⟩, fun hA hB => ⟨?_, ?_, ?_⟩⟩
    · rw [ep]; exact div_nonneg (by nlinarith) hD.le
    · rw [eq]; exact div_nonpos_of_nonpos_of_nonneg (by nlinarith) hD.le
    · rw [ep, hA, hB]; exact div_nonneg (by nlinarith) hD.le
    · rw [ep, hA, hB, div_le_one hD]; nlinarith
    · rw [eq, hA, hB]; exact div_nonneg (by nlinarith) hD.le
    · rw [ep, hA, hB]; exact div_nonpos_of_nonpos_of_nonneg (by nlinarith) hD.le
    · rw [eq, hA, hB, le_div_iff₀ hD]; nlinarith
    · rw [eq, hA, hB]; exact div_nonpos_of_nonpos_of_nonneg (by nlinarith) hD.le

/-! ### The lines -/

/-- An unloaded elastic span is the cubic through its end displacements. -/
theorem elastic_cubic {EI L : ℝ} (hE : EI ≠ 0) (hL : 0 < L) {F : Vec4 ℝ} {v θ : ℝ → ℝ}
    (h : ElasticSpan EI L [] F v θ) (ξ : ℝ) (h0 : 0 ≤ ξ) (h1 : ξ ≤ 1) :
    v (ξ * L) = v 0 * (1 - 3 * ξ ^ 2 + 2 * ξ ^ 3) + θ 0 * L * (ξ * (1 - ξ) ^ 2)
      + v L * (3 * ξ ^ 2 - 2 * ξ ^ 3) - θ L * L * (ξ ^ 2 * (1 - ξ)) := by
  have hown : ∀ ld ∈ ([] : List (Load ℝ)), ld.Plain L := by simp
  have e := (h.eq_line hL hown).2 (ξ * L) ⟨by positivity, by nlinarith⟩
  have hF := h.stiffness hE hL hown
  rw [kFF_mulVec] at hF
  have f0 := congrFun hF 0
  have f1 := congrFun hF 1
  simp [clampedSum, CNL.vec] at f0 f1
  rw [e, exLineV, f0, f1]
  simp only [List.map_nil, List.sum_nil]
  field_simp
  ring

/-- End moments of an unloaded elastic span. -/
theorem elastic_ends {EI L : ℝ} (hE : EI ≠ 0) (hL : 0 < L) {F : Vec4 ℝ} {v θ : ℝ → ℝ}
    (h : ElasticSpan EI L [] F v θ) :
    F 1 = 4 * (EI / L) * θ 0 + 2 * (EI / L) * θ L + 6 * (EI / L) * ((v 0 - v L) / L) ∧
    F 3 = 2 * (EI / L) * θ 0 + 4 * (EI / L) * θ L + 6 * (EI / L) * ((v 0 - v L) / L) := by
  have hF := h.stiffness hE hL (by simp)
  rw [kFF_mulVec] at hF
  have f1 := congrFun hF 1
  have f3 := congrFun hF 3
  simp [clampedSum, CNL.vec] at f1 f3
  rw [f1, f3]
  constructor <;> field_simp <;> ring

/-- The rotational stiffness `EI / L` of span `i`. -/
noncomputable def stiffOf (b : BeamDef ℝ) (i : ℕ) : ℝ :=
  (b.members.map fun m => m.flexRig / m.L).getD i 0

theorem stiffOf_eq (b : BeamDef ℝ) (i : ℕ) (hi : i < b.members.length) :
    stiffOf b i = b.members[i].flexRig / b.members[i].L := by
  simp [stiffOf, List.getD_eq_getElem?_getD, hi]

section broken

variable {b : BeamDef ℝ} {ls : List (SpanLoad ℝ)} {j : ℕ} {x0 : ℝ} {y : ℕ → ℝ} {G : ℕ → Vec4 ℝ}
  {ηl φl : ℝ → ℝ} {η φ : ℕ → ℝ → ℝ}

theorem stiffOf_pos (hb : b.Slender ls) (i : ℕ) (hi : i < b.members.length) : 0 < stiffOf b i := by
  rw [stiffOf_eq b i hi]
  exact div_pos (ElasticBeam.const hb i hi).1 (hb.pos _ (List.getElem_mem hi))

theorem BrokenBeam.heights (hc : b.Continuous) (hB : BrokenBeam b j x0 0 (-1) y G ηl φl η φ) (i : ℕ)
    (hi : i ≤ b.members.length) : y (2 * i) = 0 := by
  rcases hpr : b.presc.getD (2 * i) none with _ | w
  · exact hB.rigid _ (by omega) hpr (hc.supports i hi)
  · rw [hB.prescribed _ (by omega) w hpr, hc.unsettled _ w hpr]

/-- The line of a span that is not broken. -/
theorem BrokenBeam.other (hb : b.Slender ls) (hc : b.Continuous)
    (hB : BrokenBeam b j x0 0 (-1) y G ηl φl η φ) (i : ℕ) (hi : i < b.members.length) (hij : i ≠ j) :
    G i 1 = 4 * stiffOf b i * y (2 * i + 1) + 2 * stiffOf b i * y (2 * i + 3) ∧
    G i 3 = 2 * stiffOf b i * y (2 * i + 1) + 4 * stiffOf b i * y (2 * i + 3) ∧
    ∀ ξ, 0 ≤ ξ → ξ ≤ 1 → η i (ξ * b.members[i].L)
      = b.members[i].L * (y (2 * i + 1) * (ξ * (1 - ξ) ^ 2) - y (2 * i + 3) * (ξ ^ 2 * (1 - ξ))) := by
  obtain ⟨hE, hEI⟩ := ElasticBeam.const hb i hi
  have hL := hb.pos _ (List.getElem_mem hi)
  have hs := hB.span i hi _ hEI hij
  have het := hc.rigid _ (List.getElem_mem hi)
  have a1 := hB.left i hi
  have a2 := hB.right i hi
  have a3 := hB.rotLeft i hi
  have a4 := hB.rotRight i hi
  simp only [het, EType.freeLeft, EType.freeRight, hij, if_false, Bool.false_eq_true] at a1 a3 a4
  rw [hB.heights hc i hi.le] at a1
  rw [show 2 * i + 2 = 2 * (i + 1) by ring, hB.heights hc (i + 1) hi] at a2
  obtain ⟨e1, e3⟩ := elastic_ends hE.ne' hL hs
  refine ⟨?_, ?_, fun ξ h0 h1 => ?_⟩
  · rw [e1, a1, a2, a3, a4, stiffOf_eq b i hi]; simp
  · rw [e3, a1, a2, a3, a4, stiffOf_eq b i hi]; simp
  · rw [elastic_cubic hE.ne' hL hs ξ h0 h1, a1, a2, a3, a4]
    ring

/-- The line of the span that is broken, at `x0 = ζ L`. -/
theorem BrokenBeam.own (hb : b.Slender ls) (hc : b.Continuous)
    (hB : BrokenBeam b j x0 0 (-1) y G ηl φl η φ) (hj : j < b.members.length) (ζ : ℝ)
    (h0 : 0 ≤ ζ) (h1 : ζ ≤ 1) (hx0 : x0 = ζ * b.members[j].L) :
    G j 1 = 4 * stiffOf b j * y (2 * j + 1) + 2 * stiffOf b j * y (2 * j + 3)
      + stiffOf b j * (6 * ζ - 4) ∧
    G j 3 = 2 * stiffOf b j * y (2 * j + 1) + 4 * stiffOf b j * y (2 * j + 3)
      + stiffOf b j * (6 * ζ - 2) ∧
    (∀ ξ, 0 ≤ ξ → ξ ≤ ζ → ηl (ξ * b.members[j].L)
      = b.members[j].L * (y (2 * j + 1) * (ξ * (1 - ξ) ^ 2)
        - y (2 * j + 3) * (ξ ^ 2 * (1 - ξ)) + ξ ^ 2 * (2 - ξ - 3 * ζ + 2 * ζ * ξ))) ∧
    (∀ ξ, ζ ≤ ξ → ξ ≤ 1 → η j (ξ * b.members[j].L)
      = b.members[j].L * (y (2 * j + 1) * (ξ * (1 - ξ) ^ 2)
        - y (2 * j + 3) * (ξ ^ 2 * (1 - ξ)) + (ξ ^ 2 * (2 - ξ - 3 * ζ + 2 * ζ * ξ) - (ξ - ζ)))) := by
  obtain ⟨hE, hEI⟩ := ElasticBeam.const hb j hj
  have hL := hb.pos _ (List.getElem_mem hj)
  have hxI : x0 ∈ Icc 0 b.members[j].L := by
    rw [hx0]; exact ⟨by positivity, by nlinarith⟩
  have het := hc.rigid _ (List.getElem_mem hj)
  obtain ⟨V, T, hs, hl, hr⟩ := (hB.broken hj _ hEI).split hL hxI
  have a1 := hB.left j hj
  have a2 := hB.right j hj
  have a3 := hB.rotLeft j hj
  have a4 := hB.rotRight j hj
  simp only [het, EType.freeLeft, EType.freeRight, if_true, if_false, Bool.false_eq_true] at a1 a3 a4
  rw [hB.heights hc j hj.le, (hl 0 ⟨le_rfl, hxI.1⟩).1] at a1
  rw [show 2 * j + 2 = 2 * (j + 1) by ring, hB.heights hc (j + 1) hj,
    (hr _ ⟨hxI.2, le_rfl⟩).1] at a2
  rw [(hl 0 ⟨le_rfl, hxI.1⟩).2] at a3
  rw [(hr _ ⟨hxI.2, le_rfl⟩).2] at a4
  have b2 : V b.members[j].L = b.members[j].L * (1 - ζ) := by rw [hx0] at a2; linarith
  have b4 : T b.members[j].L = y (2 * j + 3) + 1 := by linarith
  obtain ⟨e1, e3⟩ := elastic_ends hE.ne' hL hs
  have c2 : (V 0 - V b.members[j].L) / b.members[j].L = -(1 - ζ) := by
    rw [a1, b2]; field_simp; ring
  refine ⟨?_, ?_, fun ξ g0 g1 => ?_, fun ξ g0 g1 => ?_⟩
  · rw [e1, c2, a3, b4, stiffOf_eq b j hj]; ring
  · rw [e3, c2, a3, b4, stiffOf_eq b j hj]; ring
  · rw [(hl _ ⟨by positivity, by rw [hx0]; nlinarith⟩).1,
      elastic_cubic hE.ne' hL hs ξ g0 (by linarith), a1, b2, a3, b4]
    ring
  · rw [(hr _ ⟨by rw [hx0]; nlinarith, by nlinarith⟩).1,
      elastic_cubic hE.ne' hL hs ξ (by linarith) g1, a1, b2, a3, b4, hx0]
    ring

/-- Equilibrium of moments at a node, or no rotation. -/
theorem BrokenBeam.node (hc : b.Continuous) (hB : BrokenBeam b j x0 0 (-1) y G ηl φl η φ)
    (i : ℕ) (hi : i ≤ b.members.length) :
    y (2 * i + 1) = 0 ∨ (if 0 < i then G (i - 1) 3 else 0)
      + (if i < b.members.length then G i 1 else 0)
      + max (b.restraints.getD (2 * i + 1) 0) 0 * y (2 * i + 1) = 0 := by
  rcases hpr : b.presc.getD (2 * i + 1) none with _ | w
  · by_cases hr : b.restraints.getD (2 * i + 1) 0 < 0
    · exact .inl (hB.rigid _ (by omega) hpr hr)
    · exact .inr (hB.free i hi 1 hpr (not_lt.1 hr))
  · exact .inl (by rw [hB.prescribed _ (by omega) w hpr, hc.unsettled _ w hpr])

/-- Rotations away from the break. -/
theorem BrokenBeam.carry (hb : b.Slender ls) (hc : b.Continuous)
    (hB : BrokenBeam b j x0 0 (-1) y G ηl φl η φ) (hj : j < b.members.length) :
    (∀ i < j, ∃ ρ, 0 ≤ ρ ∧ ρ ≤ 1 / 2 ∧ y (2 * i + 1) = -ρ * y (2 * i + 3)) ∧
    (∀ i, j < i → i < b.members.length →
      ∃ ρ, 0 ≤ ρ ∧ ρ ≤ 1 / 2 ∧ y (2 * i + 3) = -ρ * y (2 * i + 1)) := by
  constructor
  · refine carry_left (fun i => y (2 * i + 1)) (stiffOf b)
      (fun i => max (b.restraints.getD (2 * i + 1) 0) 0) (fun i => le_max_right _ _) j
      (fun i hi => stiffOf_pos hb i (by omega)) fun i hi => ?_
    rcases hB.node hc i (by omega) with h | h
    · exact .inl h
    · right
      rw [if_pos (show i < b.members.length by omega),
        (hB.other hb hc i (by omega) (by omega)).1] at h
      by_cases h0 : 0 < i
      · rw [if_pos h0] at h ⊢
        rw [(hB.other hb hc (i - 1) (by omega) (by omega)).2.1,
          show 2 * (i - 1) + 3 = 2 * i + 1 by omega] at h
        exact h
      · rw [if_neg h0] at h ⊢
        exact h
  · intro i h1 h2
    refine carry_right (fun i => y (2 * i + 1)) (stiffOf b)
      (fun i => max (b.restraints.getD (2 * i + 1) 0) 0) (fun i => le_max_right _ _) (j + 1)
      b.members.length (fun i hi => stiffOf_pos hb i hi) (fun i hi hin => ?_) i h1 h2
    rcases hB.node hc (i + 1) (by omega) with h | h
    · exact .inl h
    · right
      rw [if_pos (by omega), Nat.add_sub_cancel, (hB.other hb hc i hin (by omega)).2.1] at h
      by_cases h0 : i + 1 < b.members.length
      · rw [if_pos h0] at h ⊢
        rw [(hB.other hb hc (i + 1) h0 (by omega)).1] at h
        exact h
      · rw [if_neg h0] at h ⊢
        exact h

/-- Rotations at the ends of the broken span. -/
theorem BrokenBeam.ends (hb : b.Slender ls) (hc : b.Continuous)
    (hB : BrokenBeam b j x0 0 (-1) y G ηl φl η φ) (hj : j < b.members.length) (ζ : ℝ)
    (h0 : 0 ≤ ζ) (h1 : ζ ≤ 1) (hx0 : x0 = ζ * b.members[j].L) :
    (y (2 * j + 1) = 0 ∨ ∃ P, 4 * stiffOf b j ≤ P ∧
      P * y (2 * j + 1) + 2 * stiffOf b j * y (2 * j + 3) = stiffOf b j * (4 - 6 * ζ)) ∧
    (y (2 * j + 3) = 0 ∨ ∃ Q, 4 * stiffOf b j ≤ Q ∧
      2 * stiffOf b j * y (2 * j + 1) + Q * y (2 * j + 3) = stiffOf b j * (2 - 6 * ζ)) := by
  obtain ⟨o1, o3, -, -⟩ := hB.own hb hc hj ζ h0 h1 hx0
  obtain ⟨cl, cr⟩ := hB.carry hb hc hj
  constructor
  · rcases hB.node hc j hj.le with h | h
    · exact .inl h
    · right
      have hσ : 0 ≤ max (b.restraints.getD (2 * j + 1) 0) 0 := le_max_right _ _
      rw [if_pos hj, o1] at h
      by_cases hp : 0 < j
      · obtain ⟨r, r0, r1, er⟩ := cl (j - 1) (by omega)
        have hk := stiffOf_pos hb (j - 1) (by omega)
        rw [if_pos hp, (hB.other hb hc (j - 1) (by omega) (by omega)).2.1] at h
        rw [show 2 * (j - 1) + 3 = 2 * j + 1 by omega] at h er
        rw [er] at h
        refine ⟨4 * stiffOf b j + (4 - 2 * r) * stiffOf b (j - 1)
          + max (b.restraints.getD (2 * j + 1) 0) 0, ?_, by linarith⟩
        have : 0 ≤ (4 - 2 * r) * stiffOf b (j - 1) := mul_nonneg (by linarith) hk.le
        linarith
      · rw [if_neg hp] at h
        exact ⟨4 * stiffOf b j + max (b.restraints.getD (2 * j + 1) 0) 0, by linarith, by linarith⟩
  · have e3 : 2 * (j + 1) + 1 = 2 * j + 3 := by ring
    have hn := hB.node hc (j + 1) hj
    rw [e3] at hn
    rcases hn with h | h
    · exact .inl h
    · right
      have hσ : 0 ≤ max (b.restraints.getD (2 * j + 3) 0) 0 := le_max_right _ _
      rw [if_pos (by omega), Nat.add_sub_cancel, o3] at h
      by_cases hp : j + 1 < b.members.length
      · obtain ⟨r, r0, r1, er⟩ := cr (j + 1) (by omega) hp
        have hk := stiffOf_pos hb (j + 1) hp
        rw [if_pos hp, (hB.other hb hc (j + 1) hp (by omega)).1] at h
        rw [e3] at h er
        rw [er] at h
        refine ⟨4 * stiffOf b j + (4 - 2 * r) * stiffOf b (j + 1)
          + max (b.restraints.getD (2 * j + 3) 0) 0, ?_, by linarith⟩
        have : 0 ≤ (4 - 2 * r) * stiffOf b (j + 1) := mul_nonneg (by linarith) hk.le
        linarith
      · rw [if_neg hp] at h
        exact ⟨4 * stiffOf b j + max (b.restraints.getD (2 * j + 3) 0) 0, by linarith, by linarith⟩

/-- The signs of the line left and right of the broken span. -/
theorem BrokenBeam.alternate (hb : b.Slender ls) (hc : b.Continuous)
    (hB : BrokenBeam b j x0 0 (-1) y G ηl φl η φ) (hj : j < b.members.length) (ε ε' : ℝ)
    (hε : 0 ≤ ε * y (2 * j + 1)) (hε' : 0 ≤ ε' * y (2 * j + 3)) :
    (∀ i (_ : i < j) (hi : i < b.members.length), ∀ x ∈ Icc 0 b.members[i].L,
      0 ≤ ε * ((-1) ^ (i + j) * η i x)) ∧
    (∀ i (_ : j < i) (hi : i < b.members.length), ∀ x ∈ Icc 0 b.members[i].L,
      0 ≤ ε' * ((-1) ^ (i + j + 1) * η i x)) := by
  obtain ⟨cl, cr⟩ := hB.carry hb hc hj
  have hl : ∀ m i, i + m + 1 = j → 0 ≤ ε * ((-1) ^ m * y (2 * i + 3)) := by
    intro m
    induction m with
    | zero =>
      intro i hi
      rw [show 2 * i + 3 = 2 * j + 1 by omega]
      simpa using hε
    | succ m ih =>
      intro i hi
      obtain ⟨r, r0, r1, er⟩ := cl (i + 1) (by omega)
      have h := ih (i + 1) (by omega)
      rw [show 2 * i + 3 = 2 * (i + 1) + 1 by ring, er, pow_succ]
      have := mul_nonneg r0 h
      linarith
  have hr : ∀ m i, j + m + 1 = i → i < b.members.length →
      0 ≤ ε' * ((-1) ^ m * y (2 * i + 1)) := by
    intro m
    induction m with
    | zero =>
      intro i hi _
      rw [show 2 * i + 1 = 2 * j + 3 by omega]
      simpa using hε'
    | succ m ih =>
      intro i hi hin
      obtain ⟨r, r0, r1, er⟩ := cr (i - 1) (by omega) (by omega)
      have h := ih (i - 1) (by omega) (by omega)
      rw [show 2 * i + 1 = 2 * (i - 1) + 3 by omega, er, pow_succ]
      have := mul_nonneg r0 h
      linarith
  constructor
  · intro i hij hi x hx
    have hL := hb.pos _ (List.getElem_mem hi)
    obtain ⟨r, r0, r1, er⟩ := cl i hij
    have h := hl (j - i - 1) i (by omega)
    have e := (hB.other hb hc i hi (by omega)).2.2 (x / b.members[i].L) (div_nonneg hx.1 hL.le)
      (div_le_one_of_le₀ hx.2 hL.le)
    rw [div_mul_cancel₀ _ hL.ne', er] at e
    rw [e]
    have hξ0 : 0 ≤ x / b.members[i].L := div_nonneg hx.1 hL.le
    have hξ1 : 0 ≤ 1 - x / b.members[i].L := by
      have := div_le_one_of_le₀ hx.2 hL.le; linarith
    set ξ := x / b.members[i].L
    have hp : (-1 : ℝ) ^ (i + j) = -(-1) ^ (j - i - 1) := by
      rw [show i + j = (j - i - 1) + 2 * i + 1 by omega, pow_succ, pow_add, pow_mul]
      norm_num
    rw [hp]
    have h1 : 0 ≤ b.members[i].L * (r * (ξ * (1 - ξ) ^ 2) + ξ ^ 2 * (1 - ξ)) := by positivity
    have := mul_nonneg h h1
    linarith
  · intro i hij hi x hx
    have hL := hb.pos _ (List.getElem_mem hi)
    obtain ⟨r, r0, r1, er⟩ := cr i hij hi
    have h := hr (i - j - 1) i (by omega) hi
    have e := (hB.other hb hc i hi (by omega)).2.2 (x / b.members[i].L) (div_nonneg hx.1 hL.le)
      (div_le_one_of_le₀ hx.2 hL.le)
    rw [div_mul_cancel₀ _ hL.ne', er] at e
    rw [e]
    have hξ0 : 0 ≤ x / b.members[i].L := div_nonneg hx.1 hL.le
    have hξ1 : 0 ≤ 1 - x / b.members[i].L := by
      have := div_le_one_of_le₀ hx.2 hL.le; linarith
    set ξ := x / b.members[i].L
    have hp : (-1 : ℝ) ^ (i + j + 1) = (-1) ^ (i - j - 1) := by
      rw [show i + j + 1 = (i - j - 1) + 2 * (j + 1) by omega, pow_add, pow_mul]
      norm_num
    rw [hp]
    have h1 : 0 ≤ b.members[i].L * (ξ * (1 - ξ) ^ 2 + r * (ξ ^ 2 * (1 - ξ))) := by positivity
    have := mul_nonneg h h1
    linarith

end broken

theorem midSign_of {j i : ℕ} {w : ℝ} (h : 0 ≤ (-1) ^ (i + j) * w) : MidSign j i w := by
  unfold MidSign
  split_ifs with he
  · rwa [he.neg_one_pow, one_mul] at h
  · rw [(Nat.not_even_iff_odd.1 he).neg_one_pow] at h
    linarith

theorem brokenLine_right {j : ℕ} {x0 : ℝ} {ηl : ℝ → ℝ} {η : ℕ → ℝ → ℝ} {i : ℕ} {x : ℝ}
    (h : i = j → x0 ≤ x) : brokenLine j x0 ηl η i x = η i x :=
  if_neg fun hc => absurd hc.2 (not_lt.2 (h hc.1))

theorem getD_pad {α : Type*} (l : List α) (n p : ℕ) (d : α) :
    (l ++ List.replicate n d).getD p d = l.getD p d := by
  simp only [List.getD_eq_getElem?_getD, List.getElem?_append]
  split_ifs with h
  · rfl
  · rw [List.getElem?_eq_none (not_lt.1 h)]
    by_cases hp : p - l.length < n
    · simp [List.getElem?_replicate, hp]
    · simp [List.getElem?_replicate, hp]

/-- A continuous beam can be broken. -/
theorem BeamDef.Continuous.broken {b : BeamDef ℝ} {ls : List (SpanLoad ℝ)} (hb : b.Slender ls)
    (hc : b.Continuous) (j : ℕ) (hj : j < b.members.length) (x0 : ℝ)
    (hx0 : x0 ∈ Icc 0 b.members[j].L) (δ τ : ℝ) :
    ∃ y G ηl φl η φ, BrokenBeam b j x0 δ τ y G ηl φl η φ := by
  set b' : BeamDef ℝ := { b with
    LM := []
    restraints := b.restraints ++ List.replicate (2 * b.members.length + 2) 0
    presc := b.presc ++ List.replicate (2 * b.members.length + 2) none } with hb'
  have eR : ∀ p, b'.restraints.getD p 0 = b.restraints.getD p 0 := fun p => getD_pad _ _ _ _
  have eP : ∀ p, b'.presc.getD p none = b.presc.getD p none := fun p => getD_pad _ _ _ _
  have hb2 : b'.Slender [] := ⟨hb.pos, hb.prismatic, fun _ _ _ hl => by simp at hl⟩
  obtain ⟨s, hs⟩ : ∃ s, b'.system = .ok s := by
    have h1 : b'.setLoads = .ok [] := by simp [BeamDef.setLoads, hb', parseLM]
    obtain ⟨r, hr⟩ := mapE_of_ok (f := fun mi : Member ℝ × ℕ => mi.1.refSum mi.2 []) b'.members.zipIdx
      (fun mi _ => ⟨_, rfl⟩)
    obtain ⟨k, hk⟩ := mapE_of_ok (f := Member.spanK) b'.members (by
      intro m hm
      obtain ⟨hG, e, he, hEI⟩ := hb.prismatic m hm
      exact ⟨_, spanK_kOf hEI hG⟩)
    rw [BeamDef.system, h1]
    simp only [hr, hk]
    rw [if_neg (by
      simp only [hb', List.length_append, List.length_replicate]
      omega)]
    exact ⟨_, rfl⟩
  have hns : s.Nonsingular := by
    refine C77_adequate_supports b' (fun m hm => ?_) s hs 0 b.members.length (by simp) le_rfl ?_
      (.inl ⟨by omega, ?_⟩)
    · obtain ⟨hG, e, he, hEI⟩ := hb.prismatic m hm
      refine ⟨⟨hb.pos m hm, ?_, ?_⟩, hc.rigid m hm⟩
      · rw [hEI]; exact he
      · intro g hg
        rw [hG] at hg
        cases hg
    · rw [eR]; exact hc.supports 0 (by omega)
    · rw [eR]; exact hc.supports _ le_rfl
  obtain ⟨y, G, ηl, φl, η, φ, hB⟩ := brokenBeam_exists hb2 hs hns j hj x0 hx0 δ τ
  refine ⟨y, G, ηl, φl, η, φ, hB.span, hB.broken, hB.left, hB.right, hB.rotLeft, hB.rotRight,
    ?_, ?_, ?_⟩
  · intro p hp w hw
    exact hB.prescribed p hp w (by rw [eP]; exact hw)
  · intro p hp hn hr
    exact hB.rigid p hp (by rw [eP]; exact hn) (by rw [eR]; exact hr)
  · intro k hk c hn hr
    have := hB.free k hk c (by rw [eP]; exact hn) (by rw [eR]; exact hr)
    rw [nodeSum, eR] at this
    exact this

/-! ## C119 -/

/-- **C119**: the line of the bending moment of a section in the middle third of a span of a
continuous beam is positive on that span, and of opposite sign on neighbouring spans.  Partial:
slender prismatic members. -/
theorem C119_span_partial (b : BeamDef ℝ) (ls : List (SpanLoad ℝ)) (hb : b.Slender ls)
    (hc : b.Continuous) (j : ℕ) (hj : j < b.members.length) (x0 : ℝ)
    (h0 : b.members[j].L / 3 ≤ x0) (h1 : x0 ≤ 2 * b.members[j].L / 3) (y : ℕ → ℝ) (G : ℕ → Vec4 ℝ)
    (ηl φl : ℝ → ℝ) (η φ : ℕ → ℝ → ℝ) (hB : BrokenBeam b j x0 0 (-1) y G ηl φl η φ)
    (i : ℕ) (hi : i < b.members.length) (x : ℝ) (hx : x ∈ Icc 0 b.members[i].L) :
    MidSign j i (brokenLine j x0 ηl η i x) := by
  have hLj := hb.pos _ (List.getElem_mem hj)
  obtain ⟨ζ, hζ⟩ : ∃ ζ, ζ = x0 / b.members[j].L := ⟨_, rfl⟩
  have hx0 : x0 = ζ * b.members[j].L := by rw [hζ]; field_simp
  have z0 : 1 / 3 ≤ ζ := by rw [hζ, le_div_iff₀ hLj]; linarith
  have z1 : ζ ≤ 2 / 3 := by rw [hζ, div_le_iff₀ hLj]; linarith
  obtain ⟨e0, e1⟩ := hB.ends hb hc hj ζ (by linarith) (by linarith) hx0
  have hk := stiffOf_pos hb j hj
  obtain ⟨p0, q0⟩ := (broken_pair hk e0 e1).1 (mul_nonneg hk.le (by linarith))
    (mul_nonpos_of_nonneg_of_nonpos hk.le (by linarith))
  obtain ⟨aL, aR⟩ := hB.alternate hb hc hj 1 (-1) (by linarith) (by linarith)
  rcases Nat.lt_trichotomy i j with hij | hij | hij
  · rw [brokenLine_right (by omega)]
    exact midSign_of (by have := aL i hij hi x hx; linarith)
  · subst hij
    obtain ⟨-, -, o1, o2⟩ := hB.own hb hc hj ζ (by linarith) (by linarith) hx0
    have hξ0 : 0 ≤ x / b.members[i].L := div_nonneg hx.1 hLj.le
    have hξ1 : 0 ≤ 1 - x / b.members[i].L := by
      have := div_le_one_of_le₀ hx.2 hLj.le; linarith
    have hxe : x = x / b.members[i].L * b.members[i].L := by field_simp
    obtain ⟨ξ, hξ⟩ : ∃ ξ, ξ = x / b.members[i].L := ⟨_, rfl⟩
    rw [← hξ] at hξ0 hξ1 hxe
    have hs : 0 ≤ y (2 * i + 1) * (ξ * (1 - ξ) ^ 2) - y (2 * i + 3) * (ξ ^ 2 * (1 - ξ)) := by
      have a1 := mul_nonneg p0 (show 0 ≤ ξ * (1 - ξ) ^ 2 by positivity)
      have a2 := mul_nonneg (neg_nonneg.2 q0) (show 0 ≤ ξ ^ 2 * (1 - ξ) by positivity)
      linarith
    unfold MidSign
    rw [if_pos (by simp)]
    by_cases hlt : x < x0
    · rw [brokenLine, if_pos ⟨rfl, hlt⟩, hxe, o1 ξ hξ0 (by
        rw [hxe, hx0] at hlt; exact (lt_of_mul_lt_mul_right hlt hLj.le).le)]
      have hle : ξ ≤ ζ := by rw [hxe, hx0] at hlt; exact (lt_of_mul_lt_mul_right hlt hLj.le).le
      have h2 : 0 ≤ 2 - ξ - 3 * ζ + 2 * ζ * ξ := by
        nlinarith [mul_nonneg (sub_nonneg.2 hle) (show (0:ℝ) ≤ 2 / 3 - ζ by linarith), sq_nonneg (1 - ζ)]
      have h3 := mul_nonneg (sq_nonneg ξ) h2
      exact mul_nonneg hLj.le (by linarith)
    · rw [brokenLine_right (fun _ => not_lt.1 hlt), hxe]
      have hle : ζ ≤ ξ := by
        rw [hxe, hx0, not_lt] at hlt; exact le_of_mul_le_mul_right hlt hLj
      rw [o2 ξ hle (by linarith)]
      have h2 : ξ ^ 2 * (2 - ξ - 3 * ζ + 2 * ζ * ξ) - (ξ - ζ)
          = (1 - ξ) ^ 2 * (ζ * (1 + 2 * ξ) - ξ) := by ring
      have h3 : 0 ≤ ζ * (1 + 2 * ξ) - ξ := by nlinarith
      have h4 := mul_nonneg (sq_nonneg (1 - ξ)) h3
      rw [h2]
      exact mul_nonneg hLj.le (by linarith)
  · rw [brokenLine_right (by omega)]
    refine midSign_of ?_
    have := aR i hij hi x hx
    rw [pow_succ] at this
    linarith

/-- **C119**: the line of the bending moment over a support is negative on both adjacent spans,
and from there on of opposite sign on neighbouring spans: for the section just right of support
`j`, at the start of span `j`.  Partial: slender prismatic members. -/
theorem C119_support_right_partial (b : BeamDef ℝ) (ls : List (SpanLoad ℝ)) (hb : b.Slender ls)
    (hc : b.Continuous) (j : ℕ) (hj : j < b.members.length) (y : ℕ → ℝ) (G : ℕ → Vec4 ℝ)
    (ηl φl : ℝ → ℝ) (η φ : ℕ → ℝ → ℝ) (hB : BrokenBeam b j 0 0 (-1) y G ηl φl η φ)
    (i : ℕ) (hi : i < b.members.length) (x : ℝ) (hx : x ∈ Icc 0 b.members[i].L) :
    SupportSign j i (brokenLine j 0 ηl η i x) := by
  have hLj := hb.pos _ (List.getElem_mem hj)
  have hx0 : (0 : ℝ) = 0 * b.members[j].L := by ring
  obtain ⟨e0, e1⟩ := hB.ends hb hc hj 0 le_rfl zero_le_one hx0
  have hk := stiffOf_pos hb j hj
  obtain ⟨p0, p1, q0⟩ := (broken_pair hk e0 e1).2.1 (by ring) (by ring)
  obtain ⟨aL, aR⟩ := hB.alternate hb hc hj 1 1 (by linarith) (by linarith)
  rw [brokenLine_right (fun h => by subst h; exact hx.1)]
  rcases Nat.lt_trichotomy i j with hij | hij | hij
  · have := aL i hij hi x hx
    rw [one_mul] at this
    unfold SupportSign
    rw [if_pos hij]
    exact midSign_of this
  · subst hij
    obtain ⟨-, -, -, o2⟩ := hB.own hb hc hj 0 le_rfl zero_le_one hx0
    have hξ0 : 0 ≤ x / b.members[i].L := div_nonneg hx.1 hLj.le
    have hξ1 : 0 ≤ 1 - x / b.members[i].L := by
      have := div_le_one_of_le₀ hx.2 hLj.le; linarith
    have hxe : x = x / b.members[i].L * b.members[i].L := by field_simp
    obtain ⟨ξ, hξ⟩ : ∃ ξ, ξ = x / b.members[i].L := ⟨_, rfl⟩
    rw [← hξ] at hξ0 hξ1 hxe
    unfold SupportSign
    rw [if_neg (lt_irrefl i), if_pos (by simp), hxe, o2 ξ hξ0 (by linarith)]
    have h1 := mul_nonneg (sub_nonneg.2 p1) (show 0 ≤ ξ * (1 - ξ) ^ 2 by positivity)
    have h2 := mul_nonneg q0 (show 0 ≤ ξ ^ 2 * (1 - ξ) by positivity)
    refine mul_nonpos_of_nonneg_of_nonpos hLj.le ?_
    linarith
  · have := aR i hij hi x hx
    rw [one_mul, pow_succ] at this
    unfold SupportSign
    rw [if_neg (by omega)]
    have h := midSign_of (w := -η i x) (by linarith : 0 ≤ (-1) ^ (i + j) * -η i x)
    unfold MidSign at h
    split_ifs with he
    · rw [if_pos he] at h; linarith
    · rw [if_neg he] at h; linarith

/-- **C119**: the same for the section just left of a support, at the end of span `j`. -/
theorem C119_support_left_partial (b : BeamDef ℝ) (ls : List (SpanLoad ℝ)) (hb : b.Slender ls)
    (hc : b.Continuous) (j : ℕ) (hj : j < b.members.length) (y : ℕ → ℝ) (G : ℕ → Vec4 ℝ)
    (ηl φl : ℝ → ℝ) (η φ : ℕ → ℝ → ℝ)
    (hB : BrokenBeam b j b.members[j].L 0 (-1) y G ηl φl η φ)
    (i : ℕ) (hi : i < b.members.length) (x : ℝ) (hx : x ∈ Icc 0 b.members[i].L) :
    SupportSign (j + 1) i (brokenLine j b.members[j].L ηl η i x) := by
  have hLj := hb.pos _ (List.getElem_mem hj)
  have hx0 : b.members[j].L = 1 * b.members[j].L := by ring
  obtain ⟨e0, e1⟩ := hB.ends hb hc hj 1 zero_le_one le_rfl hx0
  have hk := stiffOf_pos hb j hj
  obtain ⟨p0, q0, q1⟩ := (broken_pair hk e0 e1).2.2 (by ring) (by ring)
  obtain ⟨aL, aR⟩ := hB.alternate hb hc hj (-1) (-1) (by linarith) (by linarith)
  rcases Nat.lt_trichotomy i j with hij | hij | hij
  · have := aL i hij hi x hx
    rw [brokenLine_right (by omega)]
    unfold SupportSign
    rw [if_pos (by omega)]
    exact midSign_of (by rw [← Nat.add_assoc, pow_succ]; linarith)
  · subst hij
    obtain ⟨-, -, o1, o2⟩ := hB.own hb hc hj 1 zero_le_one le_rfl hx0
    have hξ0 : 0 ≤ x / b.members[i].L := div_nonneg hx.1 hLj.le
    have hξ1 : 0 ≤ 1 - x / b.members[i].L := by
      have := div_le_one_of_le₀ hx.2 hLj.le; linarith
    have hxe : x = x / b.members[i].L * b.members[i].L := by field_simp
    obtain ⟨ξ, hξ⟩ : ∃ ξ, ξ = x / b.members[i].L := ⟨_, rfl⟩
    rw [← hξ] at hξ0 hξ1 hxe
    have h1 := mul_nonneg (neg_nonneg.2 p0) (show 0 ≤ ξ * (1 - ξ) ^ 2 by positivity)
    have h2 := mul_nonneg (show 0 ≤ y (2 * i + 3) + 1 by linarith)
      (show 0 ≤ ξ ^ 2 * (1 - ξ) by positivity)
    unfold SupportSign
    rw [if_pos (by omega), if_neg (by rw [← Nat.add_assoc, ← two_mul]; simp)]
    by_cases hlt : x < b.members[i].L
    · rw [brokenLine, if_pos ⟨rfl, hlt⟩, hxe, o1 ξ hξ0 (by linarith)]
      exact mul_nonpos_of_nonneg_of_nonpos hLj.le (by linarith)
    · have e1 : ξ = 1 := by
        rw [hξ, div_eq_one_iff_eq hLj.ne']; exact le_antisymm hx.2 (not_lt.1 hlt)
      rw [brokenLine_right (fun _ => not_lt.1 hlt), hxe, o2 ξ e1.ge e1.le, e1]
      norm_num
  · have := aR i hij hi x hx
    rw [brokenLine_right (by omega)]
    unfold SupportSign
    rw [if_neg (by omega)]
    have h := midSign_of (j := j + 1) (w := -η i x) (by rw [← Nat.add_assoc]; linarith)
    unfold MidSign at h
    split_ifs with he
    · rw [if_pos he] at h; linarith
    · rw [if_neg he] at h; linarith

/-- **C119**, computed influence lines: the ordinates of the influence line of a bending moment
created with a load `P ≥ 0` on a continuous beam.  If the station nearest to the point of
interest is in the middle third of a span, they are positive on that span and of opposite sign
on neighbouring spans; if it is at an end of a span, they are negative on the spans adjacent to
that support, and from there on of opposite sign on neighbouring spans.  Partial: slender
prismatic members. -/
theorem C119_influence_partial (A : Analyser ℝ) (hsol : A.solve.Sound) (hn : 0 < A.npts)
    (b : BeamB ℝ) (hb : b.ForIL) (hsl : b.toDef.Slender []) (hcont : b.toDef.Continuous)
    (step : Option ℝ) (P : ℝ) (hP : 0 ≤ P) (s s' : ILState ℝ)
    (hc : (ILState.new b).create A step P = (s, .ok ())) (hne : s.pos ≠ [])
    (poi : ℝ) (x eta : List ℝ) (hg : s.get A poi .M = (s', .ok (x, eta))) (j q : ℕ)
    (hst : NearestStation b.lens A.npts poi j q) :
    List.Forall₂ (fun z w => 0 ≤ z → z ≤ b.lens.sum →
      ∃ i, ∃ hi : i < b.lens.length, ∃ a, (b.lens.take i).sum + a = z ∧ 0 ≤ a ∧ a ≤ b.lens[i] ∧
        (A.npts ≤ 3 * q → 3 * q ≤ 2 * A.npts → MidSign j i w) ∧
        (q = 0 → SupportSign j i w) ∧ (q = A.npts → SupportSign (j + 1) i w)) x eta := by
  have hlen := toDef_length hb.proper.inStep
  have hj : j < b.toDef.members.length := by rw [hlen]; exact hst.1.1
  have hLm : ∀ i (hi : i < b.lens.length) (hi' : i < b.toDef.members.length),
      b.toDef.members[i].L = b.lens[i] := fun i hi hi' => zipMembers_L _ _ _ _ i hi' hi
  have hjl : j < b.lens.length := hst.1.1
  have hLj := hLm j hjl hj
  have hLpos := hsl.pos _ (List.getElem_mem hj)
  have eL : b.lens.getD j 0 = b.toDef.members[j].L := by
    rw [hLj, List.getD_eq_getElem?_getD, List.getElem?_eq_getElem hjl]; rfl
  have hnR : (0 : ℝ) < A.npts := by exact_mod_cast hn
  have hqR : (q : ℝ) ≤ A.npts := by exact_mod_cast hst.2.1
  have ex0 : (q : ℝ) * (b.lens.getD j 0 / A.npts) = b.toDef.members[j].L * q / A.npts := by
    rw [eL]; ring
  have hx0 : (q : ℝ) * (b.lens.getD j 0 / A.npts) ∈ Icc 0 b.toDef.members[j].L := by
    rw [ex0]
    refine ⟨by positivity, ?_⟩
    rw [div_le_iff₀ hnR]
    exact mul_le_mul_of_nonneg_left hqR hLpos.le
  obtain ⟨y, G, ηl, φl, η, φ, hB⟩ := hcont.broken hsl j hj _ hx0 0 (-1)
  have key := C109_influence_partial A hsol hn b hb hsl step P s s' hc hne poi .M 0 (-1)
    (.inl ⟨rfl, rfl, rfl⟩) x eta hg j q hst y G ηl φl η φ hB
  have hpp : ∀ m ∈ b.toDef.members, m.et ≠ .PP := fun m hm => by rw [hcont.rigid m hm]; simp
  refine key.imp fun z w h z0 z1 => ?_
  obtain ⟨i, hi, a, h1, h2, h3, -, rfl⟩ := h z0 z1 (BeamB.clearOfPins_of b hpp z)
  have hi' : i < b.toDef.members.length := by rw [hlen]; exact hi
  have ha : a ∈ Icc 0 b.toDef.members[i].L := ⟨h2, by rw [hLm i hi hi']; exact h3⟩
  refine ⟨i, hi, a, h1, h2, h3, fun m1 m2 => ?_, fun hq => ?_, fun hq => ?_⟩
  · have m1' : (A.npts : ℝ) ≤ 3 * q := by exact_mod_cast m1
    have m2' : 3 * (q : ℝ) ≤ 2 * A.npts := by exact_mod_cast m2
    have := C119_span_partial _ [] hsl hcont j hj _ (by
        rw [ex0, div_le_div_iff₀ (by norm_num) hnR]
        nlinarith) (by
        rw [ex0, div_le_div_iff₀ hnR (by norm_num)]
        nlinarith) y G ηl φl η φ hB i hi' a ha
    unfold MidSign at this ⊢
    split_ifs at this ⊢
    · exact mul_nonneg hP this
    · exact mul_nonpos_of_nonneg_of_nonpos hP this
  · subst hq
    simp only [Nat.cast_zero, zero_mul] at hB ⊢
    have := C119_support_right_partial _ [] hsl hcont j hj y G ηl φl η φ hB i hi' a ha
    unfold SupportSign at this ⊢
    split_ifs at this ⊢
    · exact mul_nonneg hP this
    · exact mul_nonpos_of_nonneg_of_nonpos hP this
    · exact mul_nonpos_of_nonneg_of_nonpos hP this
    · exact mul_nonneg hP this
  · subst hq
    have e : (A.npts : ℝ) * (b.lens.getD j 0 / A.npts) = b.toDef.members[j].L := by
      rw [eL]; field_simp
    rw [e] at hB ⊢
    have := C119_support_left_partial _ [] hsl hcont j hj y G ηl φl η φ hB i hi' a ha
    unfold SupportSign at this ⊢
    split_ifs at this ⊢
    · exact mul_nonneg hP this
    · exact mul_nonpos_of_nonneg_of_nonpos hP this
    · exact mul_nonpos_of_nonneg_of_nonpos hP this
    · exact mul_nonneg hP this

/-! ### Concrete cases -/

theorem exMB_continuous : exMB.toDef.Continuous := by
  refine ⟨?_, ?_, fun p w h => ?_⟩
  · simp [exMB, BeamB.toDef, zipMembers]
  · intro j hj
    have : j = 0 ∨ j = 1 ∨ j = 2 := by
      simp [exMB, BeamB.toDef, zipMembers] at hj
      omega
    rcases this with rfl | rfl | rfl <;> simp [exMB, BeamB.toDef]
  · rw [exMB_presc] at h
    cases h

/-- Two spans, clamped at the left end: the beam broken in the middle of the first span, at the
start and at the end of the second, with the signs of the lines. -/
example : (∃ y G ηl φl η φ, BrokenBeam exMB.toDef 0 1 0 (-1) y G ηl φl η φ ∧
      (∀ x ∈ Icc (0 : ℝ) 2, 0 ≤ brokenLine 0 1 ηl η 0 x) ∧
      ∀ x ∈ Icc (0 : ℝ) 3, brokenLine 0 1 ηl η 1 x ≤ 0) ∧
    (∃ y G ηl φl η φ, BrokenBeam exMB.toDef 1 0 0 (-1) y G ηl φl η φ ∧
      (∀ x ∈ Icc (0 : ℝ) 2, brokenLine 1 0 ηl η 0 x ≤ 0) ∧
      ∀ x ∈ Icc (0 : ℝ) 3, brokenLine 1 0 ηl η 1 x ≤ 0) ∧
    (∃ y G ηl φl η φ, BrokenBeam exMB.toDef 1 3 0 (-1) y G ηl φl η φ ∧
      (∀ x ∈ Icc (0 : ℝ) 2, 0 ≤ brokenLine 1 3 ηl η 0 x) ∧
      ∀ x ∈ Icc (0 : ℝ) 3, brokenLine 1 3 ηl η 1 x ≤ 0) := by
  have l0 : (0 : ℕ) < exMB.toDef.members.length := by simp [exMB, BeamB.toDef, zipMembers]
  have l1 : (1 : ℕ) < exMB.toDef.members.length := by simp [exMB, BeamB.toDef, zipMembers]
  have L0 : exMB.toDef.members[0].L = 2 := rfl
  have L1 : exMB.toDef.members[1].L = 3 := rfl
  refine ⟨?_, ?_, ?_⟩
  · obtain ⟨y, G, ηl, φl, η, φ, hB⟩ := exMB_continuous.broken exMB_slender 0 l0 1
      ⟨by norm_num, by rw [L0]; norm_num⟩ 0 (-1)
    have h := C119_span_partial _ [] exMB_slender exMB_continuous 0 l0 1 (by rw [L0]; norm_num)
      (by rw [L0]; norm_num) y G ηl φl η φ hB
    exact ⟨y, G, ηl, φl, η, φ, hB, fun x hx => by simpa [MidSign] using h 0 l0 x hx,
      fun x hx => by simpa [MidSign] using h 1 l1 x hx⟩
  · obtain ⟨y, G, ηl, φl, η, φ, hB⟩ := exMB_continuous.broken exMB_slender 1 l1 0
      ⟨le_rfl, by rw [L1]; norm_num⟩ 0 (-1)
    have h := C119_support_right_partial _ [] exMB_slender exMB_continuous 1 l1 y G ηl φl η φ hB
    exact ⟨y, G, ηl, φl, η, φ, hB, fun x hx => by simpa [SupportSign] using h 0 l0 x hx,
      fun x hx => by simpa [SupportSign] using h 1 l1 x hx⟩
  · obtain ⟨y, G, ηl, φl, η, φ, hB⟩ := exMB_continuous.broken exMB_slender 1 l1 3
      ⟨by norm_num, by rw [L1]⟩ 0 (-1)
    have h := C119_support_left_partial _ [] exMB_slender exMB_continuous 1 l1 y G ηl φl η φ hB
    exact ⟨y, G, ηl, φl, η, φ, hB, fun x hx => by simpa [SupportSign, L1] using h 0 l0 x hx,
      fun x hx => by simpa [SupportSign, L1, show ¬ Even 3 by decide] using h 1 l1 x hx⟩

/-- The influence line of the moment over the inner support of the two spans is read, and the
theorem applies to it. -/
example : ∃ s s1 x eta, (ILState.new exMB).create exMBA (some 1) 3 = (s, .ok ()) ∧
    s.get exMBA 2 .M = (s1, .ok (x, eta)) ∧ x.length = 6 ∧
    List.Forall₂ (fun z w => 0 ≤ z → z ≤ exMB.lens.sum → w ≤ 0) x eta := by
  obtain ⟨s, hc, hlen, hb, r0, rest, ⟨j, k⟩, hr, hjk⟩ := exMB_created
  obtain ⟨eta, hord⟩ : ∃ eta, s.get exMBA 2 .M = (s, .ok (s.pos, eta)) := by
    unfold ILState.get
    rw [hr]
    simp only [List.isEmpty_cons, Bool.false_eq_true, if_false, hb, hr, ilOrdinates, hjk]
    exact ⟨_, rfl⟩
  have := C119_influence_partial exMBA anySolver_sound (by simp [exMBA]) exMB exMB_forIL exMB_slender
    exMB_continuous (some 1) 3 (by norm_num) s s hc (by
      intro h0
      rw [h0] at hlen
      simp at hlen) 2 s.pos eta hord 1 0 exMB_nearest
  refine ⟨s, s, s.pos, eta, hc, hord, hlen, this.imp fun z w h z0 z1 => ?_⟩
  obtain ⟨i, hi, a, -, -, -, -, h2, -⟩ := h z0 z1
  have hi2 : i = 0 ∨ i = 1 := by
    have : i < 2 := hi
    omega
  rcases hi2 with rfl | rfl <;> simpa [SupportSign] using h2 rfl

end PyCBA
