import Verif.Nonlinear.Balance
import Verif.Nonlinear.Cases
import Mathlib.Algebra.Order.BigOperators.Group.Finset

/-!
C140: the reported load factor and the bounds of plastic limit analysis.
-/

set_option linter.unusedSectionVars false
set_option linter.unusedSimpArgs false

namespace PyCBA

variable {K : Type*} [Field K] [LinearOrder K] [IsStrictOrderedRing K]

namespace NL

/-! ### The limit analysis of the meshed beam -/

/-- A statically admissible load factor: some nodal moments are in equilibrium with the factored
loads and nowhere exceed the plastic moment. -/
def Safe (c : NL K) (F : ℕ → K) (μ : K) : Prop :=
  ∃ m, c.Balanced (fun p => μ * F p) m ∧ ∀ j ≤ c.nElem, |m j| ≤ c.mp j

/-- The rotation of node `j` in a motion of rigid elements: held where it is restrained, otherwise
that of the element on its right (at the last node, on its left). -/
def rot (c : NL K) (v : ℕ → K) (j : ℕ) : K :=
  if 2 * j + 1 ∈ c.bc then 0 else if j < c.nElem then c.chord v j else c.chord v (j - 1)

/-- The rotation of the hinge at node `j` (at the first node, between the support and the first
element). -/
def kink (c : NL K) (v : ℕ → K) (j : ℕ) : K := c.rot v j - c.chord v (j - 1)

/-- The work of nodal loads in a motion of rigid elements. -/
def work (c : NL K) (F v : ℕ → K) : K :=
  ∑ j ∈ Finset.range (c.nElem + 1), (F (2 * j) * v j + F (2 * j + 1) * c.rot v j)

/-- The work dissipated in the hinges of a motion. -/
def dissipation (c : NL K) (v : ℕ → K) : K :=
  ∑ j ∈ Finset.range (c.nElem + 1), c.mp j * |c.kink v j|

/-- A motion leaves the vertical supports in place. -/
def Held (c : NL K) (v : ℕ → K) : Prop := ∀ j ≤ c.nElem, 2 * j ∈ c.bc → v j = 0

/-- Rotations are restrained at the ends of the beam only. -/
def EndClamps (c : NL K) : Prop := ∀ j, 0 < j → j < c.nElem → 2 * j + 1 ∉ c.bc

theorem work_smul (c : NL K) (F v : ℕ → K) (a : K) :
    c.work (fun p => a * F p) v = a * c.work F v := by
  unfold work
  rw [Finset.mul_sum]
  exact Finset.sum_congr rfl fun j _ => by ring

/-- Virtual work. -/
theorem virtual_work {c : NL K} (g : c.Sized) (hpos : 0 < c.nElem) (hcl : c.EndClamps)
    {G m v : ℕ → K} (hb : c.Balanced G m) (hv : c.Held v) :
    c.work G v = ∑ j ∈ Finset.range (c.nElem + 1), m j * c.kink v j := by
  obtain ⟨k, hk⟩ : ∃ k, c.nElem = k + 1 := ⟨c.nElem - 1, by omega⟩
  have hfree : ∀ i < c.nElem, c.FreeRot i := by
    intro i hi
    rcases Nat.eq_zero_or_pos i with h | h
    · exact Or.inl h
    · exact Or.inr (hcl i h hi)
  set V : ℕ → K := c.shearM G m with hV
  set φ : ℕ → K := c.chord v with hφ
  have hVL : ∀ i < c.nElem, V i * (v (i + 1) - v i) = (leftM G m i + m (i + 1)) * φ i := by
    intro i hi
    have := g.len i hi
    simp only [hV, hφ, shearM, chord]
    field_simp
  -- vertical loads
  have h0 : G 0 * v 0 = V 0 * v 0 := by
    by_cases h : 0 ∈ c.bc
    · rw [hv 0 (by omega) (by simpa using h)]; ring
    · rw [← hb.left hpos h]
  have hn : G (2 * (k + 1)) * v (k + 1) = -V k * v (k + 1) := by
    by_cases h : 2 * (k + 1) ∈ c.bc
    · rw [hv (k + 1) (by omega) h]; ring
    · have := hb.right hpos (by rw [hk]; exact h) (hfree _ (by omega))
      rw [hk] at this
      rw [← this]; simp [hV]
  have hi : ∀ i < k, G (2 * (i + 1)) * v (i + 1) = (V (i + 1) - V i) * v (i + 1) := by
    intro i hi
    by_cases h : 2 * (i + 1) ∈ c.bc
    · rw [hv (i + 1) (by omega) h]; ring
    · have := hb.inner (i + 1) (by omega) (by omega) h (hfree _ (by omega)) (hfree _ (by omega))
      rw [← this]; simp [hV]
  have hvert : ∑ j ∈ Finset.range (k + 2), G (2 * j) * v j
      = -∑ i ∈ Finset.range (k + 1), V i * (v (i + 1) - v i) := by
    rw [Finset.sum_range_succ' _ (k + 1), Finset.sum_range_succ _ k,
      Finset.sum_congr rfl (fun i h => hi i (Finset.mem_range.1 h))]
    simp only [Nat.mul_zero]
    rw [h0, hn]
    simp only [sub_mul, mul_sub, Finset.sum_sub_distrib]
    rw [Finset.sum_range_succ (fun i => V i * v (i + 1)) k, Finset.sum_range_succ' (fun i => V i * v i) k]
    ring
  -- couples and hinges
  have hr0 : m 0 * c.rot v 0 = G 1 * c.rot v 0 := by
    by_cases h : 1 ∈ c.bc
    · unfold rot
      rw [if_pos (by simpa using h)]; ring
    · rw [hb.leftM hpos h]
  have hrn : m (k + 1) * c.rot v (k + 1) = G (2 * (k + 1) + 1) * c.rot v (k + 1) := by
    by_cases h : 2 * (k + 1) + 1 ∈ c.bc
    · unfold rot
      rw [if_pos h]; ring
    · have := hb.rightM hpos (by rw [hk]; exact h)
      rw [hk] at this
      rw [this]
  have hri : ∀ i < k, c.rot v (i + 1) = φ (i + 1) := by
    intro i hi
    unfold rot
    rw [if_neg (hcl _ (by omega) (by omega)), if_pos (by omega)]
  unfold work
  rw [hk, Finset.sum_add_distrib, hvert]
  have e1 : ∑ i ∈ Finset.range (k + 1), V i * (v (i + 1) - v i)
      = (∑ i ∈ Finset.range k, (G (2 * (i + 1) + 1) - m (i + 1)) * φ (i + 1) + m 0 * φ 0)
        + (∑ i ∈ Finset.range k, m (i + 1) * φ i + m (k + 1) * φ k) := by
    rw [Finset.sum_congr rfl fun i h => hVL i (by rw [hk]; exact Finset.mem_range.1 h)]
    simp only [add_mul, Finset.sum_add_distrib]
    rw [Finset.sum_range_succ' (fun i => leftM G m i * φ i) k,
      Finset.sum_range_succ (fun i => m (i + 1) * φ i) k]
    simp [leftM]
  rw [e1, Finset.sum_range_succ' (fun j => G (2 * j + 1) * c.rot v j) (k + 1),
    Finset.sum_range_succ (fun j => G (2 * (j + 1) + 1) * c.rot v (j + 1)) k,
    Finset.sum_range_succ' (fun j => m j * c.kink v j) (k + 1),
    Finset.sum_range_succ (fun j => m (j + 1) * c.kink v (j + 1)) k]
  simp only [Nat.mul_zero, Nat.zero_add]
  rw [← hr0, ← hrn]
  simp only [kink, Nat.add_sub_cancel, ← hφ]
  have s1 : ∑ i ∈ Finset.range k, G (2 * (i + 1) + 1) * c.rot v (i + 1)
      = ∑ i ∈ Finset.range k, G (2 * (i + 1) + 1) * φ (i + 1) :=
    Finset.sum_congr rfl fun i h => by rw [hri i (Finset.mem_range.1 h)]
  have s2 : ∑ i ∈ Finset.range k, m (i + 1) * (c.rot v (i + 1) - φ i)
      = ∑ i ∈ Finset.range k, m (i + 1) * (φ (i + 1) - φ i) :=
    Finset.sum_congr rfl fun i h => by rw [hri i (Finset.mem_range.1 h)]
  rw [s1, s2]
  simp only [sub_mul, mul_sub, Finset.sum_sub_distrib]
  simp only [Nat.zero_sub]
  ring

end NL

/-- **C140**, the bound theorem of limit analysis for the meshed beam: an admissible load factor
does no more work in a motion than its hinges dissipate. -/
theorem C140_bound [FloorRing K] (L : List K) (EI : SpanArg (Rigidity K)) (R : List K)
    (Mp : SpanArg K) (My : Option (SpanArg K)) (q ms : K) (c : NL K)
    (h : NL.new L EI R Mp My q ms = .ok c) (hL : ∀ l ∈ L, 0 < l) (hne : 0 < c.nElem)
    (hcl : c.EndClamps) (F v : ℕ → K) (hv : c.Held v) (μ : K) (hμ : c.Safe F μ) :
    μ * c.work F v ≤ c.dissipation v := by
  obtain ⟨g, -⟩ := NL.new_geo h hL
  obtain ⟨m, hb, hm⟩ := hμ
  rw [← NL.work_smul, NL.virtual_work g.sized hne hcl hb hv]
  refine Finset.sum_le_sum fun j hj => ?_
  calc m j * c.kink v j ≤ |m j * c.kink v j| := le_abs_self _
    _ = |m j| * |c.kink v j| := abs_mul _ _
    _ ≤ _ := mul_le_mul_of_nonneg_right (hm j (by have := Finset.mem_range.1 hj; omega)) (abs_nonneg _)

/-- **C140**, not too high: divided by the greatest ratio of a final moment to the plastic moment,
the reported load factor is statically admissible, so it exceeds no mechanism's load factor by more
than this ratio. -/
theorem C140_static [FloorRing K] (L : List K) (EI : SpanArg (Rigidity K)) (R : List K)
    (Mp : SpanArg K) (My : Option (SpanArg K)) (q ms : K) (c : NL K)
    (h : NL.new L EI R Mp My q ms = .ok c) (hL : ∀ l ∈ L, 0 < l) (hne : 0 < c.nElem)
    (hcl : c.EndClamps) (solve : Solver K) (hs : solve.Sound)
    (deficient : ℕ → (ℕ → ℕ → K) → Bool) (LM : List (Row K)) (lamMax : K)
    (every maxSteps : ℕ) (res : NLResult K)
    (hr : c.analyze solve deficient LM lamMax every maxSteps = .ok res)
    (γ : K) (hγ : 0 < γ) (hm : ∀ j ≤ c.nElem, |res.st.mom j| ≤ γ * c.mp j) :
    ∃ F, c.forces (fun _ => 0) LM = .ok F ∧ c.Safe F (res.lam / γ) ∧
      ∀ v, c.Held v → res.lam * c.work F v ≤ γ * c.dissipation v := by
  obtain ⟨F, hF, hb, -⟩ := C82_static L EI R Mp My q ms c h hL solve hs deficient LM lamMax every
    maxSteps res hr
  have hsafe : c.Safe F (res.lam / γ) := by
    refine ⟨fun j => γ⁻¹ * res.st.mom j, ?_, fun j hj => ?_⟩
    · have e : ∀ i, c.shearM (fun p => res.lam / γ * F p) (fun j => γ⁻¹ * res.st.mom j) i
          = γ⁻¹ * c.shearM (fun p => res.lam * F p) res.st.mom i := by
        intro i
        unfold NL.shearM NL.leftM
        split <;> ring
      refine ⟨?_, ?_, ?_, ?_, ?_⟩
      · intro j h1 h2 h3 h4 h5
        rw [e, e]
        linear_combination γ⁻¹ * hb.inner j h1 h2 h3 h4 h5
      · intro h1 h2
        rw [e]
        linear_combination γ⁻¹ * hb.left h1 h2
      · intro h1 h2 h3
        rw [e]
        linear_combination γ⁻¹ * hb.right h1 h2 h3
      · intro h1 h2
        linear_combination γ⁻¹ * hb.leftM h1 h2
      · intro h1 h2
        linear_combination γ⁻¹ * hb.rightM h1 h2
    · rw [abs_mul, abs_of_pos (inv_pos.2 hγ), inv_mul_le_iff₀ hγ]
      exact hm j hj
  refine ⟨F, hF, hsafe, fun v hv => ?_⟩
  have := C140_bound L EI R Mp My q ms c h hL hne hcl F v hv _ hsafe
  rw [div_mul_eq_mul_div, div_le_iff₀ hγ] at this
  linarith

/-- **C140**, not too low: if the final moments reach the plastic moment, with the sign of the
rotation, at every hinge of some motion on which the loads do work, then no load factor above the
reported one is statically admissible.  (Missing: the code looks at which hinges have formed, not
at their moments now and not at the signs, so its own mechanism test does not give the
hypothesis.) -/
theorem C140_collapse_partial [FloorRing K] (L : List K) (EI : SpanArg (Rigidity K)) (R : List K)
    (Mp : SpanArg K) (My : Option (SpanArg K)) (q ms : K) (c : NL K)
    (h : NL.new L EI R Mp My q ms = .ok c) (hL : ∀ l ∈ L, 0 < l) (hne : 0 < c.nElem)
    (hcl : c.EndClamps) (solve : Solver K) (hs : solve.Sound)
    (deficient : ℕ → (ℕ → ℕ → K) → Bool) (LM : List (Row K)) (lamMax : K)
    (every maxSteps : ℕ) (res : NLResult K)
    (hr : c.analyze solve deficient LM lamMax every maxSteps = .ok res)
    (F v : ℕ → K) (hF : c.forces (fun _ => 0) LM = .ok F) (hv : c.Held v) (hw : 0 < c.work F v)
    (hk : ∀ j ≤ c.nElem, (0 < c.kink v j → c.mp j ≤ res.st.mom j) ∧
      (c.kink v j < 0 → c.mp j ≤ -res.st.mom j)) :
    ∀ μ, c.Safe F μ → μ ≤ res.lam := by
  intro μ hμ
  obtain ⟨g, -⟩ := NL.new_geo h hL
  obtain ⟨F', hF', hb, -⟩ := C82_static L EI R Mp My q ms c h hL solve hs deficient LM lamMax every
    maxSteps res hr
  obtain rfl : F' = F := Except.ok.inj (hF'.symm.trans hF)
  have h1 := C140_bound L EI R Mp My q ms c h hL hne hcl F' v hv μ hμ
  have h2 : c.dissipation v ≤ res.lam * c.work F' v := by
    rw [← NL.work_smul, NL.virtual_work g.sized hne hcl hb hv]
    refine Finset.sum_le_sum fun j hj => ?_
    obtain ⟨k1, k2⟩ := hk j (by have := Finset.mem_range.1 hj; omega)
    rcases lt_trichotomy (c.kink v j) 0 with hn | hz | hp
    · rw [abs_of_neg hn]
      have := k2 hn
      nlinarith
    · rw [hz]; simp
    · rw [abs_of_pos hp]
      exact mul_le_mul_of_nonneg_right (k1 hp) hp.le
  exact le_of_mul_le_mul_right (h1.trans h2) hw

/-! ### A cantilever -/

set_option synthInstance.maxHeartbeats 200000 in
set_option synthInstance.maxSize 2000 in
/-- The cantilever of length 1 and plastic moment 1 under a tip load of 9 times the factor. -/
theorem exCantL_run : ∃ c res F, exCantL = .ok c ∧ exCantLSolver.Sound ∧
    c.analyze exCantLSolver (fun _ _ => true) [⟨1, 2, [9, 1]⟩] (201 / 1000) 1 50000 = .ok res ∧
    c.forces (fun _ => 0) [⟨1, 2, [9, 1]⟩] = .ok F ∧
    res.lam = 201 / 1000 ∧ res.collapsed = false ∧ res.st.mom 0 = 1809 / 1000 ∧ res.st.mom 1 = 0 ∧
    c.nElem = 1 ∧ c.bc = [0, 1] ∧ c.len 0 = 1 ∧ c.mp 0 = 1 ∧ c.mp 1 = 1 ∧
    F 0 = 0 ∧ F 1 = 0 ∧ F 2 = -9 ∧ F 3 = 0 := by
  obtain ⟨r, hr, h⟩ := ok_of_map (x := match exCantL with
      | .error e => .error e
      | .ok c => match c.analyze exCantLSolver (fun _ _ => true) [⟨1, 2, [9, 1]⟩] (201 / 1000) 1 50000,
          c.forces (fun _ => 0) [⟨1, 2, [9, 1]⟩] with
        | .ok res, .ok F => .ok (c, res, F)
        | _, _ => .error PyErr.valueError)
    (f := fun r => ([r.2.1.lam, r.2.1.st.mom 0, r.2.1.st.mom 1, r.1.len 0, r.1.mp 0, r.1.mp 1,
      r.2.2 0, r.2.2 1, r.2.2 2, r.2.2 3], r.2.1.collapsed, r.1.nElem, r.1.bc))
    (y := ([201 / 1000, 1809 / 1000, 0, 1, 1, 1, 0, 0, -9, 0], false, 1, [0, 1])) (by decide +kernel)
  split at hr
  · cases hr
  · rename_i c hc
    split at hr
    · rename_i res F hres hF
      cases hr
      simp only [Prod.mk.injEq, List.cons.injEq, and_true] at h
      obtain ⟨⟨h1, h2, h3, h4, h5, h6, h7, h8, h9, h10⟩, h11, h12, h13⟩ := h
      exact ⟨c, res, F, hc, listSolver_sound _, hres, hF, h1, h11, h2, h3, h12, h13, h4, h5, h6, h7, h8,
        h9, h10⟩
    · cases hr

/-- The downward motion of the cantilever about its clamp. -/
theorem exCantL_motion {c : NL ℚ} {F : ℕ → ℚ} (hn : c.nElem = 1) (hbc : c.bc = [0, 1]) (hl : c.len 0 = 1)
    (m0 : c.mp 0 = 1) (f0 : F 0 = 0) (f1 : F 1 = 0) (f2 : F 2 = -9) (f3 : F 3 = 0) :
    c.EndClamps ∧ c.Held (fun j => -(j : ℚ)) ∧ c.work F (fun j => -(j : ℚ)) = 9 ∧
    c.kink (fun j => -(j : ℚ)) 0 = 1 ∧ c.kink (fun j => -(j : ℚ)) 1 = 0 ∧
    c.dissipation (fun j => -(j : ℚ)) = 1 := by
  have hc0 : c.chord (fun j => -(j : ℚ)) 0 = -1 := by
    unfold NL.chord
    rw [hl]
    norm_num
  have r0 : c.rot (fun j => -(j : ℚ)) 0 = 0 := by
    unfold NL.rot
    rw [hbc, if_pos (by simp)]
  have r1 : c.rot (fun j => -(j : ℚ)) 1 = -1 := by
    unfold NL.rot
    rw [hbc, hn, if_neg (by simp), if_neg (by omega)]
    exact hc0
  have k0 : c.kink (fun j => -(j : ℚ)) 0 = 1 := by
    unfold NL.kink
    rw [r0, hc0]
    norm_num
  have k1 : c.kink (fun j => -(j : ℚ)) 1 = 0 := by
    unfold NL.kink
    rw [r1, hc0]
    norm_num
  refine ⟨fun j h1 h2 => by omega, fun j hj hb => ?_, ?_, k0, k1, ?_⟩
  · rw [hbc] at hb
    have : j = 0 := by simp at hb; omega
    simp [this]
  · unfold NL.work
    rw [hn]
    simp [Finset.sum_range_succ, r0, r1, f0, f1, f2, f3]
  · unfold NL.dissipation
    rw [hn]
    simp [Finset.sum_range_succ, k0, k1, m0]

/-- **C140 fails** for statically determinate beams: the analysis of a cantilever runs to the
requested load factor without collapse, although no factor above 1/9, far below it, is statically
admissible (a single hinge is never taken for a mechanism, C85). -/
theorem C140_determinate_violation :
    ∃ (c : NL ℚ) (solve : Solver ℚ) (res : NLResult ℚ) (F : ℕ → ℚ), exCantL = .ok c ∧ solve.Sound ∧
      c.analyze solve (fun _ _ => true) [⟨1, 2, [9, 1]⟩] (201 / 1000) 1 50000 = .ok res ∧
      c.forces (fun _ => 0) [⟨1, 2, [9, 1]⟩] = .ok F ∧
      res.lam = 201 / 1000 ∧ res.collapsed = false ∧ ∀ μ, c.Safe F μ → μ ≤ 1 / 9 := by
  obtain ⟨c, res, F, hc, hs, hres, hF, h1, h2, h3, h4, hn, hbc, hl, m0, m1, f0, f1, f2, f3⟩ := exCantL_run
  obtain ⟨e1, e2, e3, e4, e5, e6⟩ := exCantL_motion hn hbc hl m0 f0 f1 f2 f3
  refine ⟨c, _, res, F, hc, hs, hres, hF, h1, h2, fun μ hμ => ?_⟩
  have := C140_bound _ _ _ _ _ _ _ c hc (by simp) (by omega) e1 F _ e2 μ hμ
  rw [e3, e6] at this
  linarith

-- C140: both bounds for this run: 1/9 is admissible and no factor above 201/1000
example : ∃ (c : NL ℚ) (res : NLResult ℚ) (F : ℕ → ℚ), exCantL = .ok c ∧
    c.analyze exCantLSolver (fun _ _ => true) [⟨1, 2, [9, 1]⟩] (201 / 1000) 1 50000 = .ok res ∧
    c.Safe F (1 / 9) ∧ ∀ μ, c.Safe F μ → μ ≤ 201 / 1000 := by
  obtain ⟨c, res, F, hc, hs, hres, hF, h1, h2, h3, h4, hn, hbc, hl, m0, m1, f0, f1, f2, f3⟩ := exCantL_run
  obtain ⟨e1, e2, e3, e4, e5, e6⟩ := exCantL_motion hn hbc hl m0 f0 f1 f2 f3
  refine ⟨c, res, F, hc, hres, ?_, ?_⟩
  · obtain ⟨F', hF', hsafe, -⟩ := C140_static _ _ _ _ _ _ _ c hc (by simp) (by omega) e1 _ hs _ _ _ _ _
      res hres (1809 / 1000) (by norm_num) (by
        intro j hj
        have : j = 0 ∨ j = 1 := by omega
        rcases this with rfl | rfl
        · rw [h3, m0]; norm_num [abs_of_pos]
        · rw [h4, m1]; norm_num)
    obtain rfl : F' = F := Except.ok.inj (hF'.symm.trans hF)
    rw [h1] at hsafe
    norm_num at hsafe ⊢
    exact hsafe
  · rw [← h1]
    refine C140_collapse_partial _ _ _ _ _ _ _ c hc (by simp) (by omega) e1 _ hs _ _ _ _ _ res hres F _ hF e2
      (by rw [e3]; norm_num) fun j hj => ?_
    have : j = 0 ∨ j = 1 := by omega
    rcases this with rfl | rfl
    · rw [e4, h3, m0]; norm_num
    · rw [e5]; norm_num

end PyCBA
