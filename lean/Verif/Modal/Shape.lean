import Verif.Modal.Exists
import Verif.Bridge.Crit

/-!
C107: `ModalResults`, `modal.py` 75-101: frequencies in Hz, periods, the coordinates of the
nodes of the mesh and the normalised mode shapes; examples for C106.
-/

set_option linter.unusedSectionVars false
set_option linter.unusedSimpArgs false

namespace PyCBA

open Matrix Finset

variable {K : Type*} [Field K] [LinearOrder K] [IsStrictOrderedRing K]

/-! ## Model -/

/-- `self.f = self.omega / (2 * np.pi)`, `modal.py` 77. -/
noncomputable def Mode.freq (md : Mode ℝ) : ℝ := md.omega / (2 * Real.pi)

/-- `self.periods`, `modal.py` 78-79: `np.inf` is `none`. -/
noncomputable def Mode.period (md : Mode ℝ) : Option ℝ :=
  if 0 < md.freq then some (1 / md.freq) else none

/-- `mode_shape`, `modal.py` 86-99, for `n + 1` nodes: `phi[0::2]` divided by its largest
absolute value unless that is zero, turned over if the first entry of largest absolute value
is negative. -/
def modeShape (n : ℕ) (phi : ℕ → K) : ℕ → K :=
  let v := fun q => phi (2 * q)
  let vmax := rowMax n fun q => |v q|
  let v' := if 0 < vmax then fun q => v q / vmax else v
  if v' (argMax n fun q => |v' q|) < 0 then fun q => - v' q else v'

/-! ## Nodes of the mesh -/

theorem meshNodes_eq (N n : ℕ) (L : ℕ → K) :
    meshNodes N n L = (List.range (N * n + 1)).map fun q => ∑ e ∈ range q, L (e / n) / n := by
  have inner : ∀ (h : K) (s : ℕ) (xs : List K), xs ≠ [] →
      (List.range s).foldl (fun xs _ => xs ++ [xs.getLastD 0 + h]) xs
        = xs ++ (List.range s).map fun t : ℕ => xs.getLastD 0 + ((t : K) + 1) * h := by
    intro h s xs hxs
    induction s with
    | zero => simp
    | succ s ih =>
      rw [List.range_succ, List.foldl_append, ih, List.map_append, ← List.append_assoc]
      simp only [List.foldl_cons, List.foldl_nil, List.map_cons, List.map_nil]
      congr 2
      cases s with
      | zero => simp
      | succ s =>
        rw [List.range_succ, List.map_append, ← List.append_assoc]
        simp only [List.map_cons, List.map_nil, List.getLastD_concat]
        push_cast
        ring
  unfold meshNodes
  induction N with
  | zero => simp
  | succ N ih =>
    rw [List.range_succ, List.foldl_append, ih]
    simp only [List.foldl_cons, List.foldl_nil]
    rw [inner _ _ _ (by simp)]
    have hlast : ((List.range (N * n + 1)).map fun q => ∑ e ∈ range q, L (e / n) / (n : K)).getLastD 0
        = ∑ e ∈ range (N * n), L (e / n) / (n : K) := by
      rw [List.range_succ, List.map_append]
      simp
    rw [hlast, show (N + 1) * n + 1 = (N * n + 1) + n by ring, @List.range_add (N * n + 1) n,
      List.map_append, List.map_map]
    congr 1
    apply List.map_congr_left
    intro t ht
    have ht := List.mem_range.1 ht
    simp only [Function.comp]
    rw [show N * n + 1 + t = N * n + (t + 1) by ring, Finset.sum_range_add]
    congr 1
    have : ∀ s ∈ range (t + 1), L ((N * n + s) / n) / (n : K) = L N / n := by
      intro s hs
      have hs := Finset.mem_range.1 hs
      rw [(node_div (by omega)).1]
    rw [Finset.sum_congr rfl this, Finset.sum_const, card_range, nsmul_eq_mul]
    push_cast
    ring

/-- **C107**, nodes: the coordinates start at zero, increase, and reach each support exactly:
entry `j * nseg` is the sum of the first `j` span lengths; every span is divided into `nseg`
equal parts. -/
theorem C107_nodes (b : BeamDef ℝ) (mass : MassArg ℝ) (nModes nseg : ℕ) (eigh : Eigh ℝ)
    (res : ModalResult ℝ) (h : solveModal b mass nModes nseg eigh = .ok res)
    (hne : b.members ≠ []) (hL : ∀ m ∈ b.members, 0 < m.L) :
    res.x.length = b.members.length * nseg + 1 ∧ res.x.Pairwise (· < ·) ∧
    (∀ j ≤ b.members.length, ∀ s ≤ nseg, j * nseg + s < res.x.length →
      res.x.getD (j * nseg + s) 0 = ((b.members.map Member.L).take j).sum
        + s * ((b.members.map Member.L).getD j 0 / nseg)) := by
  have hpre : 0 < nseg ∧ res.x = meshNodes b.members.length nseg fun i =>
      (b.members.map Member.L).getD i 0 := by
    unfold solveModal at h
    split at h
    · cases h
    split at h
    · cases h
    split at h
    · cases h
    rename_i hns
    have hn : 0 < nseg := by
      rcases Nat.eq_zero_or_pos nseg with h0 | h0
      · exact absurd ⟨h0, hne⟩ hns
      · exact h0
    split at h
    · cases h
    simp only at h
    split at h
    · cases h
    cases h
    exact ⟨hn, rfl⟩
  obtain ⟨hn, hx⟩ := hpre
  have hn' : (0 : ℝ) < nseg := by exact_mod_cast hn
  have hLpos : ∀ l ∈ b.members.map Member.L, 0 < l := by
    intro l hl
    obtain ⟨m, hm, rfl⟩ := List.mem_map.1 hl
    exact hL m hm
  rw [meshNodes_eq] at hx
  have hlen : res.x.length = b.members.length * nseg + 1 := by rw [hx]; simp
  refine ⟨hlen, ?_, ?_⟩
  · rw [hx, List.pairwise_map]
    refine List.Pairwise.imp_of_mem ?_ (List.pairwise_lt_range (n := b.members.length * nseg + 1))
    intro p q hp hq hpq
    have hq := List.mem_range.1 hq
    obtain ⟨t, rfl⟩ : ∃ t, q = p + (t + 1) := ⟨q - p - 1, by omega⟩
    rw [Finset.sum_range_add]
    have : 0 < ∑ s ∈ range (t + 1), (b.members.map Member.L).getD ((p + s) / nseg) 0 / (nseg : ℝ) := by
      apply Finset.sum_pos
      · intro s hs
        have hs := Finset.mem_range.1 hs
        refine div_pos (getD_pos hLpos ?_) hn'
        rw [List.length_map]
        exact div_lt_spans (by omega)
      · exact ⟨0, by simp⟩
    linarith
  · intro j hj s hs hlt
    have e1 : res.x.getD (j * nseg + s) 0
        = ∑ e ∈ range (j * nseg + s), elemLen (b.members.map Member.L) nseg e := by
      rw [List.getD_eq_getElem?_getD, List.getElem?_eq_getElem hlt, Option.getD_some]
      simp only [hx, List.getElem_map, List.getElem_range]
      rfl
    rw [e1, Finset.sum_range_add, supportAt_eq b hn hj, supportAt]
    congr 1
    have : ∀ t ∈ range s, elemLen (b.members.map Member.L) nseg (j * nseg + t)
        = (b.members.map Member.L).getD j 0 / nseg := by
      intro t ht
      have ht := Finset.mem_range.1 ht
      rw [elemLen, (node_div (by omega)).1]
    rw [Finset.sum_congr rfl this, Finset.sum_const, card_range, nsmul_eq_mul]

/-! ## Frequencies and periods -/

/-- **C107**, frequencies: `ω = 2π f`, and the period is `1 / f = 2π / ω`, infinite exactly
for a frequency of zero. -/
theorem C107_period (md : Mode ℝ) (h : 0 ≤ md.omega) :
    md.omega = 2 * Real.pi * md.freq ∧
    (∀ T, md.period = some T → md.freq * T = 1 ∧ md.omega * T = 2 * Real.pi ∧ 0 < T) ∧
    (md.period = none ↔ md.omega = 0) := by
  have hp := Real.pi_pos
  refine ⟨?_, ?_, ?_⟩
  · rw [Mode.freq]; field_simp
  · intro T hT
    unfold Mode.period at hT
    split at hT
    · rename_i hf
      cases hT
      refine ⟨by field_simp, ?_, by positivity⟩
      have : md.omega = 2 * Real.pi * md.freq := by rw [Mode.freq]; field_simp
      rw [this]
      field_simp
    · cases hT
  · unfold Mode.period
    have : 0 < md.freq ↔ 0 < md.omega := by
      rw [Mode.freq]
      constructor
      · intro hf
        by_contra hc
        have : md.omega = 0 := le_antisymm (not_lt.1 hc) h
        rw [this] at hf
        simp at hf
      · intro hf; positivity
    by_cases hc : 0 < md.omega
    · rw [if_pos (this.2 hc)]
      simp [hc.ne']
    · rw [if_neg fun hf => hc (this.1 hf)]
      simp [le_antisymm (not_lt.1 hc) h]

/-! ## Mode shapes -/

theorem rowMax_abs_pos (n : ℕ) (v : ℕ → K) : 0 < rowMax n (fun q => |v q|) ↔ ∃ q ≤ n, v q ≠ 0 := by
  obtain ⟨⟨i, hi, e⟩, hub⟩ := rowMax_isGreatest n fun q => |v q|
  constructor
  · intro h
    refine ⟨i, hi, ?_⟩
    rw [← e] at h
    exact abs_pos.1 h
  · rintro ⟨q, hq, hv⟩
    exact (abs_pos.2 hv).trans_le (hub ⟨q, hq, rfl⟩)

/-- The first node of largest amplitude. -/
theorem modeShape_eq (n : ℕ) (phi : ℕ → K) (h : ∃ q ≤ n, phi (2 * q) ≠ 0) :
    ∃ i ≤ n, phi (2 * i) ≠ 0 ∧ (∀ q ≤ n, |phi (2 * q)| ≤ |phi (2 * i)|) ∧
      (∀ q < i, |phi (2 * q)| < |phi (2 * i)|) ∧
      ∀ q, modeShape n phi q = phi (2 * q) / phi (2 * i) := by
  obtain ⟨-, hub⟩ := rowMax_isGreatest n fun q => |phi (2 * q)|
  have hpos := (rowMax_abs_pos n fun q => phi (2 * q)).2 h
  set M := rowMax n fun q => |phi (2 * q)| with hM
  obtain ⟨g1, g2, g3⟩ := argMax_spec n fun q => |phi (2 * q) / M|
  obtain ⟨⟨i0, hi0, e0⟩, hub0⟩ := rowMax_isGreatest n fun q => |phi (2 * q)|
  obtain ⟨-, hub1⟩ := rowMax_isGreatest n fun q => |phi (2 * q) / M|
  set i := argMax n fun q => |phi (2 * q) / M| with hi
  have hdiv : ∀ q, |phi (2 * q) / M| = |phi (2 * q)| / M := by
    intro q; rw [abs_div, abs_of_pos hpos]
  have hmax : |phi (2 * i)| = M := by
    apply le_antisymm (hub ⟨i, g1, rfl⟩)
    have h1 : |phi (2 * i0) / M| ≤ |phi (2 * i) / M| := by rw [g2]; exact hub1 ⟨i0, hi0, rfl⟩
    rw [hdiv, hdiv] at h1
    have h2 := (div_le_div_iff_of_pos_right hpos).1 h1
    have e0 : |phi (2 * i0)| = M := e0
    rwa [e0] at h2
  have hne : phi (2 * i) ≠ 0 := by rw [← abs_pos, hmax]; exact hpos
  refine ⟨i, g1, hne, fun q hq => by rw [hmax]; exact hub ⟨q, hq, rfl⟩, ?_, ?_⟩
  · intro q hq
    have h1 := g3 q hq
    rw [← g2, hdiv, hdiv] at h1
    exact (div_lt_div_iff_of_pos_right hpos).1 h1
  · intro q
    unfold modeShape
    simp only
    rw [← hM, if_pos hpos, ← hi]
    split
    · rename_i hneg
      have hlt : phi (2 * i) < 0 := by
        by_contra hc
        exact absurd hneg (not_lt.2 (div_nonneg (not_lt.1 hc) hpos.le))
      rw [abs_of_neg hlt] at hmax
      simp only
      rw [← hmax, div_neg, neg_neg]
    · rename_i hnn
      have hge : 0 ≤ phi (2 * i) := by
        by_contra hc
        exact hnn (div_neg_of_neg_of_pos (not_le.1 hc) hpos)
      rw [abs_of_nonneg hge] at hmax
      rw [← hmax]

/-- **C107**, mode shapes: when some node moves vertically in the mode, the reported shape is
proportional to the deflections of the mode, lies between -1 and 1, and reaches +1.  The full
claim - unit amplitude for every mode - fails when every node of the mesh is a support
(`C107_flat_violation`). -/
theorem C107_shape_partial (n : ℕ) (phi : ℕ → K) (h : ∃ q ≤ n, phi (2 * q) ≠ 0) :
    (∃ c, c ≠ 0 ∧ ∀ q, modeShape n phi q = c * phi (2 * q)) ∧
    (∀ q ≤ n, |modeShape n phi q| ≤ 1) ∧
    (∃ q ≤ n, modeShape n phi q = 1) := by
  obtain ⟨i, hi, hne, hmax, -, he⟩ := modeShape_eq n phi h
  refine ⟨⟨1 / phi (2 * i), one_div_ne_zero hne, fun q => by rw [he]; ring⟩, ?_, ?_⟩
  · intro q hq
    rw [he, abs_div]
    exact div_le_one_of_le₀ (hmax q hq) (abs_nonneg _)
  · exact ⟨i, hi, by rw [he, div_self hne]⟩

theorem modeShape_zero (n : ℕ) (phi : ℕ → K) (h : ∀ q ≤ n, phi (2 * q) = 0) :
    ∀ q ≤ n, modeShape n phi q = 0 := by
  have hnp : ¬ 0 < rowMax n fun q => |phi (2 * q)| := by
    rw [rowMax_abs_pos n fun q => phi (2 * q)]
    push Not
    exact h
  intro q hq
  unfold modeShape
  simp only
  rw [if_neg hnp]
  split
  · simp only
    rw [h q hq, neg_zero]
  · exact h q hq

/-- **C107**, scale: the reported shape does not depend on the size or the sign of the
eigenvector. -/
theorem C107_scale (n : ℕ) (phi : ℕ → K) (c : K) (hc : c ≠ 0) (q : ℕ) (hq : q ≤ n) :
    modeShape n (fun p => c * phi p) q = modeShape n phi q := by
  by_cases h : ∃ q ≤ n, phi (2 * q) ≠ 0
  · obtain ⟨i, hi, hne, hmax, hfirst, he⟩ := modeShape_eq n phi h
    have h' : ∃ q ≤ n, (fun p => c * phi p) (2 * q) ≠ 0 := by
      obtain ⟨q, hq, hn⟩ := h
      exact ⟨q, hq, mul_ne_zero hc hn⟩
    obtain ⟨j, hj, hne', hmax', hfirst', he'⟩ := modeShape_eq n (fun p => c * phi p) h'
    simp only [abs_mul] at hmax' hfirst'
    have hc' := abs_pos.2 hc
    have hij : i = j := by
      rcases lt_trichotomy i j with hlt | heq | hgt
      · have h1 := lt_of_mul_lt_mul_left (hfirst' i hlt) hc'.le
        exact absurd (hmax j hj) (not_le.2 h1)
      · exact heq
      · have h1 := hfirst j hgt
        have h2 := le_of_mul_le_mul_left (hmax' i hi) hc'
        exact absurd h2 (not_le.2 h1)
    subst hij
    rw [he, he']
    field_simp
  · push Not at h
    rw [modeShape_zero n phi h q hq, modeShape_zero n _ (fun q hq => by rw [h q hq, mul_zero]) q hq]

/-! ## Examples and the exception -/

theorem modalSpan_hyp : modalSpan.members ≠ [] ∧ (∀ m ∈ modalSpan.members, 0 < m.L) ∧
    (∀ m ∈ modalSpan.members, ∀ e, m.EI = .const e → 0 < e) ∧
    ∀ ms, broadcastMass (.scalar 420) modalSpan.members.length = .ok ms → ∀ m ∈ ms, (0 : ℝ) < m := by
  refine ⟨by simp [modalSpan], by simp [modalSpan, prism], ?_, ?_⟩
  · intro m hm e he
    simp only [modalSpan, List.mem_singleton] at hm
    subst hm
    cases he
    norm_num
  · intro ms h m hm
    simp only [broadcastMass] at h
    cases h
    rw [List.eq_of_mem_replicate hm]
    norm_num

/-- C107 fails for a span analysed as one element: its modes do not move the two nodes, and
the reported mode shape is zero although the beam vibrates. -/
theorem C107_flat_violation : ∃ res, solveModal modalSpan (.scalar 420) 2 1 anyEigh = .ok res ∧
    ∃ md ∈ res.modes, (∃ p < 4, md.phi p ≠ 0) ∧ 0 < md.omega ∧
      ∀ q ≤ 1, modeShape 1 md.phi q = 0 := by
  obtain ⟨res, h⟩ := modalSpan_ok
  obtain ⟨y1, y2, y3, y4⟩ := modalSpan_hyp
  obtain ⟨EIs, ms, -, -, -, h4, -, -, h6⟩ := C69_modes modalSpan (.scalar 420) 2 1 anyEigh
    anyEigh_sound res h y1 y2 y3 y4
  obtain ⟨EIs, ms, free, lam, v, q1, q2, S⟩ := solveModal_solved anyEigh_sound h y1 y2 y3 y4
  have hE : EIs = [1] := by
    have : mapE modalEI modalSpan.members = .ok [(1 : ℝ)] := rfl
    rw [this] at q1
    exact (Except.ok.inj q1).symm
  have hfree : free = [1, 3] := by
    have := S.free_eq
    rw [hE] at this
    rw [this, ← modalSpan_free]
    simp [modalSpan, prism, modalFree]
  have hlen : 0 < res.modes.length := by
    rw [S.len, hfree]
    simp
  refine ⟨res, h, res.modes[0], List.getElem_mem _, ?_, ?_, ?_⟩
  · exact (h6 _ (List.getElem_mem _)).2.1
  · refine (C106_positive modalSpan (.scalar 420) 2 1 anyEigh anyEigh_sound res h y1 y2 y3 y4
      hlen).2 ?_ _ (List.getElem_mem _)
    intro a t hat
    have a0 := (hat 0 (by simp [modalSpan])).1 (by simp [modalSpan])
    have a1 := (hat 1 (by simp [modalSpan])).1 (by simp [modalSpan])
    simp [supportAt, modalSpan, prism] at a0 a1
    subst a0
    exact ⟨rfl, by linarith⟩
  · have hz : ∀ q ≤ 1, res.modes[0].phi (2 * q) = 0 := by
      intro q hq
      have := (h6 _ (List.getElem_mem hlen)).2.2.1 (2 * q) (by simp [modalSpan]; omega) (by
        interval_cases q <;> simp [modalSpan])
      rwa [meshDof, show 2 * (2 * q / 2 * 1) + 2 * q % 2 = 2 * q by omega] at this
    exact modeShape_zero 1 _ hz

/-- `C107_shape_partial` and `C107_scale` on deflections `0, -3, 1`: the shape is `0, 1, -1/3`. -/
example : (∃ q ≤ 2, ([0, 1, -3, 1, 1, 1] : List ℚ).getD (2 * q) 0 ≠ 0) ∧
    (List.range 3).map (modeShape 2 fun p => ([0, 1, -3, 1, 1, 1] : List ℚ).getD p 0)
      = [0, 1, -1 / 3] := by
  decide +kernel

/-- A span of two pieces fixed at one end, and the same span heavier, softer and on a
finer mesh with one end free. -/
noncomputable def modalCant (e : ℝ) (rs : List ℝ) : BeamDef ℝ where
  members := [prism e 1, prism e 2]
  restraints := rs
  presc := [none, none, none, none, none, none]
  LM := []

theorem modalCant_ok (e : ℝ) (rs : List ℝ) (hr : rs.length = 6) (m : ℝ) (hm : 0 < m)
    (nModes nseg : ℕ) (hn : 0 < nseg) :
    ∃ res, solveModal (modalCant e rs) (.scalar m) nModes nseg anyEigh = .ok res := by
  refine solveModal_completes (modalCant e rs) (.scalar m) nModes nseg [e, e] [m, m] rfl rfl hn
    (by simp [modalCant]) (by simp [modalCant, hr]) (by simp [modalCant, prism]) ?_
  intro x hx
  simp at hx
  rw [hx]
  exact hm

/-- `C106_frequencies`: a propped two-span beam on a mesh of 2 elements per span vibrates at
least as fast as the softer, heavier beam without the prop and with a weaker spring on a mesh
of 6. -/
example : ∃ res res',
    solveModal (modalCant 1 [-1, -1, 3, 0, 0, 0]) (.scalar 7) 5 6 anyEigh = .ok res ∧
    solveModal (modalCant 2 [-1, -1, 5, 0, -1, 0]) (.scalar 4) 5 2 anyEigh = .ok res' ∧
    ∀ (k : ℕ) (hk : k < res.modes.length) (hk' : k < res'.modes.length),
      res.modes[k].omega ≤ res'.modes[k].omega := by
  obtain ⟨res, h⟩ := modalCant_ok 1 [-1, -1, 3, 0, 0, 0] rfl 7 (by norm_num) 5 6 (by norm_num)
  obtain ⟨res', h'⟩ := modalCant_ok 2 [-1, -1, 5, 0, -1, 0] rfl 4 (by norm_num) 5 2 (by norm_num)
  refine ⟨res, res', h, h', ?_⟩
  refine C106_frequencies _ _ _ _ 5 5 2 3 anyEigh anyEigh anyEigh_sound anyEigh_sound res res' h h'
    (by simp [modalCant]) (by simp [modalCant, prism]) ?_ ?_ ?_ ?_
  · intro m hm e he
    simp [modalCant] at hm
    rcases hm with rfl | rfl <;> cases he <;> norm_num
  · intro ms' h m hm
    simp only [broadcastMass] at h
    cases h
    rw [List.eq_of_mem_replicate hm]
    norm_num
  · constructor
    · refine .cons ⟨rfl, ?_⟩ (.cons ⟨rfl, ?_⟩ .nil)
      all_goals
        intro e e' h1 h2
        cases h1; cases h2
        norm_num
    · intro P hP
      simp only [modalCant, List.length_cons, List.length_nil] at hP ⊢
      interval_cases P <;> norm_num
  · intro ms ms' h1 h2
    simp only [broadcastMass, modalCant, List.length_cons, List.length_nil] at h1 h2
    cases h1; cases h2
    simp [List.replicate]
    norm_num

/-- `C106_rayleigh` applies to the simply supported span. -/
example : ∃ res : ModalResult ℝ, solveModal modalSpan (.scalar 420) 2 4 anyEigh = .ok res ∧
    0 < res.modes.length := by
  obtain ⟨y1, y2, y3, y4⟩ := modalSpan_hyp
  obtain ⟨res, h⟩ := solveModal_completes modalSpan (.scalar 420) 2 4 [1] [420] rfl rfl (by norm_num) y1
    (by simp [modalSpan]) y2 (by simp)
  refine ⟨res, h, ?_⟩
  obtain ⟨EIs, ms, free, lam, v, q1, q2, S⟩ := solveModal_solved anyEigh_sound h y1 y2 y3 y4
  rw [S.len]
  have : 1 ∈ free := by
    rw [S.free_mem]
    refine ⟨by omega, ?_⟩
    rintro ⟨P, hP, e1, e2⟩
    simp only [modalSpan, List.length_cons, List.length_nil] at hP
    simp only [meshDof] at e1
    have : P = 1 := by omega
    subst this
    norm_num [modalSpan] at e2
  have := List.length_pos_of_mem this
  omega

end PyCBA
