import Verif.Modal.Shape
import Verif.Plot.Model

/-!
Model of `ModalResults.plot_modes` and of the lower panel of `ModalResults.plot_results`
(`modal.py` 99-185), with the part of C143 on modes.  Colours, the layout of the figure and the
format of the frequency in the label are not modelled; the schematic above is that of
`Verif/Render`.
-/

set_option linter.unusedSectionVars false
set_option linter.unusedSimpArgs false

namespace PyCBA

/-- One curve of `plot_modes`: the number and the frequency in the label, and the points. -/
structure ModeCurve where
  number : ℤ
  freq : ℝ
  pts : List (ℝ × ℝ)

/-- `a[m]` for an array of `n` entries: negative indices count from the end. -/
def npIndex (n : ℕ) (m : ℤ) : Except PyErr ℕ :=
  if 0 ≤ m ∧ m < n then .ok m.toNat
  else if m < 0 ∧ 0 ≤ m + n then .ok (m + n).toNat
  else .error .indexError

/-- The loop of `plot_modes`, `modal.py` 127-129. -/
noncomputable def modeCurves (res : ModalResult ℝ) (modes : List ℤ) : Except PyErr (List ModeCurve) :=
  mapE (fun m => match npIndex res.modes.length m with
    | .error e => .error e
    | .ok i =>
      let md := res.modes.getD i ⟨0, fun _ => 0⟩
      .ok ⟨m + 1, md.freq, (List.range res.x.length).map fun q =>
        (res.x.getD q 0, modeShape (res.x.length - 1) md.phi q)⟩) modes

/-- The modes that `plot_results` draws, `modal.py` 166-167. -/
def shownModes (res : ModalResult ℝ) (modes : Option (List ℤ)) : List ℤ :=
  match modes with
  | some ms => ms
  | none => (List.range (min 3 res.modes.length)).map fun i : ℕ => (i : ℤ)

/-- `plot_results` with its call of `plot_modes`, `modal.py` 119-134, 166-185 (a single
number is taken as a list of one). -/
noncomputable def plotModes (res : ModalResult ℝ) (modes : Option (List ℤ)) : Except PyErr (List ModeCurve) :=
  modeCurves res (shownModes res modes)

/-- What a curve of mode `k` (counted from zero) should be: numbered from one, with its frequency, a
point at every node of the mesh, and the deflections of the mode times one factor. -/
def ModeCurve.Of (c : ModeCurve) (res : ModalResult ℝ) (k : ℕ) (hk : k < res.modes.length) : Prop :=
  c.number = k + 1 ∧ c.freq * (2 * Real.pi) = res.modes[k].omega ∧ c.pts.map Prod.fst = res.x ∧
  (∃ s, s ≠ 0 ∧ ∀ q < res.x.length, (c.pts.getD q (0, 0)).2 = s * res.modes[k].phi (2 * q)) ∧
  ∀ q < res.x.length, |(c.pts.getD q (0, 0)).2| ≤ 1

theorem npIndex_nat {n k : ℕ} (h : k < n) : npIndex n (k : ℤ) = .ok k := by
  unfold npIndex
  rw [if_pos ⟨by omega, by omega⟩]
  simp

/-- **C143**, modes: by default the first three modes (or all, if fewer) are drawn, in order; modes
asked for by number are drawn in the order asked for; a number out of range raises
`IndexError`. -/
theorem C143_modes (res : ModalResult ℝ) (hx : res.x ≠ []) :
    (∃ cs, plotModes res none = .ok cs ∧ cs.length = min 3 res.modes.length ∧
      ∀ k (hk : k < cs.length) (hk' : k < res.modes.length), cs[k].Of res k hk') ∧
    (∀ ks : List ℕ, (∀ k ∈ ks, k < res.modes.length) → ∃ cs, plotModes res (some (ks.map Int.ofNat)) = .ok cs ∧
      List.Forall₂ (fun c k => ∃ hk : k < res.modes.length, ModeCurve.Of c res k hk) cs ks) ∧
    (∀ (ks : List ℤ) (k : ℤ), k ∈ ks → (res.modes.length : ℤ) ≤ k →
      plotModes res (some ks) = .error .indexError) := by
  have hxl : 0 < res.x.length := List.length_pos_iff.2 hx
  have one : ∀ k, ∀ hk : k < res.modes.length, (⟨(k : ℤ) + 1, (res.modes[k]).freq,
      (List.range res.x.length).map fun q => (res.x.getD q 0, modeShape (res.x.length - 1) res.modes[k].phi q)⟩ :
      ModeCurve).Of res k hk := by
    intro k hk
    have hp : ∀ q < res.x.length, ((((List.range res.x.length).map fun q =>
        (res.x.getD q 0, modeShape (res.x.length - 1) res.modes[k].phi q)).getD q (0, 0)).2)
        = modeShape (res.x.length - 1) res.modes[k].phi q := by
      intro q hq
      simp [List.getD_eq_getElem?_getD, hq]
    refine ⟨rfl, ?_, ?_, ?_, ?_⟩
    · show res.modes[k].omega / (2 * Real.pi) * (2 * Real.pi) = _
      have := Real.pi_ne_zero
      field_simp
    · rw [List.map_map]
      refine List.ext_getElem (by simp) fun i h1 h2 => ?_
      simp [List.getD_eq_getElem?_getD, h2]
    · by_cases h : ∃ q ≤ res.x.length - 1, res.modes[k].phi (2 * q) ≠ 0
      · obtain ⟨⟨c, hc, h1⟩, -⟩ := C107_shape_partial (res.x.length - 1) res.modes[k].phi h
        exact ⟨c, hc, fun q hq => by rw [hp q hq, h1]⟩
      · push Not at h
        refine ⟨1, one_ne_zero, fun q hq => ?_⟩
        rw [hp q hq, modeShape_zero _ _ h q (by omega), h q (by omega), mul_zero]
    · intro q hq
      rw [hp q hq]
      by_cases h : ∃ q ≤ res.x.length - 1, res.modes[k].phi (2 * q) ≠ 0
      · exact (C107_shape_partial (res.x.length - 1) res.modes[k].phi h).2.1 q (by omega)
      · push Not at h
        rw [modeShape_zero _ _ h q (by omega), abs_zero]
        exact zero_le_one
  have many : ∀ ks : List ℕ, (∀ k ∈ ks, k < res.modes.length) →
      ∃ cs, modeCurves res (ks.map Int.ofNat) = .ok cs ∧
      List.Forall₂ (fun c k => ∃ hk : k < res.modes.length, ModeCurve.Of c res k hk) cs ks := by
    intro ks
    induction ks with
    | nil => intro _; exact ⟨[], rfl, .nil⟩
    | cons k ks ih =>
      intro h
      obtain ⟨cs, h1, h2⟩ := ih fun j hj => h j (List.mem_cons_of_mem _ hj)
      have hk := h k List.mem_cons_self
      have hk1 := one k hk
      unfold modeCurves at h1 ⊢
      rw [List.map_cons, mapE]
      have e : npIndex res.modes.length (Int.ofNat k) = .ok k := npIndex_nat hk
      simp only [e, h1]
      refine ⟨_, rfl, .cons ⟨hk, ?_⟩ h2⟩
      rw [List.getD_eq_getElem?_getD, List.getElem?_eq_getElem hk, Option.getD_some]
      exact hk1
  refine ⟨?_, many, ?_⟩
  · obtain ⟨cs, h1, h2⟩ := many (List.range (min 3 res.modes.length)) (by
      intro k hk
      rw [List.mem_range] at hk
      omega)
    refine ⟨cs, h1, by rw [h2.length_eq, List.length_range], ?_⟩
    intro k hk hk'
    have hl := h2.length_eq
    rw [List.length_range] at hl
    obtain ⟨hk2, h3⟩ := List.Forall₂.get h2 hk (by rw [List.length_range]; omega)
    simpa using h3
  · intro ks k hk hle
    show modeCurves res ks = _
    have bad : ∀ m : ℤ, (∃ i, npIndex res.modes.length m = .ok i) ∨ npIndex res.modes.length m = .error .indexError := by
      intro m
      unfold npIndex
      split_ifs
      · exact Or.inl ⟨_, rfl⟩
      · exact Or.inl ⟨_, rfl⟩
      · exact Or.inr rfl
    unfold modeCurves
    induction ks with
    | nil => cases hk
    | cons m ms ih =>
      rw [mapE]
      rcases bad m with ⟨i, hm⟩ | hm
      · rcases List.mem_cons.1 hk with rfl | hk
        · unfold npIndex at hm
          rw [if_neg (by omega), if_neg (by omega)] at hm
          cases hm
        · simp only [hm, ih hk]
      · simp only [hm]

/-- **C143**, modes of a run: every curve drawn by default spans the mesh of the beam and passes
through zero at every node with a rigid vertical support. -/
theorem C143_modes_supports (b : BeamDef ℝ) (mass : MassArg ℝ) (nModes nseg : ℕ) (eigh : Eigh ℝ)
    (hS : eigh.Sound) (res : ModalResult ℝ) (h : solveModal b mass nModes nseg eigh = .ok res)
    (hne : b.members ≠ []) (hL : ∀ m ∈ b.members, 0 < m.L)
    (hE : ∀ m ∈ b.members, ∀ e, m.EI = .const e → 0 < e)
    (hm : ∀ ms, broadcastMass mass b.members.length = .ok ms → ∀ m ∈ ms, 0 < m) :
    ∃ cs, plotModes res none = .ok cs ∧ cs.length = min 3 res.modes.length ∧
      ∀ c ∈ cs, c.pts.length = b.members.length * nseg + 1 ∧
        ∀ j ≤ b.members.length, b.restraints.getD (2 * j) 0 = -1 →
          c.pts.getD (j * nseg) (0, 1) = ((b.members.map Member.L).take j |>.sum, 0) := by
  obtain ⟨hx, -, hx2⟩ := C107_nodes b mass nModes nseg eigh res h hne hL
  obtain ⟨EIs, ms, -, -, -, -, -, -, h6⟩ := C69_modes b mass nModes nseg eigh hS res h hne hL hE hm
  have hne' : res.x ≠ [] := by
    intro h0
    rw [h0] at hx
    simp at hx
  obtain ⟨⟨cs, h1, h2, h3⟩, -⟩ := C143_modes res hne'
  refine ⟨cs, h1, h2, fun c hc => ?_⟩
  obtain ⟨k, hk, rfl⟩ := List.getElem_of_mem hc
  have hk' : k < res.modes.length := by omega
  obtain ⟨-, -, c3, ⟨s, -, c4⟩, -⟩ := h3 k hk hk'
  have hlen : cs[k].pts.length = b.members.length * nseg + 1 := by
    rw [← hx, ← c3, List.length_map]
  refine ⟨hlen, fun j hj hr => ?_⟩
  have hq : j * nseg < res.x.length := by
    have := Nat.mul_le_mul_right nseg hj
    omega
  have hz := (h6 _ (List.getElem_mem hk')).2.2.1 (2 * j) (by omega) hr
  have he : meshDof nseg (2 * j) = 2 * (j * nseg) := by
    have e2 : 2 * j / 2 = j := by omega
    unfold meshDof
    rw [e2]
    omega
  rw [he] at hz
  have a1 := c4 _ hq
  rw [hz, mul_zero] at a1
  have a2 := hx2 j hj 0 (Nat.zero_le _) (by simpa using hq)
  simp only [Nat.add_zero, Nat.cast_zero, zero_mul, add_zero] at a2
  have hq' : j * nseg < cs[k].pts.length := by omega
  have a3 : res.x.getD (j * nseg) 0 = (cs[k].pts.getD (j * nseg) (0, 1)).1 := by
    rw [← c3]
    simp [List.getD_eq_getElem?_getD, hq']
  have a4 : (cs[k].pts.getD (j * nseg) (0, 1)).2 = 0 := by
    rw [← a1]
    simp [List.getD_eq_getElem?_getD, hq']
  exact Prod.ext (by rw [← a3, a2]) a4

-- a span on two supports
example : ∃ res cs, solveModal modalSpan (.scalar 420) 2 1 anyEigh = .ok res ∧ plotModes res none = .ok cs ∧
    ∀ c ∈ cs, c.pts.length = 2 := by
  obtain ⟨res, h⟩ := modalSpan_ok
  obtain ⟨y1, y2, y3, y4⟩ := modalSpan_hyp
  obtain ⟨cs, h1, -, h3⟩ := C143_modes_supports modalSpan (.scalar 420) 2 1 anyEigh anyEigh_sound res h y1 y2 y3 y4
  exact ⟨res, cs, h, h1, fun c hc => by rw [(h3 c hc).1]; simp [modalSpan]⟩

-- a result with two modes on three nodes
example : (⟨[⟨1, fun p => ([0, 1, -3, 1, 1, 1] : List ℝ).getD p 0⟩, ⟨2, fun _ => 1⟩], [0, 1, 2]⟩ :
    ModalResult ℝ).x ≠ [] := by simp

end PyCBA
