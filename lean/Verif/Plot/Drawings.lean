import Verif.Bridge.Vehicle
import Verif.Plot.Model
import Verif.Prestress.Props
import Verif.Prestress.Spans
import Verif.Section.Props

/-!
Model of the drawings of vehicles (`vehicle.py` 125-162), of variable sections (`section.py`
457-521) and of tendons (`prestress.py` 467-538), with C147.  Colours, line widths, titles, grids
and the way numbers are written are not modelled; the schematics of panels (a) and (c) of
`plot_tendon` are those of `BeamPlotter` (`Verif/Render`), of which this says only which loads they
are given.
-/

set_option linter.unusedSectionVars false
set_option linter.unusedSimpArgs false

namespace PyCBA

variable {K : Type*} [Field K] [LinearOrder K] [IsStrictOrderedRing K]

/-! ### Vehicles: the model -/

/-- An axle as drawn: where the arrow is, how high it starts, the number written over it. -/
structure AxleArrow (K : Type*) where
  x : K
  h : K
  label : K

/-- The drawing of a vehicle: arrows, the two ends of the base line, the numbers of the caption,
and the label of the axis. -/
structure VehiclePlot (K : Type*) where
  arrows : List (AxleArrow K)
  base : K × K
  total : K
  wheelbase : K
  xlabel : String

/-- `wmax`, `vehicle.py` 139. -/
def axleMax (axw : List K) : K := (axw.map fun w => |w|).max?.getD 1

/-- The height of an arrow, `vehicle.py` 141. -/
def axleHeight (wmax w : K) : K := 2 / 5 + 3 / 5 * (if wmax ≠ 0 then |w| / wmax else 1)

/-- `plot_vehicle`, `vehicle.py` 125-162, of a vehicle; `np.min` of no coordinates raises. -/
def plotVehicle (us : UnitSystem) (v : Vehicle K) : Except PyErr (VehiclePlot K) :=
  match v.coords.min?, v.coords.max? with
  | some x0, some x1 => .ok
    { arrows := (v.coords.zip v.axw).map fun p => ⟨p.1, axleHeight (axleMax v.axw) p.2, p.2⟩
      base := (x0, max x1 (x0 + 1 / 10))
      total := v.W
      wheelbase := v.L
      xlabel := "Position along vehicle" ++ unitSuffix us.length }
  | _, _ => .error .valueError

/-! ### Vehicles: C147 -/

theorem axleMax_spec {axw : List K} (hne : axw ≠ []) :
    (∃ w ∈ axw, |w| = axleMax axw) ∧ ∀ w ∈ axw, |w| ≤ axleMax axw := by
  obtain ⟨m, hm⟩ : ∃ m, (axw.map fun w => |w|).max? = some m :=
    Option.ne_none_iff_exists'.1 (by simpa [List.max?_eq_none_iff] using hne)
  have h1 := List.max?_mem hm
  obtain ⟨w, hw, e⟩ := List.mem_map.1 h1
  refine ⟨⟨w, hw, by rw [axleMax, hm]; exact e⟩, fun w' hw' => ?_⟩
  rw [axleMax, hm]
  exact (List.max?_le_iff hm).1 le_rfl _ (List.mem_map.2 ⟨w', hw', rfl⟩)

theorem axleCoords_bounds (x : K) (l : List K) (hl : ∀ s ∈ l, 0 ≤ s) :
    (axleCoords x l).min? = some x ∧ (axleCoords x l).max? = some (x + l.sum) := by
  have hx : ∀ c ∈ axleCoords x l, x ≤ c ∧ c ≤ x + l.sum := by
    intro c hc
    obtain ⟨i, hi, rfl⟩ := List.getElem_of_mem hc
    rw [axleCoords_get]
    have h1 : 0 ≤ (l.take i).sum := List.sum_nonneg fun s hs => hl s (List.mem_of_mem_take hs)
    have h2 : 0 ≤ (l.drop i).sum := List.sum_nonneg fun s hs => hl s (List.mem_of_mem_drop hs)
    have h3 : l.sum = (l.take i).sum + (l.drop i).sum := by
      rw [← List.sum_append, List.take_append_drop]
    constructor <;> linarith
  have m0 : x ∈ axleCoords x l := by cases l <;> simp [axleCoords]
  have m1 : x + l.sum ∈ axleCoords x l := by
    have hi : l.length < (axleCoords x l).length := by rw [axleCoords_length]; omega
    have := axleCoords_get x l l.length hi
    rw [List.take_length] at this
    rw [← this]
    exact List.getElem_mem hi
  constructor
  · exact List.min?_eq_some_iff.2 ⟨m0, fun c hc => (hx c hc).1⟩
  · exact List.max?_eq_some_iff.2 ⟨m1, fun c hc => (hx c hc).2⟩

/-- A vehicle with the given spacings and weights, however often it was turned round in place. -/
def TurnedRound (axs axw : List K) (v : Vehicle K) : Prop :=
  ∃ v₀ k, Vehicle.new axs axw = .ok v₀ ∧ v = Vehicle.reverseInPlace^[k] v₀

theorem TurnedRound.shape {axs axw : List K} {v : Vehicle K} (h : TurnedRound axs axw v) :
    axs.length + 1 = axw.length ∧ v.axw = axw ∧ v.L = axs.sum ∧ v.W = axw.sum ∧
      (v.coords = axleCoords 0 axs ∨ v.coords = (axleCoords 0 axs).map fun c => axs.sum - c) := by
  obtain ⟨v₀, k, h0, rfl⟩ := h
  obtain ⟨hl, rfl⟩ := Vehicle.new_ok h0
  refine ⟨hl, ?_⟩
  clear h0
  induction k with
  | zero => exact ⟨rfl, rfl, rfl, .inl rfl⟩
  | succ k ih =>
    rw [Function.iterate_succ_apply']
    obtain ⟨a, b, c, d⟩ := ih
    refine ⟨a, b, c, ?_⟩
    simp only [Vehicle.reverseInPlace, b]
    rcases d with d | d
    · rw [d]; exact .inr rfl
    · rw [d]
      refine .inl ?_
      rw [List.map_map]
      conv_rhs => rw [← List.map_id (axleCoords 0 axs)]
      refine List.map_congr_left fun c _ => ?_
      simp

/-- **C147**, vehicles: every vehicle with spacings that are not negative, turned round in place any
number of times, is drawn; with one arrow for each axle, in the order of the weights, at the
coordinate of that axle and labelled with its weight; arrows are between 0.4 and 1 high, higher for
heavier axles, and the heaviest is 1; the total of the caption is the sum of the labels, and the
wheelbase the distance between the first and the last arrow, which the base line spans (or a
tenth, if the axles are closer). -/
theorem C147_vehicle (us : UnitSystem) (axs axw : List K) (hs : ∀ s ∈ axs, 0 ≤ s) (v : Vehicle K)
    (hv : TurnedRound axs axw v) :
    ∃ pl, plotVehicle us v = .ok pl ∧
      pl.arrows.map (fun a => a.label) = axw ∧
      pl.arrows.map (fun a => a.x) = v.coords ∧
      (∀ a ∈ pl.arrows, 2 / 5 ≤ a.h ∧ a.h ≤ 1) ∧
      (∀ a ∈ pl.arrows, ∀ a' ∈ pl.arrows, |a.label| < |a'.label| → a.h < a'.h) ∧
      (∀ a ∈ pl.arrows, ∀ a' ∈ pl.arrows, |a.label| = |a'.label| → a.h = a'.h) ∧
      (∃ a ∈ pl.arrows, a.h = 1) ∧
      pl.total = (pl.arrows.map fun a => a.label).sum ∧
      (∃ a ∈ pl.arrows, ∃ a' ∈ pl.arrows, (∀ c ∈ pl.arrows, a.x ≤ c.x ∧ c.x ≤ a'.x) ∧
        pl.wheelbase = a'.x - a.x ∧ pl.base.1 = a.x ∧ pl.base.2 = a.x + max pl.wheelbase (1 / 10)) := by
  obtain ⟨hl, e1, e2, e3, hc⟩ := hv.shape
  have hbd : v.coords.min? = some 0 ∧ v.coords.max? = some axs.sum := by
    obtain ⟨b1, b2⟩ := axleCoords_bounds 0 axs hs
    rw [zero_add] at b2
    rcases hc with hc | hc
    · rw [hc]; exact ⟨b1, b2⟩
    · obtain ⟨m1, l1⟩ := List.min?_eq_some_iff.1 b1
      obtain ⟨m2, l2⟩ := List.max?_eq_some_iff.1 b2
      rw [hc]
      constructor
      · refine List.min?_eq_some_iff.2 ⟨List.mem_map.2 ⟨_, m2, sub_self _⟩, fun c hc => ?_⟩
        obtain ⟨d, hd, rfl⟩ := List.mem_map.1 hc
        exact sub_nonneg.2 (l2 d hd)
      · refine List.max?_eq_some_iff.2 ⟨List.mem_map.2 ⟨_, m1, sub_zero _⟩, fun c hc => ?_⟩
        obtain ⟨d, hd, rfl⟩ := List.mem_map.1 hc
        linarith [l1 d hd]
  have hlen : v.coords.length = axw.length := by
    rcases hc with hc | hc <;> rw [hc] <;> simp [axleCoords_length, hl]
  have hne : axw ≠ [] := by
    intro h; rw [h] at hl; simp at hl
  obtain ⟨⟨w0, hw0, e0⟩, hmax⟩ := axleMax_spec hne
  have h0max : 0 ≤ axleMax axw := by rw [← e0]; exact abs_nonneg _
  have hmem : ∀ a ∈ (v.coords.zip v.axw).map
      fun p : K × K => (⟨p.1, axleHeight (axleMax v.axw) p.2, p.2⟩ : AxleArrow K),
      a.label ∈ axw ∧ a.x ∈ v.coords ∧ a.h = axleHeight (axleMax axw) a.label := by
    intro a ha
    obtain ⟨p, hp, rfl⟩ := List.mem_map.1 ha
    obtain ⟨h1, h2⟩ := List.of_mem_zip (a := p.1) (b := p.2) hp
    exact ⟨by rw [← e1]; exact h2, h1, by rw [e1]⟩
  have hlab : ((v.coords.zip v.axw).map
      fun p : K × K => (⟨p.1, axleHeight (axleMax v.axw) p.2, p.2⟩ : AxleArrow K)).map
      (fun a => a.label) = axw := by
    rw [List.map_map, e1]
    exact List.map_snd_zip (by omega)
  have hx : ((v.coords.zip v.axw).map
      fun p : K × K => (⟨p.1, axleHeight (axleMax v.axw) p.2, p.2⟩ : AxleArrow K)).map
      (fun a => a.x) = v.coords := by
    rw [List.map_map, e1]
    exact List.map_fst_zip (by omega)
  have hpl : plotVehicle us v = .ok
      { arrows := (v.coords.zip v.axw).map fun p => ⟨p.1, axleHeight (axleMax v.axw) p.2, p.2⟩
        base := (0, max axs.sum (0 + 1 / 10))
        total := v.W
        wheelbase := v.L
        xlabel := "Position along vehicle" ++ unitSuffix us.length } := by
    unfold plotVehicle
    rw [hbd.1, hbd.2]
  refine ⟨_, hpl, hlab, hx, ?_, ?_, ?_, ?_, ?_, ?_⟩
  · intro a ha
    obtain ⟨h1, _, h3⟩ := hmem a ha
    rw [h3, axleHeight]
    by_cases hz : axleMax axw ≠ 0
    · rw [if_pos hz]
      have hp : 0 < axleMax axw := lt_of_le_of_ne h0max (Ne.symm hz)
      have u1 : |a.label| / axleMax axw ≤ 1 := (div_le_one hp).2 (hmax _ h1)
      have u0 : 0 ≤ |a.label| / axleMax axw := by positivity
      constructor <;> linarith
    · rw [if_neg hz]; norm_num
  · intro a ha a' ha' hlt
    obtain ⟨h1, _, h3⟩ := hmem a ha
    obtain ⟨h1', _, h3'⟩ := hmem a' ha'
    have hp : 0 < axleMax axw := lt_of_lt_of_le (lt_of_le_of_lt (abs_nonneg _) hlt) (hmax _ h1')
    rw [h3, h3', axleHeight, axleHeight, if_pos hp.ne', if_pos hp.ne']
    have := div_lt_div_of_pos_right hlt hp
    linarith
  · intro a ha a' ha' heq
    obtain ⟨_, _, h3⟩ := hmem a ha
    obtain ⟨_, _, h3'⟩ := hmem a' ha'
    rw [h3, h3', axleHeight, axleHeight, heq]
  · have : w0 ∈ ((v.coords.zip v.axw).map
      fun p : K × K => (⟨p.1, axleHeight (axleMax v.axw) p.2, p.2⟩ : AxleArrow K)).map
      (fun a => a.label) := by rw [hlab]; exact hw0
    obtain ⟨a, ha, ea⟩ := List.mem_map.1 this
    refine ⟨a, ha, ?_⟩
    rw [(hmem a ha).2.2, ea, axleHeight, e0]
    by_cases hz : axleMax axw ≠ 0
    · rw [if_pos hz, div_self hz]; norm_num
    · rw [if_neg hz]; norm_num
  · rw [hlab]; exact e3
  · obtain ⟨m1, l1⟩ := List.min?_eq_some_iff.1 hbd.1
    obtain ⟨m2, l2⟩ := List.max?_eq_some_iff.1 hbd.2
    rw [← hx] at m1 m2
    obtain ⟨a, ha, ea⟩ := List.mem_map.1 m1
    obtain ⟨a', ha', ea'⟩ := List.mem_map.1 m2
    refine ⟨a, ha, a', ha', fun c hc => ?_, ?_, ?_, ?_⟩
    · rw [ea, ea']
      obtain ⟨_, h2, _⟩ := hmem c hc
      exact ⟨l1 _ h2, l2 _ h2⟩
    · rw [ea, ea', sub_zero]; exact e2
    · exact ea.symm
    · rw [ea]
      simp only [e2, zero_add]

/-- C147 at a truck of three axles that was turned round once. -/
example : ∃ v : Vehicle ℚ, TurnedRound [4, 2] [5, 10, 3] v ∧ ∃ pl, plotVehicle .SI v = .ok pl ∧
    pl.arrows.map (fun a => (a.x, a.h, a.label)) = [(6, 7 / 10, 5), (2, 1, 10), (0, 29 / 50, 3)] ∧
    pl.total = 18 ∧ pl.wheelbase = 6 ∧ pl.base = (0, 6) :=
  ⟨_, ⟨_, 1, rfl, rfl⟩, _, rfl, by decide +kernel, by decide +kernel, by decide +kernel, by decide +kernel⟩

/-! ### Sections: the model -/

/-- `np.isclose(a, b, rtol, atol)`. -/
def isCloseTo (rtol atol a b : K) : Prop := |a - b| ≤ atol + rtol * |b|

instance (rtol atol a b : K) : Decidable (isCloseTo rtol atol a b) := by unfold isCloseTo; infer_instance

/-- `_kind`, `section.py` 467-468. -/
def pieceKind (d : ℕ) : String :=
  if d = 0 then "const" else if d = 1 then "linear" else "poly (deg " ++ toString d ++ ")"

/-- What is drawn for one piece: the outline, the annotation, and the riser before it. -/
structure SectionCurve (K : Type*) where
  pts : List (K × K)
  note : (K × K) × String
  riser : Option ((K × K) × (K × K))

/-- `total_len`, `section.py` 471-472. -/
def sectionTotal (ps : List (Piece K)) : K :=
  let s := (ps.map fun p => max (p.x1 - p.x0) 0).sum
  if 0 < s then s else 1

/-- `npts`, `section.py` 482; `rnd` is `round`. -/
def piecePoints (rnd : K → ℤ) (n : ℕ) (total : K) (p : Piece K) : ℕ :=
  max 2 (rnd ((n : K) * (p.x1 - p.x0) / total)).toNat

/-- The outline of a piece, `section.py` 483-484. -/
def piecePts (npts : ℕ) (p : Piece K) : List (K × K) :=
  (linspaceN p.x0 p.x1 npts).map fun x => (x, p.eval x)

/-- The loop over the pieces, `section.py` 479-511; `prev` is `(prev_x1, prev_y1)`.  The default
relative tolerance of `np.isclose` is `1e-5`. -/
def sectionCurves (npts : Piece K → ℕ) (len : K) : Option (K × K) → List (Piece K) →
    List (SectionCurve K)
  | _, [] => []
  | prev, p :: ps =>
    let pts := piecePts (npts p) p
    let ys := pts.map Prod.snd
    { pts := pts
      note := ((1 / 2 * (p.x0 + p.x1), 1 / 2 * ys.max?.getD 0), pieceKind p.degree)
      riser := prev.bind fun q =>
        if isCloseTo (1 / 10 ^ 5) (1 / 10 ^ 9 * max 1 len) p.x0 q.1 ∧
            ¬ isCloseTo (1 / 10 ^ 9) 0 (ys.headD 0) q.2
        then some ((p.x0, q.2), (p.x0, ys.headD 0)) else none }
      :: sectionCurves npts len (some (p.x1, ys.getLastD 0)) ps

/-- The drawing of a section. -/
structure SectionPlot (K : Type*) where
  curves : List (SectionCurve K)
  dotted : List K
  xlim : K × K

/-- `SectionEI.plot`, `section.py` 457-521, with breakpoints and annotations. -/
def Sec.plot (rnd : K → ℤ) (n : ℕ) (t : Sec K) : Except PyErr (SectionPlot K) :=
  if t.pieces = [] then .error .valueError
  else .ok
    { curves := sectionCurves (piecePoints rnd n (sectionTotal t.pieces)) t.length none t.pieces
      dotted := t.breakpoints
      xlim := (t.x0, t.fin) }

/-! ### Sections: C147 -/

theorem linspaceN_bounds {a b : K} (hab : a ≤ b) {n : ℕ} {x : K} (hx : x ∈ linspaceN a b n) :
    a ≤ x ∧ x ≤ b := by
  unfold linspaceN at hx
  obtain ⟨i, hi, rfl⟩ := List.mem_map.1 hx
  rw [List.mem_range] at hi
  have h1 : ((i : ℕ) : K) ≤ ((n - 1 : ℕ) : K) := by exact_mod_cast (by omega : i ≤ n - 1)
  have h0 : (0 : K) ≤ (i : K) := Nat.cast_nonneg i
  have hd : 0 ≤ b - a := by linarith
  constructor
  · have : 0 ≤ (i : K) * ((b - a) / ((n - 1 : ℕ) : K)) :=
      mul_nonneg h0 (div_nonneg hd (Nat.cast_nonneg _))
    linarith
  · rcases Nat.eq_zero_or_pos (n - 1) with h | h
    · have : i = 0 := by omega
      subst this
      simpa using hab
    · have hn : (0 : K) < ((n - 1 : ℕ) : K) := by exact_mod_cast h
      have : (i : K) * ((b - a) / ((n - 1 : ℕ) : K)) ≤ b - a := by
        rw [← mul_div_assoc, div_le_iff₀ hn]
        nlinarith
      linarith

theorem linspaceN_head? (a b : K) {n : ℕ} (hn : 2 ≤ n) : (linspaceN a b n).head? = some a := by
  obtain ⟨m, rfl⟩ : ∃ m, n = m + 1 := ⟨n - 1, by omega⟩
  simp [linspaceN, List.head?_range]

theorem linspaceN_getLast? (a b : K) {n : ℕ} (hn : 2 ≤ n) : (linspaceN a b n).getLast? = some b := by
  obtain ⟨m, rfl⟩ : ∃ m, n = m + 1 := ⟨n - 1, by omega⟩
  have hm : ((m : ℕ) : K) ≠ 0 := by exact_mod_cast (by omega : m ≠ 0)
  simp only [linspaceN, List.getLast?_map, List.getLast?_range, Nat.add_sub_cancel]
  simp only [Nat.add_eq_zero_iff, one_ne_zero, and_false, if_false, Option.map_some, Option.some.injEq]
  field_simp
  ring

theorem linspaceN_increasing {a b : K} (hab : a < b) {n : ℕ} (hn : 2 ≤ n) :
    (linspaceN a b n).Pairwise (· < ·) := by
  unfold linspaceN
  rw [List.pairwise_map]
  refine List.pairwise_lt_range.imp fun {i j} hij => ?_
  have hd : 0 < (b - a) / ((n - 1 : ℕ) : K) :=
    div_pos (by linarith) (by exact_mod_cast (by omega : 0 < n - 1))
  have hij' : (i : K) < j := by exact_mod_cast hij
  have := mul_lt_mul_of_pos_right hij' hd
  linarith

/-- What C147 says of the drawing of one piece: points of the piece, from its left to its right
end, and a note at the middle which says what kind of piece it is. -/
structure SectionCurve.Of (p : Piece K) (c : SectionCurve K) : Prop where
  first : c.pts.head? = some (p.x0, p.eval p.x0)
  last : c.pts.getLast? = some (p.x1, p.eval p.x1)
  on : ∀ q ∈ c.pts, p.x0 ≤ q.1 ∧ q.1 ≤ p.x1 ∧ q.2 = p.eval q.1
  increasing : (c.pts.map Prod.fst).Pairwise (· < ·)
  centre : c.note.1.1 = (p.x0 + p.x1) / 2
  kind : c.note.2 = pieceKind p.degree

/-- Two curves meet: the second starts where the first ends, with the same value to a part in
10⁹ and no riser, or with a riser from the one value to the other. -/
def SectionCurve.Meets (c c' : SectionCurve K) : Prop :=
  ∃ x y y', c.pts.getLast? = some (x, y) ∧ c'.pts.head? = some (x, y') ∧
    (c'.riser = none ∧ |y' - y| ≤ 1 / 10 ^ 9 * |y| ∨ c'.riser = some ((x, y), (x, y')))

theorem piecePts_of {npts : ℕ} (hn : 2 ≤ npts) (p : Piece K) (hp : p.x0 < p.x1) :
    (piecePts npts p).head? = some (p.x0, p.eval p.x0) ∧
    (piecePts npts p).getLast? = some (p.x1, p.eval p.x1) ∧
    (∀ q ∈ piecePts npts p, p.x0 ≤ q.1 ∧ q.1 ≤ p.x1 ∧ q.2 = p.eval q.1) ∧
    ((piecePts npts p).map Prod.fst).Pairwise (· < ·) := by
  unfold piecePts
  refine ⟨?_, ?_, ?_, ?_⟩
  · rw [List.head?_map, linspaceN_head? _ _ hn]; rfl
  · rw [List.getLast?_map, linspaceN_getLast? _ _ hn]; rfl
  · intro q hq
    obtain ⟨x, hx, rfl⟩ := List.mem_map.1 hq
    exact ⟨(linspaceN_bounds hp.le hx).1, (linspaceN_bounds hp.le hx).2, rfl⟩
  · rw [List.map_map]
    have : (Prod.fst ∘ fun x => (x, p.eval x)) = (id : K → K) := rfl
    rw [this, List.map_id]
    exact linspaceN_increasing hp hn

theorem sectionCurves_ok (npts : Piece K → ℕ) (hn : ∀ p, 2 ≤ npts p) (len : K) (ps : List (Piece K)) :
    ∀ (a b : K) (prev : Option (K × K)), Joined a ps b → (∀ q, prev = some q → q.1 = a) →
      List.Forall₂ SectionCurve.Of ps (sectionCurves npts len prev ps) ∧
      List.IsChain SectionCurve.Meets (sectionCurves npts len prev ps) ∧
      (prev = none → ∀ c, (sectionCurves npts len prev ps).head? = some c → c.riser = none) ∧
      ∀ q, prev = some q → ∀ c, (sectionCurves npts len prev ps).head? = some c →
        ∃ y', c.pts.head? = some (a, y') ∧
          (c.riser = none ∧ |y' - q.2| ≤ 1 / 10 ^ 9 * |q.2| ∨ c.riser = some ((a, q.2), (a, y'))) := by
  induction ps with
  | nil =>
    intro a b prev _ _
    refine ⟨.nil, .nil, fun _ c hc => ?_, fun _ _ c hc => ?_⟩ <;> simp [sectionCurves] at hc
  | cons p ps ih =>
    intro a b prev hj hprev
    obtain ⟨ha, hlt, hj'⟩ := hj
    obtain ⟨f1, f2, f3, f4⟩ := piecePts_of (hn p) p hlt
    have hhead : ((piecePts (npts p) p).map Prod.snd).headD 0 = p.eval p.x0 := by
      rw [List.headD_eq_head?_getD, List.head?_map, f1]; rfl
    have hlast : ((piecePts (npts p) p).map Prod.snd).getLastD 0 = p.eval p.x1 := by
      rw [List.getLastD_eq_getLast?, List.getLast?_map, f2]; rfl
    obtain ⟨i1, i2, i3, i4⟩ := ih p.x1 b
      (some (p.x1, ((piecePts (npts p) p).map Prod.snd).getLastD 0)) hj' (by rintro q ⟨⟩; rfl)
    unfold sectionCurves
    dsimp only
    refine ⟨.cons ⟨f1, f2, f3, f4, by ring, rfl⟩ i1, ?_, ?_, ?_⟩
    · rw [List.isChain_cons]
      refine ⟨fun c hc => ?_, i2⟩
      obtain ⟨y', g1, g2⟩ := i4 _ rfl c hc
      rw [hlast] at g2
      exact ⟨p.x1, p.eval p.x1, y', f2, g1, g2⟩
    · rintro rfl c hc
      simp only [List.head?_cons, Option.some.injEq] at hc
      subst hc
      rfl
    · rintro q rfl c hc
      simp only [List.head?_cons, Option.some.injEq] at hc
      subst hc
      have hq := hprev q rfl
      refine ⟨p.eval p.x0, by rw [f1, ha], ?_⟩
      have hx : isCloseTo (1 / 10 ^ 5) (1 / 10 ^ 9 * max 1 len) p.x0 q.1 := by
        unfold isCloseTo
        rw [hq, ha, sub_self, abs_zero]
        have : (0 : K) < max 1 len := lt_of_lt_of_le one_pos (le_max_left _ _)
        positivity
      simp only [Option.bind_some, hhead]
      by_cases hy : isCloseTo (1 / 10 ^ 9) 0 (p.eval p.x0) q.2
      · left
        rw [if_neg fun h => h.2 hy]
        unfold isCloseTo at hy
        rw [zero_add] at hy
        exact ⟨rfl, hy⟩
      · right
        rw [if_pos ⟨hx, hy⟩, ha]

theorem joined_before {a b : K} {ps : List (Piece K)} (h : Joined a ps b) {p : Piece K} (hp : p ∈ ps) :
    a ≤ p.x0 := by
  induction ps generalizing a with
  | nil => simp at hp
  | cons q ps ih =>
    rcases List.mem_cons.1 hp with rfl | hp
    · exact h.1.ge
    · have := ih h.2.2 hp
      have h1 := h.1
      have h2 := h.2.1
      linarith

/-- In a joined list of pieces, a coordinate clear of the tolerance after the start of a piece is
given to that piece. -/
theorem joined_find_self {a b : K} (ps : List (Piece K)) (h : Joined a ps b) {p : Piece K} (hp : p ∈ ps)
    {x : K} (h0 : p.x0 ≤ x) (h1 : x ≤ p.x1) (hc : p.x0 + 1 / 10 ^ 12 < x ∨ p.x0 = a) :
    (ps.find? fun p => decide (p.x0 - 1 / 10 ^ 12 ≤ x ∧ x ≤ p.x1 + 1 / 10 ^ 12)) = some p := by
  have hε : (0 : K) < 1 / 10 ^ 12 := by positivity
  induction ps generalizing a with
  | nil => simp at hp
  | cons q ps ih =>
    rcases List.mem_cons.1 hp with rfl | hp'
    · rw [List.find?_cons_of_pos]
      simp only [decide_eq_true_eq]
      constructor <;> linarith
    · have hb := joined_before h.2.2 hp'
      have h2 := h.2.1
      have h3 := h.1
      have hc' : p.x0 + 1 / 10 ^ 12 < x := hc.resolve_right (by intro e; linarith)
      rw [List.find?_cons_of_neg]
      · exact ih h.2.2 hp' (.inl hc')
      · simp only [decide_eq_true_eq]
        intro h'
        linarith [h'.2]

/-- **C147**, sections: a section of segments that follow one another is drawn, whatever the number
of points and however it is rounded.  There is one outline for each piece, in order, through points
of the piece from its left to its right end, with its kind written at the middle; the first starts
at the left end of the section and the last ends at its right end; consecutive outlines meet, or
are joined by a riser.  Every point of an outline shows the rigidity of the section there, unless
it lies in the `1e-12` after the start of a later piece, and is positive if no segment is
polynomial.  Dotted lines are at the breakpoints.  A section without segments is not drawn. -/
theorem C147_section (fit : Fit K) (rnd : K → ℤ) (n : ℕ) (segs : List (Seg K)) (t : Sec K)
    (hne : segs ≠ []) (h : Sec.empty.build fit segs = .ok t) (ha : Abut 0 segs) :
    Sec.empty.plot rnd n = (.error .valueError : Except PyErr (SectionPlot K)) ∧
    ∃ pl, t.plot rnd n = .ok pl ∧
      List.Forall₂ SectionCurve.Of t.pieces pl.curves ∧
      List.IsChain SectionCurve.Meets pl.curves ∧
      (∀ c, pl.curves.head? = some c → c.riser = none) ∧
      (∃ c y, pl.curves.head? = some c ∧ c.pts.head? = some (0, y)) ∧
      (∃ c y, pl.curves.getLast? = some c ∧ c.pts.getLast? = some (t.fin, y)) ∧
      (∀ c ∈ pl.curves, ∀ q₀, c.pts.head? = some q₀ → ∀ q ∈ c.pts,
        (q₀.1 + 1 / 10 ^ 12 < q.1 ∨ q₀.1 = 0) → t.eval q.1 = .ok (some q.2)) ∧
      ((∀ s ∈ segs, s.kind ≠ .poly) → ∀ c ∈ pl.curves, ∀ q ∈ c.pts, 0 < q.2) ∧
      pl.dotted = t.breakpoints ∧ pl.xlim = (0, t.fin) := by
  refine ⟨by simp [Sec.plot, Sec.empty], ?_⟩
  obtain ⟨g, nn, hp⟩ := Sec.build_good segs Sec.empty t Sec.empty_good ha h
  have hn := nn (Or.inr hne)
  obtain ⟨s1, s2, s3, -⟩ := sectionCurves_ok (piecePoints rnd n (sectionTotal t.pieces))
    (fun p => le_max_left _ _) t.length t.pieces 0 t.fin none g.joined nofun
  have hof : ∀ c ∈ sectionCurves (piecePoints rnd n (sectionTotal t.pieces)) t.length none t.pieces,
      ∃ p ∈ t.pieces, SectionCurve.Of p c := by
    intro c hc
    obtain ⟨i, hi, rfl⟩ := List.getElem_of_mem hc
    have hi' : i < t.pieces.length := by rw [s1.length_eq]; exact hi
    exact ⟨t.pieces[i], List.getElem_mem _, s1.get hi' hi⟩
  refine ⟨_, by unfold Sec.plot; rw [if_neg hn], s1, s2, s3 rfl, ?_, ?_, ?_, ?_, rfl, by rw [g.start]⟩
  · cases hps : t.pieces with
    | nil => exact absurd hps hn
    | cons p ps =>
      have hj := g.joined
      rw [hps] at s1 hj
      unfold sectionCurves at s1 ⊢
      rw [List.forall₂_cons] at s1
      exact ⟨_, p.eval p.x0, rfl, by rw [← hj.1]; exact s1.1.first⟩
  · have hj := g.joined
    have key : ∀ (ps : List (Piece K)) (cs : List (SectionCurve K)) (a : K), ps ≠ [] → Joined a ps t.fin →
        List.Forall₂ SectionCurve.Of ps cs →
        ∃ c y, cs.getLast? = some c ∧ c.pts.getLast? = some (t.fin, y) := by
      intro ps
      induction ps with
      | nil => intro cs a h; exact absurd rfl h
      | cons p ps ih =>
        intro cs a _ hj hf
        cases hf with
        | cons h1 h2 =>
          rename_i c cs'
          by_cases he : ps = []
          · subst he
            cases h2
            have : p.x1 = t.fin := hj.2.2
            exact ⟨c, p.eval p.x1, rfl, by rw [h1.last, this]⟩
          · obtain ⟨c', y, e1, e2⟩ := ih cs' p.x1 he hj.2.2 h2
            refine ⟨c', y, ?_, e2⟩
            rw [List.getLast?_cons, e1]
            rfl
    exact key _ _ 0 hn hj s1
  · intro c hc q₀ hq0 q hq hcl
    obtain ⟨p, hpm, hO⟩ := hof c hc
    obtain ⟨e1, e2, e3⟩ := hO.on q hq
    rw [hO.first] at hq0
    cases hq0
    have hf := joined_find_self t.pieces g.joined hpm e1 e2 hcl
    unfold Sec.eval
    cases hps : t.pieces with
    | nil => exact absurd hps hn
    | cons p0 ps =>
      rw [hps] at hf
      simp only
      rw [hf, e3]
  · intro hk c hc q hq
    obtain ⟨p, hpm, hO⟩ := hof c hc
    obtain ⟨e1, e2, e3⟩ := hO.on q hq
    rw [e3]
    exact hp hk (by simp [Sec.empty]) p hpm _ e1 e2

/-- C147 at a haunch, a step and a kinked part, with ten points: the riser is at the step. -/
example (fit : Fit ℚ) : ∃ t pl, Sec.empty.build fit [⟨.linear, [0, 3], .values [3, 1], none⟩,
      ⟨.const, [3, 9], .values [2], none⟩, ⟨.pwl, [9, 10, 12], .values [2, 1, 3], none⟩] = .ok t ∧
    t.plot Int.floor 10 = .ok pl ∧
    pl.curves.map (fun c => c.riser) = [none, some ((3, 1), (3, 2)), none, none] ∧
    pl.curves.map (fun c => c.pts) = [[(0, 3), (3, 1)], [(3, 2), (9 / 2, 2), (6, 2), (15 / 2, 2), (9, 2)],
      [(9, 2), (10, 1)], [(10, 1), (12, 3)]] ∧
    pl.curves.map (fun c => c.note.2) = ["linear", "const", "linear", "linear"] := by
  refine ⟨⟨[⟨0, 3, [-2 / 3, 3], 1⟩, ⟨3, 9, [2], 0⟩, ⟨9, 10, [-1, 11], 1⟩, ⟨10, 12, [1, -9], 1⟩],
    [3, 9, 12], [10], 0, 12⟩, _, ?_, rfl, by decide +kernel, by decide +kernel, by decide +kernel⟩
  norm_num [Sec.build, Sec.add, Sec.empty, segPieces, linPieces, strictly, allPos, segType_ne]
  simp only [if_neg (List.cons_ne_nil _ _)]
  norm_num

/-! ### Tendons: the model -/

/-- The drawing of a tendon: the centroid line, the support marks, the drape of each stressed span,
whether the vertical axis points down, and the loads given to the schematic of panel (c). -/
structure TendonPlot (K : Type*) where
  centroid : (K × K) × (K × K)
  supports : List K
  drapes : List (List (K × K))
  yDown : Bool
  loads : List (Row K)

/-- `offs[i]`, `prestress.py` 479. -/
def tendonOffset (Ls : List K) (i : ℕ) : K := (Ls.take i).sum

/-- The drapes, `prestress.py` 516-523, with `_eval_e` and `_cantilever_side` (419-424, the same
test as `cantOf`). -/
def drapeCurves (Ls : List K) (R : ℕ → K) : ℕ → List (Option (Profile K)) →
    Except PyErr (List (List (K × K)))
  | _, [] => .ok []
  | i, none :: ps => drapeCurves Ls R (i + 1) ps
  | i, some p :: ps =>
    match p.segments (Ls.getD i 0) (cantOf R i) with
    | .error e => .error e
    | .ok segs =>
      match drapeCurves Ls R (i + 1) ps with
      | .error e => .error e
      | .ok cs => .ok ((linspaceN 0 (Ls.getD i 0) 80).map
          (fun x => (tendonOffset Ls i + x, evalE segs x)) :: cs)

/-- `plot_tendon`, `prestress.py` 467-538. -/
def plotTendon (Ls : List K) (R : ℕ → K) (F : List K) (ps : List (Option (Profile K))) :
    Except PyErr (TendonPlot K) :=
  match equivalentLoads Ls R F ps with
  | .error e => .error e
  | .ok LM =>
    match drapeCurves Ls R 0 ps with
    | .error e => .error e
    | .ok cs => .ok
      { centroid := ((0, 0), (tendonOffset Ls Ls.length, 0))
        supports := ((List.range (Ls.length + 1)).filter fun i =>
          ¬ (R (2 * i) = 0 ∧ R (2 * i + 1) = 0)).map (tendonOffset Ls)
        drapes := cs
        yDown := true
        loads := LM }

/-! ### Tendons: C147 -/

/-- The height on the page of an eccentricity. -/
def TendonPlot.pageY (pl : TendonPlot K) (e : K) : K := if pl.yDown then -e else e

/-- The spans that have a profile, numbered from `i`. -/
def stressedSpans (i : ℕ) (ps : List (Option (Profile K))) : List (ℕ × Profile K) :=
  (ps.zipIdx i).filterMap fun q => q.1.map fun p => (q.2, p)

theorem evalE_onTendon {segs : List (TSeg K)} : ∀ {x0 e0 x1 e1 : K}, segs ≠ [] →
    SegChain segs x0 e0 x1 e1 → ∀ x, x0 ≤ x → x ≤ x1 →
    (∀ s ∈ segs, ¬ (s.x2 < x ∧ x ≤ s.x2 + pTol)) → OnTendon segs x (evalE segs x) := by
  have hT := pTol_pos (K := K)
  induction segs with
  | nil => intro _ _ _ _ h; exact absurd rfl h
  | cons s rest ih =>
    intro x0 e0 x1 e1 _ hc x h0 h1 hcl
    obtain ⟨a1, a2, a3, a4⟩ := hc
    by_cases hin : s.x1 - pTol ≤ x ∧ x ≤ s.x2 + pTol
    · rw [evalE, if_pos hin]
      refine ⟨s, by simp, by rw [a1]; exact h0, ?_, rfl⟩
      by_contra hn
      exact hcl s (by simp) ⟨not_le.1 hn, hin.2⟩
    · have hx : s.x2 < x := by
        by_contra hn
        exact hin ⟨by linarith, by linarith [not_lt.1 hn]⟩
      have hne : rest ≠ [] := by
        rintro rfl
        have : s.x2 = x1 := a4.1
        linarith
      rw [evalE, if_neg hin]
      obtain ⟨u, hu, hu'⟩ := ih hne a4 x hx.le h1 fun u hu => hcl u (by simp [hu])
      exact ⟨u, by simp [hu], hu'⟩

/-- On a cantilever too, the pieces of an ordered profile follow one another over the span. -/
theorem Profile.segments_chain_cant (p : Profile K) (L : K) (hp : p.Ordered L) (tip : Option Tip)
    (segs : List (TSeg K)) (hs : p.segments L tip = .ok segs) :
    segs ≠ [] ∧ SegChain segs 0 p.endEcc.1 L p.endEcc.2 := by
  have hT := pTol_pos (K := K)
  obtain ⟨segs', h1, h2, h3, -⟩ := p.segments_chain L hp
  have same : p.segments L none = .ok segs → segs ≠ [] ∧ SegChain segs 0 p.endEcc.1 L p.endEcc.2 := by
    intro h
    obtain rfl : segs' = segs := Except.ok.inj (h1.symm.trans h)
    exact ⟨h2, h3⟩
  cases tip with
  | none => exact same hs
  | some tip =>
    cases p with
    | parabola el em er cl cr =>
      obtain ⟨o1, o2, o3, o4, o5⟩ := hp
      cases tip with
      | right =>
        simp only [Profile.segments] at hs
        rw [if_neg (by intro h; linarith)] at hs
        obtain rfl := (Except.ok.inj hs).symm
        refine ⟨by simp, (flatLeft_chain cl el o1 o3).append ?_⟩
        exact ⟨rfl, rfl, by dsimp only; linarith, rfl, rfl⟩
      | left =>
        simp only [Profile.segments] at hs
        rw [if_neg (by intro h; linarith)] at hs
        obtain rfl := (Except.ok.inj hs).symm
        refine ⟨by simp, ?_⟩
        exact ⟨rfl, rfl, by dsimp only; linarith, flatRight_chain cr er L o2 o4⟩
    | compound el em er a b c => simp [Profile.segments] at hs
    | harp el em er a cl cr => exact same hs
    | doubleHarp el e1 e2 er a b cl cr => exact same hs

theorem ptLoop_segments (R : ℕ → K) (ps : List (Option (Profile K))) :
    ∀ (i : ℕ) (Ls F : List K) (st st' : PtState K), ps.length = Ls.length → F.length = Ls.length →
      ptLoop R i (Ls.zip (F.zip ps)) st = .ok st' →
      ∀ (j : ℕ) (p : Profile K), ps[j]? = some (some p) → ∃ segs, p.segments (Ls.getD j 0) (cantOf R (i + j)) = .ok segs := by
  induction ps with
  | nil => intro i Ls F st st' _ _ _ j p h; simp at h
  | cons q ps ih =>
    intro i Ls F st st' hl hF h j p hj
    obtain ⟨L, Ls, rfl⟩ : ∃ L Ls', Ls = L :: Ls' := List.exists_cons_of_ne_nil (by rintro rfl; simp at hl)
    obtain ⟨f, F, rfl⟩ : ∃ f F', F = f :: F' := List.exists_cons_of_ne_nil (by rintro rfl; simp at hF)
    simp only [List.zip_cons_cons, ptLoop] at h
    cases hst : ptStep R i L f q st with
    | error e => rw [hst] at h; cases h
    | ok st1 =>
      rw [hst] at h
      cases j with
      | zero =>
        simp only [List.getElem?_cons_zero, Option.some.injEq] at hj
        subst hj
        simp only [List.getD_cons_zero, add_zero]
        simp only [ptStep] at hst
        cases hseg : p.segments L (cantOf R i) with
        | error e => rw [hseg] at hst; cases hst
        | ok segs => exact ⟨segs, rfl⟩
      | succ j =>
        simp only [List.getElem?_cons_succ] at hj
        obtain ⟨segs, hs⟩ := ih (i + 1) Ls F st1 st' (by simpa using hl) (by simpa using hF) h j p hj
        refine ⟨segs, ?_⟩
        rw [List.getD_cons_succ, show i + (j + 1) = i + 1 + j by omega]
        exact hs

/-- What C147 says of the curve of a span: eighty equally spaced points from one end of the span to
the other, with the eccentricities of its tendon. -/
def DrapeOf (Ls : List K) (R : ℕ → K) (jp : ℕ × Profile K) (c : List (K × K)) : Prop :=
  ∃ segs, jp.2.segments (Ls.getD jp.1 0) (cantOf R jp.1) = .ok segs ∧
    c.map Prod.fst = (List.range 80).map (fun k : ℕ =>
      (Ls.take jp.1).sum + (k : K) / 79 * Ls.getD jp.1 0) ∧
    (jp.2.Ordered (Ls.getD jp.1 0) → ∀ q ∈ c,
      (∀ s ∈ segs, ¬ ((Ls.take jp.1).sum + s.x2 < q.1 ∧ q.1 ≤ (Ls.take jp.1).sum + s.x2 + pTol)) →
      OnTendon segs (q.1 - (Ls.take jp.1).sum) q.2)

theorem drapeCurves_ok (Ls : List K) (R : ℕ → K) (ps : List (Option (Profile K))) :
    ∀ i, (∀ (j : ℕ) (p : Profile K), ps[j]? = some (some p) → ∃ segs, p.segments (Ls.getD (i + j) 0) (cantOf R (i + j)) = .ok segs) →
      ∃ cs, drapeCurves Ls R i ps = .ok cs ∧ List.Forall₂ (DrapeOf Ls R) (stressedSpans i ps) cs := by
  induction ps with
  | nil => intro i _; exact ⟨[], rfl, .nil⟩
  | cons q ps ih =>
    intro i h
    obtain ⟨cs, h1, h2⟩ := ih (i + 1) fun j p hj => by
      have := h (j + 1) p (by simpa using hj)
      rw [show i + (j + 1) = i + 1 + j by omega] at this
      exact this
    cases q with
    | none =>
      refine ⟨cs, by simp only [drapeCurves]; exact h1, ?_⟩
      simpa [stressedSpans, List.zipIdx_cons] using h2
    | some p =>
      obtain ⟨segs, hs⟩ := h 0 p rfl
      rw [add_zero] at hs
      refine ⟨_, by simp only [drapeCurves]; rw [hs, h1], ?_⟩
      have e : stressedSpans i (some p :: ps) = (i, p) :: stressedSpans (i + 1) ps := by
        simp [stressedSpans, List.zipIdx_cons]
      rw [e]
      refine .cons ⟨segs, hs, ?_, ?_⟩ h2
      · rw [List.map_map, linspaceN, List.map_map]
        refine List.map_congr_left fun k _ => ?_
        simp only [Function.comp_apply, tendonOffset]
        push_cast
        ring
      · intro hO c hc hcl
        obtain ⟨x, hx, rfl⟩ := List.mem_map.1 hc
        obtain ⟨g1, g2⟩ := p.segments_chain_cant _ hO _ segs hs
        have hb := linspaceN_bounds g2.le hx
        simp only [tendonOffset, add_sub_cancel_left] at hcl ⊢
        refine evalE_onTendon g1 g2 x hb.1 hb.2 fun s hsm h => ?_
        exact hcl s hsm ⟨by linarith [h.1], by linarith [h.2]⟩

/-- **C147**, tendons: a tendon is drawn exactly if it has equivalent loads, and these are the loads
given to the schematic; there is a support mark at each node with a restraint, and nowhere else; the
centroid line spans the beam; and there is one drape for each span with a profile, in order.  Each
has eighty points from one end of its span to the other.  For an ordered profile these lie on the
tendon, except those up to `1e-9` right of a joint between two pieces of it.  A point below the
centroid is drawn below the centroid line. -/
theorem C147_tendon (Ls : List K) (R : ℕ → K) (F : List K) (ps : List (Option (Profile K))) :
    (∀ e, equivalentLoads Ls R F ps = .error e → plotTendon Ls R F ps = .error e) ∧
    ∀ LM, equivalentLoads Ls R F ps = .ok LM → ∃ pl, plotTendon Ls R F ps = .ok pl ∧
      pl.loads = LM ∧
      pl.centroid = ((0, 0), (Ls.sum, 0)) ∧
      (∀ x, x ∈ pl.supports ↔
        ∃ i, i ≤ Ls.length ∧ (R (2 * i) ≠ 0 ∨ R (2 * i + 1) ≠ 0) ∧ x = (Ls.take i).sum) ∧
      List.Forall₂ (DrapeOf Ls R) (stressedSpans 0 ps) pl.drapes ∧
      ∀ e, 0 < e → pl.pageY e < pl.pageY 0 := by
  constructor
  · intro e h
    simp only [plotTendon, h]
  · intro LM h
    have hok : ps.length = Ls.length ∧ F.length = Ls.length ∧
        ∃ st, ptLoop R 0 (Ls.zip (F.zip ps)) ⟨[], none, none⟩ = .ok st := by
      simp only [equivalentLoads] at h
      by_cases h1 : ps.length ≠ Ls.length
      · rw [if_pos h1] at h; cases h
      rw [if_neg h1] at h
      by_cases h2 : F.length ≠ Ls.length
      · rw [if_pos h2] at h; cases h
      rw [if_neg h2] at h
      refine ⟨not_not.1 h1, not_not.1 h2, ?_⟩
      cases hst : ptLoop R 0 (Ls.zip (F.zip ps)) ⟨[], none, none⟩ with
      | error e => rw [hst] at h; cases h
      | ok st => exact ⟨st, rfl⟩
    obtain ⟨l1, l2, st, hst⟩ := hok
    obtain ⟨cs, h1, h2⟩ := drapeCurves_ok Ls R ps 0 fun j p hj => by
      rw [zero_add]
      simpa using ptLoop_segments R ps 0 Ls F _ _ l1 l2 hst j p hj
    refine ⟨⟨((0, 0), (tendonOffset Ls Ls.length, 0)), ((List.range (Ls.length + 1)).filter fun i =>
          ¬ (R (2 * i) = 0 ∧ R (2 * i + 1) = 0)).map (tendonOffset Ls), cs, true, LM⟩,
      by simp only [plotTendon, h, h1], rfl, ?_, ?_, h2, ?_⟩
    · simp [tendonOffset]
    · intro x
      simp only [List.mem_map, List.mem_filter, List.mem_range, decide_eq_true_eq, tendonOffset]
      constructor
      · rintro ⟨i, ⟨hi, hr⟩, rfl⟩
        exact ⟨i, by omega, by tauto, rfl⟩
      · rintro ⟨i, hi, hr, rfl⟩
        exact ⟨i, ⟨by omega, by tauto⟩, rfl⟩
    · intro e he
      simpa [TendonPlot.pageY] using he

/-- C147 at two spans with a parabola in each, over three supports: the first and the forty-first
point of each drape. -/
example : ∃ pl, plotTendon [10, 10] exPins [50, 50]
      [some (.parabola 0 1 0 0 0), some (.parabola 0 1 0 0 0)] = .ok pl ∧ pl.supports = [0, 10, 20] ∧
    pl.drapes.map (fun c => c.take 1 ++ (c.drop 40).take 1) =
      [[(0, 0), (400 / 79, 6240 / 6241)], [(10, 0), (1190 / 79, 6240 / 6241)]] ∧
    Profile.Ordered (10 : ℚ) (.parabola 0 1 0 0 0) := by
  obtain ⟨pl, h, e⟩ := ok_of_map
    (x := plotTendon [10, 10] exPins [50, 50]
      [some (.parabola 0 1 0 0 0), some (.parabola 0 1 0 0 0)])
    (f := fun pl : TendonPlot ℚ =>
      (pl.supports, pl.drapes.map (fun c => c.take 1 ++ (c.drop 40).take 1)))
    (y := ([0, 10, 20],
      [[(0, 0), (400 / 79, 6240 / 6241)], [(10, 0), (1190 / 79, 6240 / 6241)]])) (by decide +kernel)
  simp only [Prod.mk.injEq] at e
  refine ⟨pl, h, e.1, e.2, by norm_num, by norm_num, .inl rfl, .inl rfl, ?_⟩
  norm_num [pTol]

end PyCBA
