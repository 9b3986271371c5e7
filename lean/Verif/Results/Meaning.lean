import Verif.Results.Order
import Verif.Exact.Spec

/-!
C47, the meaning of the rows of the load matrix, as documented in `load.py` 5-22: what each row puts
on its span is stated from the numbers in the row alone.
-/

set_option linter.unusedSectionVars false
set_option linter.unusedSimpArgs false

namespace PyCBA

/-! ### Specification -/

/-- Downward load per length at `x` on a span of length `L`: types 1 (over the span), 3 (`w a c`) and
5 (`w1 w2 a c`, from the start of the span if `a` is left out, to its end if `c` is). -/
noncomputable def Row.intensity (L : ℝ) (r : Row ℝ) (x : ℝ) : ℝ :=
  let v := fun k => r.args.getD k 0
  let c := if 4 ≤ r.args.length then v 3 else L - v 2
  if r.ltype = 1 then v 0
  else if r.ltype = 3 then (if v 1 ≤ x ∧ x ≤ v 1 + v 2 then v 0 else 0)
  else if r.ltype = 5 then (if v 2 ≤ x ∧ x ≤ v 2 + c then v 0 + (v 1 - v 0) * ((x - v 2) / c) else 0)
  else 0

/-- Downward forces and where: type 2 (`P a`). -/
def Row.forces (r : Row ℝ) : List (ℝ × ℝ) :=
  if r.ltype = 2 then [(r.args.getD 0 0, r.args.getD 1 0)] else []

/-- Couples and where: type 4 (`m a`). -/
def Row.couples (r : Row ℝ) : List (ℝ × ℝ) :=
  if r.ltype = 4 then [(r.args.getD 0 0, r.args.getD 1 0)] else []

/-- Imposed curvature at `x`: type 6, coefficients of increasing powers. -/
noncomputable def Row.curvature (r : Row ℝ) (x : ℝ) : ℝ :=
  if r.ltype = 6 then ∑ k ∈ Finset.range r.args.length, r.args.getD k 0 * x ^ k else 0

/-- The numbers a row needs. -/
def Row.needs (t : ℤ) : ℕ :=
  if t = 1 then 1 else if t = 2 then 2 else if t = 3 then 3 else if t = 4 then 2 else if t = 5 then 2 else 0

/-! ### C47 -/

theorem polyInc_sum (cs : List ℝ) (x : ℝ) :
    polyInc cs x = ∑ k ∈ Finset.range cs.length, cs.getD k 0 * x ^ k := by
  induction cs with
  | nil => simp [polyInc]
  | cons c cs ih =>
    rw [List.length_cons, Finset.sum_range_succ']
    simp only [List.getD_cons_succ, List.getD_cons_zero, pow_zero, mul_one]
    simp only [polyInc]
    rw [ih, Finset.mul_sum, add_comm]
    congr 1
    exact Finset.sum_congr rfl fun k _ => by rw [pow_succ]; ring

/-- **C47**, meaning: a row of type 1 to 6 with the numbers it needs is read as a load on its own span
(numbered from one) with exactly the distributed load, forces, couples and curvature documented for
its type; a row that lacks numbers raises. -/
theorem C47_meaning (r : Row ℝ) (ht : 1 ≤ r.ltype ∧ r.ltype ≤ 6) :
    (r.args.length < Row.needs r.ltype → parseRow r = .error .indexError) ∧
    (Row.needs r.ltype ≤ r.args.length → ∃ l, parseRow r = .ok (some l) ∧ l.iSpan + 1 = r.span ∧
      (∀ L x, l.load.intensity L x = r.intensity L x) ∧ l.load.forces = r.forces ∧
      l.load.couplesAt = r.couples ∧ ∀ x, l.load.kappaImp x = r.curvature x) := by
  obtain ⟨span, t, args⟩ := r
  obtain ⟨t1, t6⟩ := ht
  dsimp only at t1 t6 ⊢
  have : t = 1 ∨ t = 2 ∨ t = 3 ∨ t = 4 ∨ t = 5 ∨ t = 6 := by omega
  rcases this with rfl | rfl | rfl | rfl | rfl | rfl
  · rcases args with _ | ⟨w, tl⟩
    · simp [Row.needs, parseRow]
    · simp [Row.needs, parseRow, Load.intensity, Row.intensity, Load.forces, Row.forces, Load.couplesAt,
        Row.couples, Load.kappaImp, Row.curvature]
  · rcases args with _ | ⟨w, _ | ⟨a, tl⟩⟩
    · simp [Row.needs, parseRow]
    · simp [Row.needs, parseRow]
    · simp [Row.needs, parseRow, Load.intensity, Row.intensity, Load.forces, Row.forces, Load.couplesAt,
        Row.couples, Load.kappaImp, Row.curvature]
  · rcases args with _ | ⟨w, _ | ⟨a, _ | ⟨c, tl⟩⟩⟩
    · simp [Row.needs, parseRow]
    · simp [Row.needs, parseRow]
    · simp [Row.needs, parseRow]
    · simp [Row.needs, parseRow, Load.intensity, Row.intensity, Load.forces, Row.forces, Load.couplesAt,
        Row.couples, Load.kappaImp, Row.curvature]
  · rcases args with _ | ⟨w, _ | ⟨a, tl⟩⟩
    · simp [Row.needs, parseRow]
    · simp [Row.needs, parseRow]
    · simp [Row.needs, parseRow, Load.intensity, Row.intensity, Load.forces, Row.forces, Load.couplesAt,
        Row.couples, Load.kappaImp, Row.curvature]
  · rcases args with _ | ⟨w, _ | ⟨w2, _ | ⟨a, _ | ⟨c, tl⟩⟩⟩⟩
    · simp [Row.needs, parseRow]
    · simp [Row.needs, parseRow]
    all_goals
      simp [Row.needs, parseRow, Load.intensity, Row.intensity, Load.forces, Row.forces, Load.couplesAt,
        Row.couples, Load.kappaImp, Row.curvature]
  · refine ⟨fun h => ?_, fun _ => ⟨_, rfl, by simp, ?_, rfl, rfl, ?_⟩⟩
    · simp [Row.needs] at h
    · intro L x
      simp [Load.intensity, Row.intensity]
    · intro x
      simp only [Load.kappaImp, Row.curvature, if_true, polyInc_sum]

-- a moment of 5 at 2 along the third span; a trapezoid without an extent
example : Row.needs 4 ≤ ([5, 2] : List ℝ).length ∧ (⟨3, 4, [5, 2]⟩ : Row ℝ).couples = [(5, 2)] := by
  simp [Row.needs, Row.couples]

example : (⟨1, 5, [2, 6, 1]⟩ : Row ℝ).intensity 5 3 = 4 := by
  norm_num [Row.intensity]

end PyCBA
