import Verif.Influence.Props

/-!
C119 fails for spans that are soft in shear: the carry-over factor of a member is
`(2 - φ) / (4 + φ)` with `φ = 12 EI / (GAv L²)`, so it is negative for `φ > 2`, and then the signs of
influence lines of moments no longer alternate.
-/

set_option linter.unusedSectionVars false
set_option linter.unusedSimpArgs false

namespace PyCBA

/-- Three unit spans with `EI = GAv = 1` (`φ = 12`) on four pins. -/
def exSoft : BeamB ℚ :=
  ⟨[1, 1, 1], [.const 1, .const 1, .const 1], [some (.const 1), some (.const 1), some (.const 1)],
    [none, none, none], [.FF, .FF, .FF], [-1, 0, -1, 0, -1, 0, -1, 0],
    [none, none, none, none, none, none, none, none], [], 3, 3, [0, 1, 2, 3], 1⟩

/-- Its analysis, for loads at the start and at the middle of the last span. -/
def exSoftA : Analyser ℚ :=
  ⟨fun _ => true, listSolver [fun _ => 0,
    fun p => [0, 25 / 3696, 0, 5 / 462, 0, 103 / 3696, 0, -311 / 3696].getD p 0,
    fun p => [0, -25 / 3696, 0, -5 / 462, 0, -103 / 3696, 0, 311 / 3696].getD p 0], 4⟩

/-- **C119 fails** for spans soft in shear (`φ = 12`): a load on the third of three equal continuous
spans makes the moment over the first inner support negative, as loads on the adjacent spans do,
and the moment at the middle of the first span negative, although loads on the first span make
it positive and the signs should alternate from span to span. -/
theorem C119_shear_violation : ∃ (s s1 s2 : ILState ℚ) (x eta eta' : List ℚ), exSoftA.solve.Sound ∧
    (ILState.new exSoft).create exSoftA (some (5 / 2)) 1 = (s, .ok ()) ∧
    s.get exSoftA 1 .M = (s1, .ok (x, eta)) ∧ s.get exSoftA (1 / 2) .M = (s2, .ok (x, eta')) ∧
    x = [0, 5 / 2] ∧ eta.getD 1 0 < 0 ∧ eta'.getD 1 0 < 0 := by
  obtain ⟨s, u, hs, hh⟩ := pair_of_map (x := (ILState.new exSoft).create exSoftA (some (5 / 2)) 1)
    (f := fun s _ => ((s.get exSoftA 1 .M).2.toOption, (s.get exSoftA (1 / 2) .M).2.toOption))
    (y := (some ([0, 5 / 2], [0, -5 / 616]), some ([0, 5 / 2], [0, -5 / 1232])))
    (by decide +kernel)
  simp only [Prod.mk.injEq] at hh
  refine ⟨s, (s.get exSoftA 1 .M).1, (s.get exSoftA (1 / 2) .M).1, [0, 5 / 2], [0, -5 / 616], [0, -5 / 1232],
    listSolver_sound _, hs, Prod.ext rfl (ok_of_toOption hh.1), Prod.ext rfl (ok_of_toOption hh.2), rfl, ?_, ?_⟩
    <;> norm_num [List.getD_eq_getElem?_getD]

end PyCBA
