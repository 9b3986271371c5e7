import Verif.Bridge.Run

/-!
C55: clearances that `run_load_model` refuses.
-/

set_option linter.unusedSectionVars false

namespace PyCBA

variable {K : Type*} [Field K] [LinearOrder K] [IsStrictOrderedRing K]

/-- **C55**, refusals: a run with a lane load is refused at once when either clearance is negative,
and otherwise its outcome is that of the analyses at its positions. -/
theorem C55_refused [FloorRing K] (A : Analyser K) (b : BeamB K) (static : List (Row K))
    (v : Vehicle K) (step w back front : K) (start stop : Option K) :
    (back < 0 ∨ front < 0 →
      runLoadModel A b static v step w (some (back, front)) start stop = .error .valueError) ∧
    (0 ≤ back → 0 ≤ front → ∀ ps, runPositions b v step start stop = .ok ps →
      (runLoadModel A b static v step w (some (back, front)) start stop).map Prod.snd =
        runOver A b (fun pos => addLM static (axleLM b v pos
          ++ laneLM b v w (some (back, front)) pos)) ps) := by
  constructor
  · intro h
    unfold runLoadModel validateClearances
    dsimp only
    rw [if_pos h]
  · intro h1 h2 ps hps
    unfold runLoadModel validateClearances
    dsimp only
    rw [if_neg (by push Not; exact ⟨h1, h2⟩), hps]
    dsimp only
    cases runOver A b (fun pos => addLM static (axleLM b v pos
          ++ laneLM b v w (some (back, front)) pos)) ps <;> rfl

-- C55: one clearance is negative
example : runLoadModel exRunA exIL [] (⟨[1], [1, 1], 1, 2, 2, [0, 1]⟩ : Vehicle ℚ) 1 6 (some (1, -2))
    none none = .error .valueError :=
  (C55_refused exRunA exIL [] ⟨[1], [1, 1], 1, 2, 2, [0, 1]⟩ 1 6 1 (-2) none none).1
    (Or.inr (by norm_num))

-- C55: a run with clearances has positions
example : ∃ ps, runPositions exIL (⟨[1], [1, 1], 1, 2, 2, [0, 1]⟩ : Vehicle ℚ) 1 none none = .ok ps ∧
    ps = [0, 1, 2, 3] :=
  ⟨_, by decide +kernel, rfl⟩

end PyCBA
