import Verif.Props.ProgramModel
import Verif.Props.ProgramWitness

/-!
# C93 with SoPlex: a model with a fractional bound
-/

namespace MiniMip
namespace Program

open Solver (point)

/-- Maximize an integer x between 0 and 7/2. -/
def halfModel : ModelProto where
  maximize := true
  vars := [{ name := "x", objective := 1, lower := .fin 0, upper := .fin (7 / 2), isInteger := true }]

/-- **C93 fails with SoPlex** if a bound of an integer variable is fractional: this model is read without error and `Create`
succeeds on what was read, but whatever SoPlex that answers rightly it runs on, no number of iterations brings about a right
outcome for the model, because the process aborts. -/
theorem C93_soplex_violated :
    halfModel.Linear ∧ halfModel.WellFormed ∧ halfModel.FiniteIntegers ∧ halfModel.Feasible (fun _ => 3) ∧
    ∃ p, ReadAs halfModel p ∧ (∃ x c, Setup.create x p soplexUser = .ok c) ∧
      ∀ x c, Setup.create x p soplexUser = .ok c → ∀ e : Engine, e.Right → e.SoplexReturns → e.epsilonZero < 1 / 2 →
        ∀ N tol, ¬ SolvesModel halfModel tol (solve e c N) := by
  obtain ⟨h1, h2, h3, h4, h5, h6⟩ := C77_soplex_crossing_bounds_violated
  have hb : Reader.built halfModel = half := rfl
  have hw : halfModel.WellFormed := (Reader.built_wellFormed halfModel).1 (hb ▸ h1)
  have hl : halfModel.Linear := ⟨rfl, rfl, rfl⟩
  refine ⟨hl, hw, ?_, ((Reader.built_same halfModel).feasible _).1 (hb ▸ h4), half, hb ▸ readAs hl hw, h5,
    fun x c hc e he hret heps N tol h => ?_⟩
  · intro v hv _
    simp only [halfModel, List.mem_singleton] at hv
    subst hv
    exact ⟨_, _, rfl, rfl⟩
  · have h2 := h6 x c hc e he hret heps
    have hmore : ∀ r, solve e c N = some r → r = .abort := fun r hr => by
      have e1 := Solver.solveFuel_more hr (max N 2) (le_max_left _ _)
      have e2 := Solver.solveFuel_more h2 (max N 2) (le_max_right _ _)
      exact Option.some.inj (e1.symm.trans e2)
    rcases h with ⟨h, -⟩ | ⟨-, s, h, -⟩ <;> cases hmore _ h

end Program
end MiniMip
