import Verif.Check.MipDataTest
import Verif.Model.Branching

/-!
# The unit tests of the branching rules, run on the model

unit_tests/branching_interface/branching_test.cc, test by test (see `Verif.Check.SparseVectorTest`).  The draw of the
random rule is arbitrary.  The LP solution of the last test is external; it is the optimum of the LP, (1, 3/2).
-/

namespace MiniMip
namespace Check
namespace BranchingTest

-- CreatesRandomBranchingWithValidParams (branching_test.cc:30-41)
example : ∀ d, Branching.create .random d = .ok (.random d) := fun _ => rfl

-- FailsToCreateBranchingRuleWithInvalidParams (branching_test.cc:43-49)
example : ∀ d, Branching.create .none d = .error "No branching-specific parameters set." := fun _ => rfl

/-- `NextBranchingVariable(*solver)` for the rule the factory creates and a solver created for the problem. -/
def next (specific : Branching.Specific) (p : Problem) (primal : Outcome (List ℚ)) (draw : Nat) :
    Outcome (Int × Bool) := do
  let d ← MipDataTest.data p
  (← Branching.create specific .unspecified).next (-1) (1 / 10 ^ 6) d.integerVariables primal draw

-- NextBranchingVariableWithoutIntegerVariables (branching_test.cc:55-75)
example (draw : Nat) : next .random {} .abort draw = .error "No integer variables to branch on." := rfl

/-- The problem of the second test of the random rule. -/
def four : Problem where
  vars := [{ name := "1", isInteger := true }, { name := "2", isInteger := true },
    { name := "3", isInteger := true }, { name := "4", isInteger := false }]

-- NextBranchingVariableReturnsValidVariable (branching_test.cc:77-106)
example (draw : Nat) : ∃ i up, next .random four .abort draw = .ok (i, up) ∧ 0 ≤ i ∧ i < 4 := by
  have h : (do return (← MipDataTest.data four).integerVariables) = Outcome.ok [0, 1, 2] := by decide +kernel
  have e : ∃ d, MipDataTest.data four = .ok d ∧ d.integerVariables = [0, 1, 2] := by
    cases hd : MipDataTest.data four with
    | ok d => rw [hd] at h; exact ⟨d, rfl, by simpa using h⟩
    | error m => rw [hd] at h; cases h
    | abort => rw [hd] at h; cases h
    | ub => rw [hd] at h; cases h
  obtain ⟨d, hd, hi⟩ := e
  refine ⟨((draw % 3 : Nat) : Int), false, ?_, by omega, by omega⟩
  simp [next, hd, hi, Branching.create, Branching.Rule.next, Branching.random]

/-- The problem of the test of the most fractional rule (branching_test.cc:116-148). -/
def two : Problem where
  isMaximization := true
  vars := [{ name := "x1", objective := 0, lower := .fin 0, isInteger := true },
    { name := "x2", objective := 1, lower := .fin 0, isInteger := true }]
  constraints := [{ name := "ct1", varIndices := [0, 1], coefficients := [3, 2], rhs := .fin 6 },
    { name := "ct2", varIndices := [0, 1], coefficients := [-3, 2], rhs := .fin 0 }]

-- NextBranchingVariableReturnsValidVariable (branching_test.cc:114-169)
example : next .maxFractional two (.ok [1, 3 / 2]) 0 = .ok (1, true) := by decide +kernel

end BranchingTest
end Check
end MiniMip
