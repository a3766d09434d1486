import Verif.Check.SparseVectorTest
import Verif.Model.CutRegistry
import Mathlib.Tactic.NormNum

/-!
# The unit tests of the cut registry, run on the model

unit_tests/data_structures/cuts_data_test.cc, test by test (see `Verif.Check.SparseVectorTest`), on the model with exact
numbers; the measures with doubles are in `Verif.Check.HybridSelectorTest`.
-/

namespace MiniMip
namespace Check
namespace CutsDataTest

open SparseVectorTest (row)

/-- The cut `x2 ≤ b` of the tests, for the LP optimum `(0, 2)` and the objective `x1`. -/
noncomputable def cut (b : ℚ) (name : String) : CutData :=
  createCut (row [(0, 1)]) (fun _ => true) (row [(0, 0), (1, 2)]) (row [(1, 1)]) b name false

theorem dots : (row [(1, 1)]).dotProduct (row [(0, 0), (1, 2)]) = 2 ∧ (row [(1, 1)]).dotProduct (row [(1, 1)]) = 1 ∧
    (row [(1, 1)]).dotProduct (row [(0, 1)]) = 0 ∧ (row [(0, 1)]).dotProduct (row [(0, 1)]) = 1 ∧
    (row [(1, 1)]).dotProduct (row [(0, 1), (1, 1)]) = 1 ∧ (row [(0, 1), (1, 1)]).dotProduct (row [(0, 2), (1, 2)]) = 4 ∧
    (row [(0, 1), (1, 1)]).dotProduct (row [(0, 1), (1, 1)]) = 2 := by decide +kernel

-- CreateCut (cuts_data_test.cc:25-65)
example : (cut 1 "cut").name = "cut" ∧ (cut 1 "cut").numNonZeros = 1 ∧ (cut 1 "cut").numIntegers = 1 ∧
    (cut 1 "cut").rhs = 1 ∧ (cut 1 "cut").forced = false ∧ (cut 1 "cut").active = false :=
  ⟨rfl, rfl, rfl, rfl, rfl, rfl⟩
example : (cut 1 "cut").efficacy = .fin 1 ∧ (cut 1 "cut").objectiveParallelism = .fin 0 := by
  obtain ⟨h1, h2, h3, h4, -, -, -⟩ := dots
  constructor
  · norm_num [cut, createCut, computeEfficacy, h1, h2, RDbl.div]
  · norm_num [cut, createCut, h2, h3, h4, RDbl.div]

/-- The cut of `CreateDifferentCut`. -/
noncomputable def other : CutData :=
  createCut (row [(0, 1), (1, 1)]) (fun j => j = 0) (row [(0, 2), (1, 2)]) (row [(0, 1), (1, 1)]) 2 "cut" true

-- CreateDifferentCut (cuts_data_test.cc:67-108)
example : other.name = "cut" ∧ other.numNonZeros = 2 ∧ other.numIntegers = 1 ∧ other.rhs = 2 ∧ other.forced = true ∧
    other.active = false := ⟨rfl, rfl, rfl, rfl, rfl, rfl⟩
example : other.efficacy = .fin (Real.sqrt 2) ∧ other.objectiveParallelism = .fin 1 := by
  obtain ⟨-, -, -, -, -, h6, h7⟩ := dots
  constructor
  · norm_num [other, createCut, computeEfficacy, h6, h7, RDbl.div, Real.div_sqrt]
  · have h : Real.sqrt 4 = 2 := by rw [show (4 : ℝ) = 2 * 2 by norm_num]; exact Real.sqrt_mul_self (by norm_num)
    norm_num [other, createCut, h7, RDbl.div, h]

-- InitTest (cuts_data_test.cc:110-115)
example : ({} : CutRegistry).cuts = [] ∧ ({} : CutRegistry).activeIndices = [] := ⟨rfl, rfl⟩

/-- What the tests read of the cuts of a registry. -/
def read (r : CutRegistry) : List (String × Option Int) × List Int := (r.cuts.map fun c => (c.name, c.index), r.activeIndices)

/-- The two cuts of the tests. -/
noncomputable def two : Outcome CutRegistry := do
  let (r, _) ← ({} : CutRegistry).addCut (cut 1 "cut1")
  let (r, _) ← r.addCut (cut 1.5 "cut2")
  return r

-- AddCuts (cuts_data_test.cc:117-155)
example : (do let (r, i) ← ({} : CutRegistry).addCut (cut 1 "cut1"); return (read r, i)) =
    .ok (([("cut1", some 0)], []), 0) := rfl
example : (do return read (← two)) = .ok ([("cut1", some 0), ("cut2", some 1)], []) := rfl

-- ActivateAndRemoveCuts (cuts_data_test.cc:157-197)
example : (do return read ((← two).activateCut 1)) = .ok ([("cut1", some 0), ("cut2", some 1)], [1]) := rfl
example : (do return read (← ((← two).activateCut 1).removeCut (.value 0))) = .ok ([("cut2", some 0)], [0]) := rfl

-- UpdateCutEfficacy (cuts_data_test.cc:199-229)
example : ∃ r c, ({} : CutRegistry).addCut (cut 1.5 "cut") = .ok (r, 0) ∧
    (r.updateCutEfficacy (row [(0, 1), (1, 1)])).getCut 0 = .ok c ∧ c.efficacy = .fin (-0.5) ∧
    (r.updateCutEfficacy (row [(0, 1), (1, 1)])).removeCut (.value 0) = .ok {} := by
  refine ⟨_, _, rfl, rfl, ?_, rfl⟩
  obtain ⟨-, h2, -, -, h5, -, -⟩ := dots
  show computeEfficacy (row [(1, 1)]) 1.5 (row [(0, 1), (1, 1)]) = _
  norm_num [computeEfficacy, h2, h5, RDbl.div]

end CutsDataTest
end Check
end MiniMip
