import Verif.Check.SparseMatrixTest
import Verif.Model.MipData

/-!
# The unit tests of the MIP data, run on the model

unit_tests/data_structures/mip_data_test.cc, test by test (see `Verif.Check.SparseVectorTest`).  The hash set of integer
variables is compared up to order, here with the order of insertion.
-/

namespace MiniMip
namespace Check
namespace MipDataTest

open SparseVectorTest (row pairs)
open SparseMatrixTest (rowOf colOf coefficient)

/-- `MipData(problem)`. -/
def data (p : Problem) : Outcome MipData := MipData.ofProblem .id p

/-- What the tests read. -/
structure View where
  name : String
  wasMaximization : Bool
  offset : ℚ
  objective : List (Int × ℚ)
  hints : List Hint
  lower : List Dbl
  upper : List Dbl
  lhs : List Dbl
  rhs : List Dbl
  deriving DecidableEq

/-- What the tests read. -/
def view (d : MipData) : View :=
  ⟨d.name, d.wasMaximization, d.offset, pairs d.objective, d.hints, d.lower, d.upper, d.lhs, d.rhs⟩

/-- What the tests read, continued. -/
structure Types where
  integerVariables : List Int
  isIntegerType : List Bool
  variableNames : List String
  constraintNames : List String
  isIntegralConstraint : List Bool
  numCols : Nat
  numRows : Nat
  deriving DecidableEq

/-- What the tests read, continued. -/
def types (d : MipData) : Types :=
  ⟨d.integerVariables, d.isIntegerType, d.variableNames, d.constraintNames, d.isIntegralConstraint, d.matrix.numCols,
    d.matrix.numRows⟩

-- CreateEmptyProblem (mip_data_test.cc:32-51)
example : view {} = ⟨"", false, 0, [], [], [], [], [], []⟩ ∧ types {} = ⟨[], [], [], [], [], 0, 0⟩ := by decide +kernel

-- PopulatesProblemName (mip_data_test.cc:53-57)
example : (do return (← data { name := "Foo" }).name) = .ok "Foo" := by decide +kernel

/-- The variable of `PopulatesVariables` and `PopulatesConstraints`. -/
def bar : Variable := { name := "Bar", objective := 13, lower := .fin 0, upper := .fin 1, isInteger := true }

-- PopulatesVariables (mip_data_test.cc:59-78)
example : (do let d ← data { vars := [bar] }; return (d.lower, d.upper, d.objective.value 0)) =
    .ok ([.fin 0], [.fin 1], 13) := by decide +kernel
example : (do let d ← data { vars := [bar] }; return types d) = .ok ⟨[0], [true], ["Bar"], [], [], 1, 0⟩ := by decide +kernel

/-- The problem of `PopulatesConstraints`. -/
def baz : Problem :=
  { vars := [bar]
    constraints := [{ name := "Baz", varIndices := [0], coefficients := [1.5], lhs := .fin (-1), rhs := .fin 0.5 }] }

-- PopulatesConstraints (mip_data_test.cc:80-101)
example : (do let d ← data baz; return (d.lhs, d.rhs, d.constraintNames)) = .ok ([.fin (-1)], [.fin 0.5], ["Baz"]) := by
  decide +kernel
example : (do let d ← data baz; coefficient d.matrix 0 0) = .ok 1.5 := by decide +kernel

/-- A problem with an integer variable, perhaps a continuous one, and one constraint. -/
def flags (continuous : Bool) (indices : List Int) (coefficients : List ℚ) : Problem :=
  { vars := { name := "integer", isInteger := true } :: if continuous then [{ name := "continuous" }] else []
    constraints := [{ name := "c", varIndices := indices, coefficients := coefficients, lhs := .fin 0.5, rhs := .fin 2.5 }] }

/-- What the tests read of it. -/
def flagsOf (p : Problem) : Outcome (List Bool × List Dbl × List Dbl) := do
  let d ← data p
  return (d.isIntegralConstraint, d.lhs, d.rhs)

-- IdentifiesIntegralConstraint (mip_data_test.cc:103-137)
example : flagsOf (flags false [0] [1]) = .ok ([true], [.fin 0.5], [.fin 2.5]) ∧
    flagsOf (flags true [0, 1] [1, 0]) = .ok ([true], [.fin 0.5], [.fin 2.5]) := by decide +kernel

-- IdentifiesNonIntegralConstraint (mip_data_test.cc:139-176)
example : flagsOf (flags true [0, 1] [1, 1]) = .ok ([false], [.fin 0.5], [.fin 2.5]) ∧
    flagsOf (flags true [0] [1.1]) = .ok ([false], [.fin 0.5], [.fin 2.5]) := by decide +kernel

-- PopulatesHints, PopulatesMipDataDirection, PopulatesMipDataOffset (mip_data_test.cc:178-199)
example : (do return (← data { hints := [⟨[0], [0.5]⟩] }).hints) = .ok [⟨[0], [0.5]⟩] ∧
    (do return (← data { isMaximization := true }).wasMaximization) = .ok true ∧
    (do return (← data { offset := 12 }).offset) = .ok 12 := by decide +kernel

/-- The variables of the last two tests; the first one is bounded below by `l`. -/
def three (l : Dbl) : List Variable :=
  [{ name := "x1", objective := 1, lower := l, isInteger := true }, { name := "x2", objective := 2, isInteger := true },
    { name := "x3", objective := 3 }]

/-- The problem of `PopulatesMipDataFromMiniMipProblemWithVarBoundConstraint`. -/
def bounded : Problem :=
  { name := "Test"
    vars := three (.fin 0)
    constraints := [{ name := "first", varIndices := [0, 1], coefficients := [3, 5], rhs := .fin (-1) },
      { name := "second", varIndices := [0, 1, 2], coefficients := [5, 2, 7], lhs := .fin (-2), rhs := .fin 3 }]
    offset := 1 }

-- PopulatesMipDataFromMiniMipProblemWithVarBoundConstraint (mip_data_test.cc:201-309)
example : (do return view (← data bounded)) = .ok ⟨"Test", false, 1, [(0, 1), (1, 2), (2, 3)], [],
    [.fin 0, .ninf, .ninf], [.pinf, .pinf, .pinf], [.ninf, .fin (-2)], [.fin (-1), .fin 3]⟩ := by decide +kernel
example : (do return types (← data bounded)) = .ok ⟨[0, 1], [true, true, false], ["x1", "x2", "x3"], ["first", "second"],
    [true, false], 3, 2⟩ := by decide +kernel
example : (do rowOf (← data bounded).matrix 0) = .ok [(0, 3), (1, 5)] ∧
    (do rowOf (← data bounded).matrix 1) = .ok [(0, 5), (1, 2), (2, 7)] ∧
    (do colOf (← data bounded).matrix 0) = .ok [(0, 3), (1, 5)] ∧
    (do colOf (← data bounded).matrix 1) = .ok [(0, 5), (1, 2)] ∧
    (do colOf (← data bounded).matrix 2) = .ok [(1, 7)] := by decide +kernel
example : (do let m := (← data bounded).matrix; return [coefficient m 0 0, coefficient m 1 0, coefficient m 0 1,
    coefficient m 1 1, coefficient m 2 1]) = .ok ([3, 5, 5, 2, 7].map .ok) := by decide +kernel

/-- The problem of `PopulatesMipDataFrom3x3MiniMipProblem`. -/
def square : Problem :=
  { name := "Test"
    vars := three .ninf
    constraints := [{ name := "first", varIndices := [0, 2], coefficients := [1, 1], lhs := .fin 0 },
      { name := "second", varIndices := [0, 1], coefficients := [3, 5], rhs := .fin (-1) },
      { name := "third", varIndices := [0, 1, 2], coefficients := [5, 2, 7], lhs := .fin (-2), rhs := .fin 3 }]
    offset := 1 }

-- PopulatesMipDataFrom3x3MiniMipProblem (mip_data_test.cc:311-433)
example : (do return view (← data square)) = .ok ⟨"Test", false, 1, [(0, 1), (1, 2), (2, 3)], [], [.ninf, .ninf, .ninf],
    [.pinf, .pinf, .pinf], [.fin 0, .ninf, .fin (-2)], [.pinf, .fin (-1), .fin 3]⟩ := by decide +kernel
example : (do return types (← data square)) = .ok ⟨[0, 1], [true, true, false], ["x1", "x2", "x3"],
    ["first", "second", "third"], [false, true, false], 3, 3⟩ := by decide +kernel
example : (do rowOf (← data square).matrix 0) = .ok [(0, 1), (2, 1)] ∧
    (do rowOf (← data square).matrix 1) = .ok [(0, 3), (1, 5)] ∧
    (do rowOf (← data square).matrix 2) = .ok [(0, 5), (1, 2), (2, 7)] ∧
    (do colOf (← data square).matrix 0) = .ok [(0, 1), (1, 3), (2, 5)] ∧
    (do colOf (← data square).matrix 1) = .ok [(1, 5), (2, 2)] ∧
    (do colOf (← data square).matrix 2) = .ok [(0, 1), (2, 7)] := by decide +kernel

end MipDataTest
end Check
end MiniMip
