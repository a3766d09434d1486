import Verif.Check.SparseVectorTest
import Verif.Model.SparseMatrix

/-!
# The unit tests of the sparse matrices, run on the model

unit_tests/data_structures/strong_sparse_matrix_test.cc, test by test (see `Verif.Check.SparseVectorTest`).
-/

namespace MiniMip
namespace Check
namespace SparseMatrixTest

open SparseVectorTest (row pairs)

/-- The entries of `m.row(r)`. -/
def rowOf (m : SparseMatrix) (r : Nat) : Outcome (List (Int × ℚ)) := do
  let (_, v) ← m.row r
  return pairs v

/-- The entries of `m.col(c)`. -/
def colOf (m : SparseMatrix) (c : Nat) : Outcome (List (Int × ℚ)) := do
  let (_, v) ← m.col c
  return pairs v

/-- The value of `m.GetCoefficient(c, r)`. -/
def coefficient (m : SparseMatrix) (c r : Nat) : Outcome ℚ := do
  let (_, x) ← m.getCoefficient c r
  return x

/-- The body of the loops of `DenseToSparseMatrix` (strong_sparse_matrix_test.cc:31-45). -/
def setAll (m : SparseMatrix) : List (Nat × Nat × ℚ) → Outcome SparseMatrix
  | [] => .ok m
  | (r, c, x) :: l => do setAll (← if x ≠ 0 then m.setCoefficient c r x else .ok m) l

/-- `AllRowsAreClean` and `AllColsAreClean`. -/
def allClean (m : SparseMatrix) : Bool :=
  m.rows.all (fun v => !v.mayNeedCleaning) && m.cols.all (fun v => !v.mayNeedCleaning)

/-- The matrix of `InitializeAndGetValues`. -/
def sample : Outcome SparseMatrix := do
  let m ← ({} : SparseMatrix).resize 3 2
  setAll m [(0, 0, 1), (0, 1, 0), (0, 2, 3), (1, 0, 0), (1, 1, 2), (1, 2, 0)]

-- InitializeAndGetValues (strong_sparse_matrix_test.cc:47-70)
example : (do let m ← sample; return allClean m && m.numRows = 2 && m.numCols = 3) = .ok true := by decide +kernel
example : (do rowOf (← sample) 0) = .ok [(0, 1), (2, 3)] ∧ (do rowOf (← sample) 1) = .ok [(1, 2)] := by decide +kernel
example : (do colOf (← sample) 0) = .ok [(0, 1)] ∧ (do colOf (← sample) 1) = .ok [(1, 2)] ∧
    (do colOf (← sample) 2) = .ok [(0, 3)] := by decide +kernel
example : (do coefficient (← sample) 0 0) = .ok 1 ∧ (do coefficient (← sample) 1 0) = .ok 0 ∧
    (do coefficient (← sample) 2 0) = .ok 3 ∧ (do coefficient (← sample) 0 1) = .ok 0 ∧
    (do coefficient (← sample) 1 1) = .ok 2 ∧ (do coefficient (← sample) 2 1) = .ok 0 := by decide +kernel

/-- The matrix of `PopulatesColsFromRows`. -/
def byRows : Outcome SparseMatrix := do
  let m ← (SparseMatrix.mk' 3 2).populateRow 0 (row [(1, 2)])
  m.populateRow 1 (row [(0, 1), (2, 3)])

-- PopulatesColsFromRows (strong_sparse_matrix_test.cc:72-84)
example : (do colOf (← byRows) 0) = .ok [(1, 1)] ∧ (do colOf (← byRows) 1) = .ok [(0, 2)] ∧
    (do colOf (← byRows) 2) = .ok [(1, 3)] := by decide +kernel

/-- The matrix of `PopulatesRowsFromCols`. -/
def byCols : Outcome SparseMatrix := do
  let m ← (SparseMatrix.mk' 2 3).populateCol 0 (row [(1, 2)])
  m.populateCol 1 (row [(0, 1), (2, 3)])

-- PopulatesRowsFromCols (strong_sparse_matrix_test.cc:86-98)
example : (do rowOf (← byCols) 0) = .ok [(1, 1)] ∧ (do rowOf (← byCols) 1) = .ok [(0, 2)] ∧
    (do rowOf (← byCols) 2) = .ok [(1, 3)] := by decide +kernel

end SparseMatrixTest
end Check
end MiniMip
