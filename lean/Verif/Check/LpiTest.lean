import Verif.Check.MipDataTest
import Verif.Model.Populate

/-!
# The unit tests of the LP interfaces that build an LP, run on both models

unit_tests/lp_interface/lpi_test.cc:40-905, test by test (see `Verif.Check.SparseVectorTest`).  As in the tests, one
text serves both interfaces (`TEST_P`).  A successful `SolveLpWithPrimalSimplex` is external; here it only makes the
interface solved.  The tests that solve an LP and look at the solution depend on the external solvers and are not
mirrored.
-/

namespace MiniMip
namespace Check
namespace LpiTest

open SparseVectorTest (row)
open Glop (NewColumn NewRow)

/-- The virtual methods of `LpInterface` that the tests call. -/
structure Lpi where
  Interface : Type
  created : Interface
  infinity : Dbl
  solve : Interface → Interface
  isSolved : Interface → Bool
  clear : Interface → Outcome Interface
  clearState : Interface → Outcome Interface
  populate : Interface → MipData → Outcome Interface
  setObjectiveSense : Interface → Bool → Outcome Interface
  addColumn : Interface → NewColumn → Outcome Interface
  addColumns : Interface → List NewColumn → Outcome Interface
  addRow : Interface → NewRow → Outcome Interface
  addRows : Interface → List NewRow → Outcome Interface
  deleteColumns : Interface → Int → Int → Outcome Interface
  deleteRows : Interface → Int → Int → Outcome Interface
  deleteRowSet : Interface → List Bool → Outcome (Interface × List Int)
  setObjectiveCoefficient : Interface → Int → ℚ → Outcome Interface
  setColumnBounds : Interface → Int → Dbl → Dbl → Outcome Interface
  setRowSides : Interface → Int → Dbl → Dbl → Outcome Interface
  numberOfColumns : Interface → Int
  numberOfRows : Interface → Int
  numberOfNonZeros : Interface → Int
  lowerBound : Interface → Int → Outcome Dbl
  upperBound : Interface → Int → Outcome Dbl
  objectiveCoefficient : Interface → Int → Outcome ℚ
  leftHandSide : Interface → Int → Outcome Dbl
  rightHandSide : Interface → Int → Outcome Dbl
  matrixCoefficient : Interface → Int → Int → Outcome ℚ
  sparseRow : Interface → Int → Outcome SparseVector
  sparseColumn : Interface → Int → Outcome SparseVector

/-- `LpGlopInterface`. -/
def glop : Lpi where
  Interface := Glop.Interface
  created := {}
  infinity := .pinf
  solve g := { g with modified := false }
  isSolved := Glop.isSolved
  clear g := .ok (Glop.clear g)
  clearState g := .ok (Glop.clearState g)
  populate := Glop.populateFromMipData
  setObjectiveSense g b := .ok (Glop.setObjectiveSense g b)
  addColumn g c := .ok (Glop.addColumn g c.col c.lower c.upper c.objective c.name)
  addColumns g cs := .ok (Glop.addColumns g cs)
  addRow g r := Glop.addRow g r.row r.lhs r.rhs r.name
  addRows := Glop.addRows
  deleteColumns := Glop.deleteColumns
  deleteRows := Glop.deleteRows
  deleteRowSet := Glop.deleteRowSet
  setObjectiveCoefficient := Glop.setObjectiveCoefficient
  setColumnBounds := Glop.setColumnBounds
  setRowSides := Glop.setRowSides
  numberOfColumns := Glop.getNumberOfColumns
  numberOfRows := Glop.getNumberOfRows
  numberOfNonZeros := Glop.getNumberOfNonZeros
  lowerBound := Glop.getLowerBound
  upperBound := Glop.getUpperBound
  objectiveCoefficient := Glop.getObjectiveCoefficient
  leftHandSide := Glop.getLeftHandSide
  rightHandSide := Glop.getRightHandSide
  matrixCoefficient := Glop.getMatrixCoefficient
  sparseRow := Glop.getSparseRowCoefficients
  sparseColumn := Glop.getSparseColumnCoefficients

/-- `LpSoplexInterface`; SoPlex hands out non-zeros in the order in which they were added. -/
def soplex : Lpi where
  Interface := Soplex.Interface
  created := { settings := ⟨false, .biequi, true, .auto, .fin (1 / 10 ^ 6), .fin (1 / 10 ^ 6), .fin (1 / 10 ^ 4), 0,
    .fin (-(10 ^ 100)), .fin (10 ^ 100), .off, .fin (10 ^ 100 / 2), -1, 0, false⟩ }
  infinity := .fin (10 ^ 100)
  solve g := { g with isSolved := true }
  isSolved g := g.isSolved
  clear := Soplex.clear
  clearState g := do return (← Soplex.clearState g false).1
  populate := Soplex.populateFromMipData
  setObjectiveSense := Soplex.setObjectiveSense
  addColumn := Soplex.addColumn
  addColumns := Soplex.addColumns
  addRow := Soplex.addRow
  addRows := Soplex.addRows
  deleteColumns := Soplex.deleteColumns
  deleteRows := Soplex.deleteRows
  deleteRowSet := Soplex.deleteRowSet
  setObjectiveCoefficient := Soplex.setObjectiveCoefficient
  setColumnBounds := Soplex.setColumnBounds
  setRowSides := Soplex.setRowSides
  numberOfColumns := Soplex.getNumberOfColumns
  numberOfRows := Soplex.getNumberOfRows
  numberOfNonZeros := Soplex.getNumberOfNonZeros
  lowerBound := Soplex.getLowerBound
  upperBound := Soplex.getUpperBound
  objectiveCoefficient := Soplex.getObjectiveCoefficient
  leftHandSide := Soplex.getLeftHandSide
  rightHandSide := Soplex.getRightHandSide
  matrixCoefficient := Soplex.getMatrixCoefficient
  sparseRow := Soplex.getSparseRowCoefficients id
  sparseColumn := Soplex.getSparseColumnCoefficients id

/-- `-Infinity()`. -/
def Lpi.minus (L : Lpi) : Dbl :=
  match L.infinity with
  | .fin q => .fin (-q)
  | _ => .ninf

/-- `Extract…`: a getter called for all columns or rows. -/
def extract {α : Type} (n : Int) (get : Int → Outcome α) : Outcome (List α) :=
  (List.range n.toNat).mapM fun i : Nat => get (i : Int)

/-- What the tests read. -/
structure View where
  solved : Bool
  nonZeros : Int
  objective : List ℚ
  lower : List Dbl
  upper : List Dbl
  lhs : List Dbl
  rhs : List Dbl
  matrix : List (List ℚ)
  deriving DecidableEq

/-- What the tests read; `matrix` is `ExtractMatrix()`, by columns. -/
def Lpi.view (L : Lpi) (g : L.Interface) : Outcome View := do
  let cols := L.numberOfColumns g
  let rows := L.numberOfRows g
  return ⟨L.isSolved g, L.numberOfNonZeros g, ← extract cols (L.objectiveCoefficient g),
    ← extract cols (L.lowerBound g), ← extract cols (L.upperBound g), ← extract rows (L.leftHandSide g),
    ← extract rows (L.rightHandSide g), ← extract cols fun c => extract rows (L.matrixCoefficient g c)⟩

/-- The matrix as `GetSparseColumnCoefficients` returns it. -/
def Lpi.byColumns (L : Lpi) (g : L.Interface) : Outcome (List (List ℚ)) :=
  extract (L.numberOfColumns g) fun c => do
    let v ← L.sparseColumn g c
    extract (L.numberOfRows g) fun r => .ok (v.value r)

/-- The matrix as `GetSparseRowCoefficients` returns it, by columns. -/
def Lpi.byRows (L : Lpi) (g : L.Interface) : Outcome (List (List ℚ)) :=
  extract (L.numberOfColumns g) fun c =>
    extract (L.numberOfRows g) fun r => do return (← L.sparseRow g r).value c

/-- `InitEmptyProblem` (lpi_test.cc:151-163). -/
def Lpi.initEmpty (L : Lpi) (g : L.Interface) (cols rows : Nat) : Outcome L.Interface := do
  let g ← L.clear g
  let g ← (List.range cols).foldlM (fun g _ => L.addColumn g ⟨{}, L.minus, L.infinity, 0, ""⟩) g
  (List.range rows).foldlM (fun g _ => L.addRow g ⟨{}, L.minus, L.infinity, ""⟩) g

/-- `InitSimpleProblem` (lpi_test.cc:172-206). -/
def Lpi.initSimple (L : Lpi) (g : L.Interface) (cols rows : Nat) : Outcome L.Interface := do
  let g ← L.clear g
  let g ← L.addColumns g ((List.range cols).map fun i =>
    ⟨{}, .fin (-(i + 1 : ℚ)), .fin (i + 1 : ℚ), (i + 1 : ℚ), ""⟩)
  L.addRows g ((List.range rows).map fun j =>
    ⟨row ((List.range cols).map fun i => ((i : Int), (i * rows + j + 1 : ℚ))), .fin (-(j + 1 : ℚ)),
      .fin (j + 1 : ℚ), "hi"⟩)

/-- The state most tests start from: the simple problem with four columns and five rows, solved. -/
def Lpi.simpleSolved (L : Lpi) : Outcome L.Interface := do
  let g := L.solve (← L.initSimple L.created 4 5)
  if L.isSolved g then .ok g else .error "EXPECT_TRUE(lpi_->IsSolved())"

/-- The consecutive numbers `a, …, b`. -/
def upTo (a b : Nat) : List ℚ := ((List.range (b + 1 - a)).map fun i => ((a + i : Nat) : ℚ))

/-- The numbers as bounds. -/
def fins (l : List ℚ) : List Dbl := l.map .fin

/-- Their negatives. -/
def negs (l : List ℚ) : List Dbl := l.map fun q => .fin (-q)

/-- The matrix of `AddColumnRow`, `AddColumnsRowsBatched` and `ConstructFromMipData`. -/
def bigMatrix : List (List ℚ) :=
  [[1, 0, 0, 0, -19 / 10, 0], [5, 0, 2, 1, 0, 0], [0, 0, 300000, 20, 0, 0], [0, -1, 0, 0, 0, 1 / 100],
    [0, 0, 0, 10, 0, 0]]

/-- The LP of `AddColumnRow` (lpi_test.cc:240-258). -/
def Lpi.oneByOne (L : Lpi) : Outcome L.Interface := do
  let g ← L.setObjectiveSense L.created true
  let g ← L.addColumn g ⟨{}, .fin (-1), .fin 10, 1, "x1"⟩
  let g ← L.addColumn g ⟨{}, L.minus, L.infinity, 2, "x2"⟩
  let g ← L.addRow g ⟨row [(0, 1), (1, 5)], L.minus, .fin (-1), "ct1"⟩
  let g ← L.addRow g ⟨{}, .fin (-1), .fin (-3 / 10 ^ 10), "ct2"⟩
  let g ← L.addColumn g ⟨{}, .fin 0, L.infinity, -4, "x3"⟩
  let g ← L.addColumn g ⟨row [(1, -1)], L.minus, .fin (293 / 10), 1 / 1000, "x4"⟩
  let g ← L.addRow g ⟨row [(1, 2), (2, 300000)], .fin (-3 / 10 ^ 10), .fin 0, "ct3"⟩
  let g ← L.addRow g ⟨row [(1, 1), (2, 20)], .fin 0, .fin 1, "ct4"⟩
  let g ← L.addColumn g ⟨row [(3, 10)], .fin 1, .fin 1, 0, "x5"⟩
  let g ← L.addRow g ⟨row [(0, -19 / 10)], .fin 1, .fin (3 * 10 ^ 10), "ct5"⟩
  L.addRow g ⟨row [(3, 1 / 100)], .fin (3 * 10 ^ 10), L.infinity, "ct6"⟩

/-- The LP of `AddColumnsRowsBatched` (lpi_test.cc:322-376). -/
def Lpi.batched (L : Lpi) : Outcome L.Interface := do
  let g ← L.addColumns L.created [⟨{}, .fin (-1), .fin 10, 1, "x1"⟩, ⟨{}, L.minus, L.infinity, 2, "x2"⟩]
  let g ← L.addRows g [⟨row [(0, 1), (1, 5)], L.minus, .fin (-1), "ct1"⟩,
    ⟨{}, .fin (-1), .fin (-3 / 10 ^ 10), "ct2"⟩]
  let g ← L.addColumns g [⟨{}, .fin 0, L.infinity, -4, "x3"⟩,
    ⟨row [(1, -1)], L.minus, .fin (293 / 10), 1 / 1000, "x4"⟩]
  let g ← L.addRows g [⟨row [(1, 2), (2, 300000)], .fin (-3 / 10 ^ 10), .fin 0, "ct3"⟩,
    ⟨row [(1, 1), (2, 20)], .fin 0, .fin 1, "ct4"⟩]
  let g ← L.addColumns g [⟨row [(3, 10)], .fin 1, .fin 1, 0, "x5"⟩]
  L.addRows g [⟨row [(0, -19 / 10)], .fin 1, .fin (3 * 10 ^ 10), "ct5"⟩,
    ⟨row [(3, 1 / 100)], .fin (3 * 10 ^ 10), L.infinity, "ct6"⟩]

/-- The problem of `ConstructFromMipData` (lpi_test.cc:793-862). -/
def Lpi.problem (L : Lpi) : Problem where
  isMaximization := true
  vars := [
    { name := "x1", objective := 1, lower := .fin (-1), upper := .fin 10, isInteger := false },
    { name := "x2", objective := 2, lower := L.minus, upper := L.infinity, isInteger := false },
    { name := "x3", objective := -4, lower := .fin 0, upper := L.infinity, isInteger := true },
    { name := "x4", objective := 1 / 1000, lower := L.minus, upper := .fin 29, isInteger := true },
    { name := "x5", objective := 0, lower := .fin 1, upper := .fin 1, isInteger := false }]
  constraints := [
    { name := "ct1", varIndices := [0, 1], coefficients := [1, 5], lhs := L.minus, rhs := .fin (-1) },
    { name := "ct2", varIndices := [3], coefficients := [-1], lhs := .fin (-1), rhs := .fin (-3 / 10 ^ 10) },
    { name := "ct3", varIndices := [1, 2], coefficients := [2, 300000], lhs := .fin (-3 / 10 ^ 10), rhs := .fin 0 },
    { name := "ct4", varIndices := [1, 2, 4], coefficients := [1, 20, 10], lhs := .fin 0, rhs := .fin 1 },
    { name := "ct5", varIndices := [0], coefficients := [-19 / 10], lhs := .fin 1, rhs := .fin (3 * 10 ^ 10) },
    { name := "ct6", varIndices := [3], coefficients := [1 / 100], lhs := .fin (3 * 10 ^ 10), rhs := L.infinity }]

/-- `PopulateFromMipData(MipData(problem))`. -/
def Lpi.populated (L : Lpi) : Outcome L.Interface := do L.populate L.created (← MipDataTest.data L.problem)

-- AddColumnRow (lpi_test.cc:218-301)
example : (do
      glop.view (← glop.oneByOne)
    ) = .ok ⟨false, 10, [1, 2, -4, 1 / 1000, 0], [.fin (-1), glop.minus, .fin 0, glop.minus, .fin 1],
      [.fin 10, glop.infinity, glop.infinity, .fin (293 / 10), .fin 1],
      [glop.minus, .fin (-1), .fin (-3 / 10 ^ 10), .fin 0, .fin 1, .fin (3 * 10 ^ 10)],
      [.fin (-1), .fin (-3 / 10 ^ 10), .fin 0, .fin 1, .fin (3 * 10 ^ 10), glop.infinity],
      bigMatrix⟩ := by decide +kernel
example : (do
      soplex.view (← soplex.oneByOne)
    ) = .ok ⟨false, 10, [1, 2, -4, 1 / 1000, 0], [.fin (-1), soplex.minus, .fin 0, soplex.minus, .fin 1],
      [.fin 10, soplex.infinity, soplex.infinity, .fin (293 / 10), .fin 1],
      [soplex.minus, .fin (-1), .fin (-3 / 10 ^ 10), .fin 0, .fin 1, .fin (3 * 10 ^ 10)],
      [.fin (-1), .fin (-3 / 10 ^ 10), .fin 0, .fin 1, .fin (3 * 10 ^ 10), soplex.infinity],
      bigMatrix⟩ := by decide +kernel

-- AddColumnRow, the other getters (lpi_test.cc:218-301)
example : (do
      glop.byColumns (← glop.oneByOne)
    ) = .ok bigMatrix := by decide +kernel
example : (do
      soplex.byColumns (← soplex.oneByOne)
    ) = .ok bigMatrix := by decide +kernel

-- AddColumnRow, the other getters (lpi_test.cc:218-301)
example : (do
      glop.byRows (← glop.oneByOne)
    ) = .ok bigMatrix := by decide +kernel
example : (do
      soplex.byRows (← soplex.oneByOne)
    ) = .ok bigMatrix := by decide +kernel

-- AddColumnsRowsBatched (lpi_test.cc:303-416)
example : (do
      glop.view (← glop.batched)
    ) = .ok ⟨false, 10, [1, 2, -4, 1 / 1000, 0], [.fin (-1), glop.minus, .fin 0, glop.minus, .fin 1],
      [.fin 10, glop.infinity, glop.infinity, .fin (293 / 10), .fin 1],
      [glop.minus, .fin (-1), .fin (-3 / 10 ^ 10), .fin 0, .fin 1, .fin (3 * 10 ^ 10)],
      [.fin (-1), .fin (-3 / 10 ^ 10), .fin 0, .fin 1, .fin (3 * 10 ^ 10), glop.infinity],
      bigMatrix⟩ := by decide +kernel
example : (do
      soplex.view (← soplex.batched)
    ) = .ok ⟨false, 10, [1, 2, -4, 1 / 1000, 0], [.fin (-1), soplex.minus, .fin 0, soplex.minus, .fin 1],
      [.fin 10, soplex.infinity, soplex.infinity, .fin (293 / 10), .fin 1],
      [soplex.minus, .fin (-1), .fin (-3 / 10 ^ 10), .fin 0, .fin 1, .fin (3 * 10 ^ 10)],
      [.fin (-1), .fin (-3 / 10 ^ 10), .fin 0, .fin 1, .fin (3 * 10 ^ 10), soplex.infinity],
      bigMatrix⟩ := by decide +kernel

-- AddColumnsRowsBatched, the other getters (lpi_test.cc:303-416)
example : (do
      glop.byColumns (← glop.batched)
    ) = .ok bigMatrix := by decide +kernel
example : (do
      soplex.byColumns (← soplex.batched)
    ) = .ok bigMatrix := by decide +kernel

-- AddColumnsRowsBatched, the other getters (lpi_test.cc:303-416)
example : (do
      glop.byRows (← glop.batched)
    ) = .ok bigMatrix := by decide +kernel
example : (do
      soplex.byRows (← soplex.batched)
    ) = .ok bigMatrix := by decide +kernel

-- ConstructFromMipData (lpi_test.cc:776-905)
example : (do
      glop.view (← glop.populated)
    ) = .ok ⟨false, 10, [-1, -2, 4, -1 / 1000, 0], [.fin (-1), glop.minus, .fin 0, glop.minus, .fin 1],
      [.fin 10, glop.infinity, glop.infinity, .fin 29, .fin 1],
      [glop.minus, .fin (-1), .fin (-3 / 10 ^ 10), .fin 0, .fin 1, .fin (3 * 10 ^ 10)],
      [.fin (-1), .fin (-3 / 10 ^ 10), .fin 0, .fin 1, .fin (3 * 10 ^ 10), glop.infinity],
      bigMatrix⟩ := by decide +kernel
example : (do
      soplex.view (← soplex.populated)
    ) = .ok ⟨false, 10, [-1, -2, 4, -1 / 1000, 0], [.fin (-1), soplex.minus, .fin 0, soplex.minus, .fin 1],
      [.fin 10, soplex.infinity, soplex.infinity, .fin 29, .fin 1],
      [soplex.minus, .fin (-1), .fin (-3 / 10 ^ 10), .fin 0, .fin 1, .fin (3 * 10 ^ 10)],
      [.fin (-1), .fin (-3 / 10 ^ 10), .fin 0, .fin 1, .fin (3 * 10 ^ 10), soplex.infinity],
      bigMatrix⟩ := by decide +kernel

-- ConstructFromMipData, the other getters (lpi_test.cc:776-905)
example : (do
      glop.byColumns (← glop.populated)
    ) = .ok bigMatrix := by decide +kernel
example : (do
      soplex.byColumns (← soplex.populated)
    ) = .ok bigMatrix := by decide +kernel

-- ConstructFromMipData, the other getters (lpi_test.cc:776-905)
example : (do
      glop.byRows (← glop.populated)
    ) = .ok bigMatrix := by decide +kernel
example : (do
      soplex.byRows (← soplex.populated)
    ) = .ok bigMatrix := by decide +kernel

-- Clear (lpi_test.cc:418-446)
example : (do
      let g ← glop.simpleSolved
      let v ← glop.view (← glop.clear g)
      let h ← glop.initEmpty (← glop.clear g) 3 2
      let w ← glop.view h
      return ((← glop.view g).nonZeros, v, w)
    ) = .ok (20, ⟨false, 0, [], [], [], [], [], []⟩,
      ⟨false, 0, [0, 0, 0], [glop.minus, glop.minus, glop.minus],
        [glop.infinity, glop.infinity, glop.infinity], [glop.minus, glop.minus], [glop.infinity, glop.infinity],
        [[0, 0], [0, 0], [0, 0]]⟩) := by decide +kernel
example : (do
      let g ← soplex.simpleSolved
      let v ← soplex.view (← soplex.clear g)
      let h ← soplex.initEmpty (← soplex.clear g) 3 2
      let w ← soplex.view h
      return ((← soplex.view g).nonZeros, v, w)
    ) = .ok (20, ⟨false, 0, [], [], [], [], [], []⟩,
      ⟨false, 0, [0, 0, 0], [soplex.minus, soplex.minus, soplex.minus],
        [soplex.infinity, soplex.infinity, soplex.infinity], [soplex.minus, soplex.minus], [soplex.infinity, soplex.infinity],
        [[0, 0], [0, 0], [0, 0]]⟩) := by decide +kernel

-- ClearStateDoesNotClearModel (lpi_test.cc:448-461)
example : (do
      glop.view (← glop.clearState (← glop.initSimple glop.created 2 2))
    ) = .ok ⟨false, 4, [1, 2], negs [1, 2], fins [1, 2], negs [1, 2],
      fins [1, 2], [[1, 2], [3, 4]]⟩ := by decide +kernel
example : (do
      soplex.view (← soplex.clearState (← soplex.initSimple soplex.created 2 2))
    ) = .ok ⟨false, 4, [1, 2], negs [1, 2], fins [1, 2], negs [1, 2],
      fins [1, 2], [[1, 2], [3, 4]]⟩ := by decide +kernel

-- DeleteSingleRow (lpi_test.cc:463-479)
example : (do
      glop.view (← glop.deleteRows (← glop.simpleSolved) 0 0)
    ) = .ok ⟨false, 16, [1, 2, 3, 4], negs [1, 2, 3, 4], fins [1, 2, 3, 4], negs [2, 3, 4, 5], fins [2, 3, 4, 5],
      [[2, 3, 4, 5], [7, 8, 9, 10], [12, 13, 14, 15], [17, 18, 19, 20]]⟩ := by decide +kernel
example : (do
      soplex.view (← soplex.deleteRows (← soplex.simpleSolved) 0 0)
    ) = .ok ⟨false, 16, [1, 2, 3, 4], negs [1, 2, 3, 4], fins [1, 2, 3, 4], negs [2, 3, 4, 5], fins [2, 3, 4, 5],
      [[2, 3, 4, 5], [7, 8, 9, 10], [12, 13, 14, 15], [17, 18, 19, 20]]⟩ := by decide +kernel

-- DeleteSingleRow (lpi_test.cc:481-496)
example : (do
      glop.view (← glop.deleteRows (← glop.simpleSolved) 2 2)
    ) = .ok ⟨false, 16, [1, 2, 3, 4], negs [1, 2, 3, 4], fins [1, 2, 3, 4], negs [1, 2, 4, 5], fins [1, 2, 4, 5],
      [[1, 2, 4, 5], [6, 7, 9, 10], [11, 12, 14, 15], [16, 17, 19, 20]]⟩ := by decide +kernel
example : (do
      soplex.view (← soplex.deleteRows (← soplex.simpleSolved) 2 2)
    ) = .ok ⟨false, 16, [1, 2, 3, 4], negs [1, 2, 3, 4], fins [1, 2, 3, 4], negs [1, 2, 4, 5], fins [1, 2, 4, 5],
      [[1, 2, 4, 5], [6, 7, 9, 10], [11, 12, 14, 15], [16, 17, 19, 20]]⟩ := by decide +kernel

-- DeleteSingleRow (lpi_test.cc:498-514)
example : (do
      glop.view (← glop.deleteRows (← glop.simpleSolved) 4 4)
    ) = .ok ⟨false, 16, [1, 2, 3, 4], negs [1, 2, 3, 4], fins [1, 2, 3, 4], negs [1, 2, 3, 4], fins [1, 2, 3, 4],
      [[1, 2, 3, 4], [6, 7, 8, 9], [11, 12, 13, 14], [16, 17, 18, 19]]⟩ := by decide +kernel
example : (do
      soplex.view (← soplex.deleteRows (← soplex.simpleSolved) 4 4)
    ) = .ok ⟨false, 16, [1, 2, 3, 4], negs [1, 2, 3, 4], fins [1, 2, 3, 4], negs [1, 2, 3, 4], fins [1, 2, 3, 4],
      [[1, 2, 3, 4], [6, 7, 8, 9], [11, 12, 13, 14], [16, 17, 18, 19]]⟩ := by decide +kernel

-- DeleteMultipleRows (lpi_test.cc:516-530)
example : (do
      glop.view (← glop.deleteRows (← glop.simpleSolved) 2 3)
    ) = .ok ⟨false, 12, [1, 2, 3, 4], negs [1, 2, 3, 4], fins [1, 2, 3, 4], negs [1, 2, 5], fins [1, 2, 5],
      [[1, 2, 5], [6, 7, 10], [11, 12, 15], [16, 17, 20]]⟩ := by decide +kernel
example : (do
      soplex.view (← soplex.deleteRows (← soplex.simpleSolved) 2 3)
    ) = .ok ⟨false, 12, [1, 2, 3, 4], negs [1, 2, 3, 4], fins [1, 2, 3, 4], negs [1, 2, 5], fins [1, 2, 5],
      [[1, 2, 5], [6, 7, 10], [11, 12, 15], [16, 17, 20]]⟩ := by decide +kernel

-- DeleteMultipleRows (lpi_test.cc:532-546)
example : (do
      glop.view (← glop.deleteRows (← glop.simpleSolved) 0 4)
    ) = .ok ⟨false, 0, [1, 2, 3, 4], negs [1, 2, 3, 4], fins [1, 2, 3, 4], negs [], fins [],
      [[], [], [], []]⟩ := by decide +kernel
example : (do
      soplex.view (← soplex.deleteRows (← soplex.simpleSolved) 0 4)
    ) = .ok ⟨false, 0, [1, 2, 3, 4], negs [1, 2, 3, 4], fins [1, 2, 3, 4], negs [], fins [],
      [[], [], [], []]⟩ := by decide +kernel

-- DeleteRowSet (lpi_test.cc:549-570)
example : (do
      let (g, mapping) ← glop.deleteRowSet (← glop.simpleSolved) [true, false, true, false, true]
      return (mapping, ← glop.view g)
    ) = .ok ([-1, 0, -1, 1, -1], ⟨false, 8, [1, 2, 3, 4], negs [1, 2, 3, 4], fins [1, 2, 3, 4],
      negs [2, 4], fins [2, 4], [[2, 4], [7, 9], [12, 14], [17, 19]]⟩) := by decide +kernel
example : (do
      let (g, mapping) ← soplex.deleteRowSet (← soplex.simpleSolved) [true, false, true, false, true]
      return (mapping, ← soplex.view g)
    ) = .ok ([-1, 0, -1, 1, -1], ⟨false, 8, [1, 2, 3, 4], negs [1, 2, 3, 4], fins [1, 2, 3, 4],
      negs [2, 4], fins [2, 4], [[2, 4], [7, 9], [12, 14], [17, 19]]⟩) := by decide +kernel

-- DeleteRowSet (lpi_test.cc:572-592)
example : (do
      let (g, mapping) ← glop.deleteRowSet (← glop.simpleSolved) [false, true, true, true, false]
      return (mapping, ← glop.view g)
    ) = .ok ([0, -1, -1, -1, 1], ⟨false, 8, [1, 2, 3, 4], negs [1, 2, 3, 4], fins [1, 2, 3, 4],
      negs [1, 5], fins [1, 5], [[1, 5], [6, 10], [11, 15], [16, 20]]⟩) := by decide +kernel
example : (do
      let (g, mapping) ← soplex.deleteRowSet (← soplex.simpleSolved) [false, true, true, true, false]
      return (mapping, ← soplex.view g)
    ) = .ok ([0, -1, -1, -1, 1], ⟨false, 8, [1, 2, 3, 4], negs [1, 2, 3, 4], fins [1, 2, 3, 4],
      negs [1, 5], fins [1, 5], [[1, 5], [6, 10], [11, 15], [16, 20]]⟩) := by decide +kernel

-- DeleteRowSet (lpi_test.cc:594-613)
example : (do
      let (g, mapping) ← glop.deleteRowSet (← glop.simpleSolved) [true, true, true, true, true]
      return (mapping, ← glop.view g)
    ) = .ok ([-1, -1, -1, -1, -1], ⟨false, 0, [1, 2, 3, 4], negs [1, 2, 3, 4], fins [1, 2, 3, 4],
      negs [], fins [], [[], [], [], []]⟩) := by decide +kernel
example : (do
      let (g, mapping) ← soplex.deleteRowSet (← soplex.simpleSolved) [true, true, true, true, true]
      return (mapping, ← soplex.view g)
    ) = .ok ([-1, -1, -1, -1, -1], ⟨false, 0, [1, 2, 3, 4], negs [1, 2, 3, 4], fins [1, 2, 3, 4],
      negs [], fins [], [[], [], [], []]⟩) := by decide +kernel

-- DeleteSingleColumn (lpi_test.cc:616-633)
example : (do
      glop.view (← glop.deleteColumns (← glop.simpleSolved) 0 0)
    ) = .ok ⟨false, 15, [2, 3, 4], negs [2, 3, 4], fins [2, 3, 4], negs [1, 2, 3, 4, 5],
      fins [1, 2, 3, 4, 5], [[6, 7, 8, 9, 10], [11, 12, 13, 14, 15], [16, 17, 18, 19, 20]]⟩ := by decide +kernel
example : (do
      soplex.view (← soplex.deleteColumns (← soplex.simpleSolved) 0 0)
    ) = .ok ⟨false, 15, [2, 3, 4], negs [2, 3, 4], fins [2, 3, 4], negs [1, 2, 3, 4, 5],
      fins [1, 2, 3, 4, 5], [[6, 7, 8, 9, 10], [11, 12, 13, 14, 15], [16, 17, 18, 19, 20]]⟩ := by decide +kernel

-- DeleteSingleColumn (lpi_test.cc:635-651)
example : (do
      glop.view (← glop.deleteColumns (← glop.simpleSolved) 1 1)
    ) = .ok ⟨false, 15, [1, 3, 4], negs [1, 3, 4], fins [1, 3, 4], negs [1, 2, 3, 4, 5],
      fins [1, 2, 3, 4, 5], [[1, 2, 3, 4, 5], [11, 12, 13, 14, 15], [16, 17, 18, 19, 20]]⟩ := by decide +kernel
example : (do
      soplex.view (← soplex.deleteColumns (← soplex.simpleSolved) 1 1)
    ) = .ok ⟨false, 15, [1, 3, 4], negs [1, 3, 4], fins [1, 3, 4], negs [1, 2, 3, 4, 5],
      fins [1, 2, 3, 4, 5], [[1, 2, 3, 4, 5], [11, 12, 13, 14, 15], [16, 17, 18, 19, 20]]⟩ := by decide +kernel

-- DeleteSingleColumn (lpi_test.cc:653-670)
example : (do
      glop.view (← glop.deleteColumns (← glop.simpleSolved) 3 3)
    ) = .ok ⟨false, 15, [1, 2, 3], negs [1, 2, 3], fins [1, 2, 3], negs [1, 2, 3, 4, 5],
      fins [1, 2, 3, 4, 5], [[1, 2, 3, 4, 5], [6, 7, 8, 9, 10], [11, 12, 13, 14, 15]]⟩ := by decide +kernel
example : (do
      soplex.view (← soplex.deleteColumns (← soplex.simpleSolved) 3 3)
    ) = .ok ⟨false, 15, [1, 2, 3], negs [1, 2, 3], fins [1, 2, 3], negs [1, 2, 3, 4, 5],
      fins [1, 2, 3, 4, 5], [[1, 2, 3, 4, 5], [6, 7, 8, 9, 10], [11, 12, 13, 14, 15]]⟩ := by decide +kernel

-- DeleteMultipleColumns (lpi_test.cc:672-688)
example : (do
      glop.view (← glop.deleteColumns (← glop.simpleSolved) 1 2)
    ) = .ok ⟨false, 10, [1, 4], negs [1, 4], fins [1, 4], negs [1, 2, 3, 4, 5],
      fins [1, 2, 3, 4, 5], [[1, 2, 3, 4, 5], [16, 17, 18, 19, 20]]⟩ := by decide +kernel
example : (do
      soplex.view (← soplex.deleteColumns (← soplex.simpleSolved) 1 2)
    ) = .ok ⟨false, 10, [1, 4], negs [1, 4], fins [1, 4], negs [1, 2, 3, 4, 5],
      fins [1, 2, 3, 4, 5], [[1, 2, 3, 4, 5], [16, 17, 18, 19, 20]]⟩ := by decide +kernel

-- DeleteMultipleColumns (lpi_test.cc:690-705)
example : (do
      glop.view (← glop.deleteColumns (← glop.simpleSolved) 0 3)
    ) = .ok ⟨false, 0, [], negs [], fins [], negs [1, 2, 3, 4, 5],
      fins [1, 2, 3, 4, 5], []⟩ := by decide +kernel
example : (do
      soplex.view (← soplex.deleteColumns (← soplex.simpleSolved) 0 3)
    ) = .ok ⟨false, 0, [], negs [], fins [], negs [1, 2, 3, 4, 5],
      fins [1, 2, 3, 4, 5], []⟩ := by decide +kernel

/-- The pairs of elements of a list. -/
def pairsOf {α : Type} (l : List α) : List (α × α) := l.flatMap fun x => l.map fun y => (x, y)

/-- The empty problem with two columns and two rows, solved. -/
def Lpi.emptySolved (L : Lpi) : Outcome L.Interface := do
  let g := L.solve (← L.initEmpty L.created 2 2)
  if L.isSolved g then .ok g else .error "EXPECT_TRUE(lpi_->IsSolved())"

/-- The body of `SetObjectiveCoefficients`. -/
def Lpi.setObjectives (L : Lpi) (c : ℚ × ℚ) : Outcome Bool := do
  let g ← L.setObjectiveCoefficient (← L.emptySolved) 0 c.1
  let g ← L.setObjectiveCoefficient g 1 c.2
  let a ← L.objectiveCoefficient g 0
  let b ← L.objectiveCoefficient g 1
  return !L.isSolved g && decide (a = c.1 ∧ b = c.2)

/-- The body of `SetColumnBounds`. -/
def Lpi.setBounds (L : Lpi) (c : (Dbl × Dbl) × (Dbl × Dbl)) : Outcome Bool := do
  let g ← L.setColumnBounds (← L.emptySolved) 0 c.1.1 c.2.1
  let g ← L.setColumnBounds g 1 c.1.2 c.2.2
  let l0 ← L.lowerBound g 0
  let u0 ← L.upperBound g 0
  let l1 ← L.lowerBound g 1
  let u1 ← L.upperBound g 1
  return !L.isSolved g && decide (l0 = c.1.1 ∧ u0 = c.2.1 ∧ l1 = c.1.2 ∧ u1 = c.2.2)

/-- The body of `SetRowSides`. -/
def Lpi.setSides (L : Lpi) (c : (Dbl × Dbl) × (Dbl × Dbl)) : Outcome Bool := do
  let g ← L.setRowSides (← L.emptySolved) 0 c.1.1 c.2.1
  let g ← L.setRowSides g 1 c.1.2 c.2.2
  let l0 ← L.leftHandSide g 0
  let r0 ← L.rightHandSide g 0
  let l1 ← L.leftHandSide g 1
  let r1 ← L.rightHandSide g 1
  return !L.isSolved g && decide (l0 = c.1.1 ∧ r0 = c.2.1 ∧ l1 = c.1.2 ∧ r1 = c.2.2)

/-- The values `SetColumnBounds` and `SetRowSides` try. -/
def Lpi.tried (L : Lpi) : List ((Dbl × Dbl) × (Dbl × Dbl)) :=
  (pairsOf [L.minus, .fin (-1), .fin 0, .fin 1]).flatMap fun x =>
    (pairsOf [.fin 5, .fin 6, .fin 7, L.infinity]).map fun y => (x, y)

-- SetObjectiveCoefficients (lpi_test.cc:707-722)
example : ∀ c ∈ pairsOf [(-1 : ℚ), 0, 1], glop.setObjectives c = .ok true := by decide +kernel
example : ∀ c ∈ pairsOf [(-1 : ℚ), 0, 1], soplex.setObjectives c = .ok true := by decide +kernel

-- SetColumnBounds (lpi_test.cc:724-748)
example : ∀ c ∈ glop.tried, glop.setBounds c = .ok true := by decide +kernel
example : ∀ c ∈ soplex.tried, soplex.setBounds c = .ok true := by decide +kernel

-- SetRowSides (lpi_test.cc:750-774)
example : ∀ c ∈ glop.tried, glop.setSides c = .ok true := by decide +kernel
example : ∀ c ∈ soplex.tried, soplex.setSides c = .ok true := by decide +kernel

end LpiTest
end Check
end MiniMip
