import Verif.Model.DebugMatrix

/-!
# Filling the LP in the build with assertions

`PopulateFromMipData`, `AddColumn` and `AddRow` of both LP interfaces with their assertions, including those of `entries()`
(strong_sparse_vector.h:136-141) on the vectors they read and those of the matrix (`Model/DebugMatrix.lean`).
-/

namespace MiniMip

/-- `AllColsAreClean` (strong_sparse_matrix.h:112-118). -/
def SparseMatrix.Debug.allColsAreClean (m : SparseMatrix) : Outcome Bool :=
  if m.colsNeed then .ok false else allClean m.cols

/-- The assertions on the sizes of the vectors (lpi_glop.cc:162-167, lpi_soplex.cc:414-419). -/
def MipData.sizesAgree (d : MipData) : Bool :=
  decide (d.constraintNames.length = d.lhs.length) && decide (d.lhs.length = d.rhs.length) &&
    decide (d.variableNames.length = d.lower.length) && decide (d.lower.length = d.upper.length)

/-- All indices of the entries lie between 0 and `n`. -/
def indicesBelow (n : Nat) (l : List Entry) : Bool := l.all fun e => decide (0 ≤ e.index) && decide (e.index < n)

namespace Glop

/-- `AddColumn` (lpi_glop.cc:185-213).  The values are finite, so the assertion at line 206 holds. -/
def debugAddColumn (g : Interface) (col : SparseVector) (lower upper : Dbl) (objective : ℚ) (name : String) :
    Outcome Interface := do
  let l ← col.debugEntries
  Outcome.check (indicesBelow g.lp.rows.length l)
  return addColumn g col lower upper objective name

/-- `AddRow` (lpi_glop.cc:254-281).  The values are finite, so the assertion at line 274 holds. -/
def debugAddRow (g : Interface) (row : SparseVector) (lhs rhs : Dbl) (name : String) : Outcome Interface := do
  let l ← row.debugEntries
  Outcome.check (indicesBelow g.lp.cols.length l)
  addRow g row lhs rhs name

/-- The loop over the rows in `PopulateFromMipData` (lpi_glop.cc:169-174). -/
def debugPopulateRows (d : MipData) (g : Interface) : (n row : Nat) → Outcome Interface
  | 0, _ => .ok g
  | n + 1, row => do
    let lhs ← MipData.item d.lhs row
    let rhs ← MipData.item d.rhs row
    let name ← MipData.item d.constraintNames row
    let g ← debugAddRow g {} lhs rhs name
    debugPopulateRows d g n (row + 1)

/-- The loop over the columns in `PopulateFromMipData` (lpi_glop.cc:175-180).  `value` asserts that the objective is clean
(strong_sparse_vector.h:202). -/
def debugPopulateColumns (d : MipData) (g : Interface) (m : SparseMatrix) : (n col : Nat) → Outcome Interface
  | 0, _ => .ok g
  | n + 1, col => do
    let (m, v) ← SparseMatrix.Debug.col m col
    let lower ← MipData.item d.lower col
    let upper ← MipData.item d.upper col
    Outcome.check (!d.objective.dirty)
    let name ← MipData.item d.variableNames col
    let g ← debugAddColumn g v lower upper (d.objective.value col) name
    debugPopulateColumns d g m n (col + 1)

/-- `PopulateFromMipData` (lpi_glop.cc:159-183). -/
def debugPopulateFromMipData (g : Interface) (d : MipData) : Outcome Interface := do
  Outcome.check d.sizesAgree
  let g ← debugPopulateRows d (clear g) d.lhs.length 0
  let g ← debugPopulateColumns d g d.matrix d.matrix.numCols 0
  return setObjectiveSense g false

end Glop

namespace Soplex

open Glop (NewColumn NewRow)

/-- No value is infinite for SoPlex (`IsInfinity`, lpi_soplex.cc:1946-1950); `inf` is its parameter `INFTY`. -/
def valuesBelow (inf : ℚ) (l : List Entry) : Bool := l.all fun e => decide (|e.value| < inf)

/-- `AddRow` (lpi_soplex.cc:578-602). -/
def debugAddRow (inf : ℚ) (g : Interface) (r : NewRow) : Outcome Interface := do
  let l ← r.row.debugEntries
  Outcome.check (l.all fun e => decide (e.value ≠ 0))
  Outcome.check (indicesBelow g.lp.cols.length l)
  Outcome.check (valuesBelow inf l)
  addRow g r

/-- The loop of assertions in `AddColumns` (lpi_soplex.cc:518-524), with `n` columns to go and `rows` rows in the LP.  The
result is the matrix after the reads. -/
def checkColumns (rows : Nat) (m : SparseMatrix) : (n col : Nat) → Outcome SparseMatrix
  | 0, _ => .ok m
  | n + 1, col => do
    let (m, v) ← SparseMatrix.Debug.col m col
    let l ← v.debugEntries
    Outcome.check (indicesBelow rows l)
    Outcome.check (l.all fun e => decide (e.value ≠ 0))
    checkColumns rows m n (col + 1)

/-- The assertions on the matrix in `AddColumns` (lpi_soplex.cc:515-526). -/
def checkMatrix (rows : Nat) (m : SparseMatrix) : Outcome SparseMatrix :=
  if m.numCols = 0 then .ok m
  else do
    if ← SparseMatrix.Debug.allColsAreClean m then checkColumns rows m m.numCols 0 else return m

/-- The loop over the columns in `AddColumns` (lpi_soplex.cc:533-544), as `readColumns`. -/
def debugReadColumns (inf : ℚ) (d : MipData) (objective : List ℚ) (m : SparseMatrix) :
    (n col : Nat) → Outcome (List NewColumn)
  | 0, _ => .ok []
  | n + 1, col => do
    let (m, v) ← SparseMatrix.Debug.col m col
    let _ ← v.debugEntries
    let (m, v) ← SparseMatrix.Debug.col m col
    let l ← v.debugEntries
    Outcome.check (valuesBelow inf l)
    let x ← MipData.item objective col
    let lower ← MipData.item d.lower col
    let upper ← MipData.item d.upper col
    return ⟨v, lower, upper, x, ""⟩ :: (← debugReadColumns inf d objective m n (col + 1))

/-- `PopulateFromMipData` (lpi_soplex.cc:410-454) with `AddColumns` (499-551). -/
def debugPopulateFromMipData (inf : ℚ) (g : Interface) (d : MipData) : Outcome Interface := do
  let g ← clear g
  Outcome.check d.sizesAgree
  Outcome.check (freed g)
  let g := { g with lp := { g.lp with maximize := false } }
  let rows ← emptyRows d d.lhs.length 0
  let lp ← addRowsReal g.lp rows
  let l ← d.objective.debugEntries
  let objective ← objectiveVector (List.replicate d.lower.length 0) l
  let m ← checkMatrix lp.rows.length d.matrix
  let cs ← debugReadColumns inf d objective m d.matrix.numCols 0
  addColumns { g with lp := lp } cs

end Soplex
end MiniMip
