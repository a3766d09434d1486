import Verif.Model.DebugBuild

/-!
# `StrongSparseMatrix` in the build with assertions

The functions of `Model/SparseMatrix.lean` with every assertion of strong_sparse_matrix.{h,cc}, and those of
`MayNeedCleaning`, `CleanUpIfNeeded`, `entries`, `value`, `first_index` and `last_index` (strong_sparse_vector.h) on the vectors
they touch.
-/

namespace MiniMip

/-- `MayNeedCleaning` (strong_sparse_vector.h:250-258). -/
def SparseVector.debugMayNeed (v : SparseVector) : Outcome Bool := do
  Outcome.check (v.isClean || v.dirty)
  return v.dirty

/-- `CleanUpIfNeeded` (strong_sparse_vector.h:226-248). -/
def SparseVector.debugCleanUp (v : SparseVector) : Outcome SparseVector := do
  let _ ← v.debugMayNeed
  return v.cleanUpIfNeeded

/-- `value` (strong_sparse_vector.h:201-212). -/
def SparseVector.debugValue (v : SparseVector) (i : Int) : Outcome ℚ := do
  Outcome.check (!v.dirty)
  return v.value i

namespace SparseMatrix
namespace Debug

/-- `std::all_of` over `!MayNeedCleaning()` in `AllRowsAreClean` and `AllColsAreClean` (strong_sparse_matrix.h:104-118). -/
def allClean : List SparseVector → Outcome Bool
  | [] => .ok true
  | v :: r => do if ← v.debugMayNeed then return false else allClean r

/-- Inner loop of `PopulateFromTranspose` (strong_sparse_matrix.h:157-161). -/
def fillOne (i : Nat) (target : List SparseVector) : List Entry → Outcome (List SparseVector)
  | [] => .ok target
  | e :: r => do
    Outcome.check (decide (0 ≤ e.index))
    Outcome.check (decide (e.index < target.length))
    fillOne i (← addAt target e.index i e.value) r

/-- Outer loop of `PopulateFromTranspose` (strong_sparse_matrix.h:155-162), from position `i` on.  Returns the target and the
cleaned vectors. -/
def fill (i : Nat) (target : List SparseVector) : List SparseVector → Outcome (List SparseVector × List SparseVector)
  | [] => .ok (target, [])
  | v :: r => do
    let v ← v.debugCleanUp
    let l ← v.debugEntries
    let target ← fillOne i target l
    let (target, r) ← fill (i + 1) target r
    return (target, v :: r)

/-- `PopulateFromTranspose` (strong_sparse_matrix.h:144-166) without its last two assertions. -/
def populateFromTranspose (target transpose : List SparseVector) : Outcome (List SparseVector × List SparseVector) :=
  fill 0 (target.map SparseVector.clear) transpose

/-- `RecomputeRowsFromColsIfNeeded` (strong_sparse_matrix.cc:193-198) with the last assertions of `PopulateFromTranspose`
(strong_sparse_matrix.h:164-165). -/
def recomputeRows (m : SparseMatrix) : Outcome SparseMatrix :=
  if m.rowsNeed then do
    Outcome.check (!m.colsNeed)
    let (rows, cols) ← populateFromTranspose m.rows m.cols
    Outcome.check (← allClean rows)
    Outcome.check (← allClean cols)
    return ⟨cols, rows, .upToDate⟩
  else .ok m

/-- `RecomputeColsFromRowsIfNeeded` (strong_sparse_matrix.cc:200-205), likewise. -/
def recomputeCols (m : SparseMatrix) : Outcome SparseMatrix :=
  if m.colsNeed then do
    Outcome.check (!m.rowsNeed)
    let (cols, rows) ← populateFromTranspose m.cols m.rows
    Outcome.check (← allClean rows)
    Outcome.check (← allClean cols)
    return ⟨cols, rows, .upToDate⟩
  else .ok m

/-- `row(i)` (strong_sparse_matrix.cc:31-37). -/
def row (m : SparseMatrix) (r : Nat) : Outcome (SparseMatrix × SparseVector) := do
  Outcome.check (decide (r < m.numRows))
  let m ← recomputeRows m
  let v ← at? m.rows r
  let v ← v.debugCleanUp
  return ({ m with rows := m.rows.set r v }, v)

/-- `col(i)` (strong_sparse_matrix.cc:39-45). -/
def col (m : SparseMatrix) (c : Nat) : Outcome (SparseMatrix × SparseVector) := do
  Outcome.check (decide (c < m.numCols))
  let m ← recomputeCols m
  let v ← at? m.cols c
  let v ← v.debugCleanUp
  return ({ m with cols := m.cols.set c v }, v)

/-- `GetCoefficient` (strong_sparse_matrix.cc:47-72). -/
def getCoefficient (m : SparseMatrix) (c r : Nat) : Outcome (SparseMatrix × ℚ) := do
  Outcome.check (decide (c < m.numCols))
  Outcome.check (decide (r < m.numRows))
  let first : Option ℚ ←
    if m.rowsNeed then pure none
    else do
      let v ← at? m.rows r
      if ← v.debugMayNeed then pure none else pure (some (← v.debugValue c))
  match first with
  | some x => return (m, x)
  | none =>
    let second : Option ℚ ←
      if m.colsNeed then pure none
      else do
        let v ← at? m.cols c
        if ← v.debugMayNeed then pure none else pure (some (← v.debugValue r))
    match second with
    | some x => return (m, x)
    | none =>
      if !m.rowsNeed then do
        let v ← at? m.rows r
        let v ← v.debugCleanUp
        return ({ m with rows := m.rows.set r v }, ← v.debugValue c)
      else do
        let v ← at? m.cols c
        let v ← v.debugCleanUp
        return ({ m with cols := m.cols.set c v }, ← v.debugValue r)

/-- `SetCoefficient` (strong_sparse_matrix.cc:74-83). -/
def setCoefficient (m : SparseMatrix) (c r : Nat) (x : ℚ) : Outcome SparseMatrix := do
  Outcome.check (decide (c < m.numCols))
  Outcome.check (decide (r < m.numRows))
  m.setCoefficient c r x

/-- The data of `PopulateCol` and `PopulateRow` after the assignment (strong_sparse_matrix.cc:91-94, 105-108): cleaned, and
with indices below `n`. -/
def cleanData (data : SparseVector) (n : Nat) : Outcome SparseVector := do
  let v ← data.debugCleanUp
  let l ← v.debugEntries
  Outcome.check (l.isEmpty || (decide (0 ≤ v.firstIndex) && decide (v.lastIndex < n)))
  return v

/-- `PopulateCol` (strong_sparse_matrix.cc:85-96). -/
def populateCol (m : SparseMatrix) (c : Nat) (data : SparseVector) : Outcome SparseMatrix := do
  let m ← recomputeCols m
  Outcome.check (decide (c < m.numCols))
  let v ← cleanData data m.numRows
  return { m with cols := m.cols.set c v, consistency := .rowsNeedRecomputation }

/-- `PopulateRow` (strong_sparse_matrix.cc:98-110). -/
def populateRow (m : SparseMatrix) (r : Nat) (data : SparseVector) : Outcome SparseMatrix := do
  let m ← recomputeRows m
  Outcome.check (decide (r < m.numRows))
  let v ← cleanData data m.numCols
  return { m with rows := m.rows.set r v, consistency := .colsNeedRecomputation }

/-- `Resize` (strong_sparse_matrix.cc:112-191), with non-negative sizes. -/
def resize (m : SparseMatrix) (nc nr : Nat) : Outcome SparseMatrix :=
  if nc = 0 ∧ nr = 0 then .ok m.clear
  else if nr = 0 then
    .ok ⟨(resizeVec m.cols nc).map SparseVector.clear, [], .upToDate⟩
  else if nc = 0 then
    .ok ⟨[], (resizeVec m.rows nr).map SparseVector.clear, .upToDate⟩
  else
    let m := if nr ≥ m.numRows then { m with rows := resizeVec m.rows nr } else m
    let m := if nc ≥ m.numCols then { m with cols := resizeVec m.cols nc } else m
    if nr = m.numRows ∧ nc = m.numCols then .ok m
    else if nr < m.numRows ∧ nc = m.numCols then do
      let m ← recomputeRows m
      return { m with rows := resizeVec m.rows nr, consistency := .colsNeedRecomputation }
    else if nc < m.numCols ∧ nr = m.numRows then do
      let m ← recomputeCols m
      return { m with cols := resizeVec m.cols nc, consistency := .rowsNeedRecomputation }
    else if !m.colsNeed then do
      let m := { m with cols := resizeVec m.cols nc, consistency := .rowsNeedRecomputation }
      let m ← recomputeRows m
      return { m with rows := resizeVec m.rows nr, consistency := .colsNeedRecomputation }
    else do
      Outcome.check (!m.rowsNeed)
      let m := { m with rows := resizeVec m.rows nr, consistency := .colsNeedRecomputation }
      let m ← recomputeCols m
      return { m with cols := resizeVec m.cols nc, consistency := .rowsNeedRecomputation }

end Debug
end SparseMatrix
end MiniMip
