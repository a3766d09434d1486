import Verif.Model.SparseVector

/-!
# `StrongSparseMatrix` (minimip/data_structures/strong_sparse_matrix.{h,cc})

Row and column positions are `Nat`; an access outside the current dimensions (which the
code guards by DCHECKs only) is `Outcome.ub`, and a negative position would be just
another out-of-range access.  `const` methods that clean or recompute the `mutable`
members return the new matrix.
-/

namespace MiniMip

/-- `MatrixConsistency` (strong_sparse_matrix.h:122-136). -/
inductive Consistency where
  | upToDate
  | rowsNeedRecomputation
  | colsNeedRecomputation
  deriving Repr, DecidableEq

/-- The data members (strong_sparse_matrix.h:175-180). -/
structure SparseMatrix where
  cols : List SparseVector := []
  rows : List SparseVector := []
  consistency : Consistency := .upToDate
  deriving Repr, DecidableEq

namespace SparseMatrix

/-- Constructor with dimensions (strong_sparse_matrix.h:41-42). -/
def mk' (numCols numRows : Nat) : SparseMatrix :=
  ⟨List.replicate numCols {}, List.replicate numRows {}, .upToDate⟩

/-- `num_cols` (strong_sparse_matrix.h:58). -/
def numCols (m : SparseMatrix) : Nat := m.cols.length
/-- `num_rows` (strong_sparse_matrix.h:59). -/
def numRows (m : SparseMatrix) : Nat := m.rows.length

/-- `rows_need_recomputation` (strong_sparse_matrix.h:94-97). -/
def rowsNeed (m : SparseMatrix) : Bool := m.consistency == .rowsNeedRecomputation
/-- `cols_need_recomputation` (strong_sparse_matrix.h:99-102). -/
def colsNeed (m : SparseMatrix) : Bool := m.consistency == .colsNeedRecomputation

/-- `v[i]` for a `std::vector`: out of range is undefined behaviour. -/
def at? (l : List SparseVector) (i : Nat) : Outcome SparseVector :=
  match l[i]? with
  | some v => .ok v
  | none => .ub

/-- `target[e.index].AddEntry(i, e.value)` (strong_sparse_matrix.h:160). -/
def addAt (target : List SparseVector) (j : Int) (i : Nat) (x : ℚ) :
    Outcome (List SparseVector) :=
  if 0 ≤ j ∧ j.toNat < target.length then
    .ok (target.modify j.toNat (fun v => v.addEntry i x))
  else .ub

/-- Inner loop of `PopulateFromTranspose` (strong_sparse_matrix.h:157-161). -/
def fillOne (i : Nat) (target : List SparseVector) : List Entry → Outcome (List SparseVector)
  | [] => .ok target
  | e :: r => do fillOne i (← addAt target e.index i e.value) r

/-- Outer loop of `PopulateFromTranspose` (strong_sparse_matrix.h:155-162), from position
`i` on; the vectors of `transpose` have been cleaned. -/
def fill (i : Nat) (target : List SparseVector) :
    List SparseVector → Outcome (List SparseVector)
  | [] => .ok target
  | v :: r => do fill (i + 1) (← fillOne i target v.entries) r

/-- `PopulateFromTranspose` (strong_sparse_matrix.h:144-166): clears the target, cleans
the vectors of `transpose` and adds their entries to the target.  Returns the new target
and the cleaned `transpose`.  (Cleaning each vector just before its entries are read, as
the code does, equals cleaning all of them first.) -/
def populateFromTranspose (target transpose : List SparseVector) :
    Outcome (List SparseVector × List SparseVector) := do
  let target := target.map SparseVector.clear
  let transpose := transpose.map SparseVector.cleanUpIfNeeded
  let target ← fill 0 target transpose
  return (target, transpose)

/-- `RecomputeRowsFromColsIfNeeded` (strong_sparse_matrix.cc:193-198). -/
def recomputeRows (m : SparseMatrix) : Outcome SparseMatrix :=
  if m.rowsNeed then do
    let (rows, cols) ← populateFromTranspose m.rows m.cols
    return ⟨cols, rows, .upToDate⟩
  else .ok m

/-- `RecomputeColsFromRowsIfNeeded` (strong_sparse_matrix.cc:200-205). -/
def recomputeCols (m : SparseMatrix) : Outcome SparseMatrix :=
  if m.colsNeed then do
    let (cols, rows) ← populateFromTranspose m.cols m.rows
    return ⟨cols, rows, .upToDate⟩
  else .ok m

/-- `row(i)` (strong_sparse_matrix.cc:31-37). -/
def row (m : SparseMatrix) (r : Nat) : Outcome (SparseMatrix × SparseVector) := do
  let m ← m.recomputeRows
  let v ← at? m.rows r
  let v := v.cleanUpIfNeeded
  return ({ m with rows := m.rows.set r v }, v)

/-- `col(i)` (strong_sparse_matrix.cc:39-45). -/
def col (m : SparseMatrix) (c : Nat) : Outcome (SparseMatrix × SparseVector) := do
  let m ← m.recomputeCols
  let v ← at? m.cols c
  let v := v.cleanUpIfNeeded
  return ({ m with cols := m.cols.set c v }, v)

/-- `GetCoefficient` (strong_sparse_matrix.cc:47-72).  The four cases are those of the
code; `and` is short-circuit, so an element is only accessed where the code does. -/
def getCoefficient (m : SparseMatrix) (c r : Nat) : Outcome (SparseMatrix × ℚ) := do
  -- lines 54-56
  let first : Option ℚ ←
    if m.rowsNeed then pure none
    else do
      let v ← at? m.rows r
      if v.mayNeedCleaning then pure none else pure (some (v.value c))
  match first with
  | some x => return (m, x)
  | none =>
    -- lines 58-60
    let second : Option ℚ ←
      if m.colsNeed then pure none
      else do
        let v ← at? m.cols c
        if v.mayNeedCleaning then pure none else pure (some (v.value r))
    match second with
    | some x => return (m, x)
    | none =>
      -- lines 65-68
      if !m.rowsNeed then do
        let v ← at? m.rows r
        let v := v.cleanUpIfNeeded
        return ({ m with rows := m.rows.set r v }, v.value c)
      else do
        -- lines 70-71
        let v ← at? m.cols c
        let v := v.cleanUpIfNeeded
        return ({ m with cols := m.cols.set c v }, v.value r)

/-- `SetCoefficient` (strong_sparse_matrix.cc:74-83). -/
def setCoefficient (m : SparseMatrix) (c r : Nat) (x : ℚ) : Outcome SparseMatrix := do
  let rv ← at? m.rows r
  let cv ← at? m.cols c
  return { m with rows := m.rows.set r (rv.addEntry c x), cols := m.cols.set c (cv.addEntry r x) }

/-- `PopulateCol` (strong_sparse_matrix.cc:85-96). -/
def populateCol (m : SparseMatrix) (c : Nat) (data : SparseVector) : Outcome SparseMatrix := do
  let m ← m.recomputeCols
  let _ ← at? m.cols c
  return { m with cols := m.cols.set c data.cleanUpIfNeeded, consistency := .rowsNeedRecomputation }

/-- `PopulateRow` (strong_sparse_matrix.cc:98-110). -/
def populateRow (m : SparseMatrix) (r : Nat) (data : SparseVector) : Outcome SparseMatrix := do
  let m ← m.recomputeRows
  let _ ← at? m.rows r
  return { m with rows := m.rows.set r data.cleanUpIfNeeded, consistency := .colsNeedRecomputation }

/-- `Clear` (strong_sparse_matrix.h:87-92). -/
def clear (_ : SparseMatrix) : SparseMatrix := ⟨[], [], .upToDate⟩

/-- `std::vector::resize`: truncates, or appends default-constructed vectors. -/
def resizeVec (l : List SparseVector) (n : Nat) : List SparseVector :=
  l.take n ++ List.replicate (n - l.length) ({} : SparseVector)

/-- `Resize` (strong_sparse_matrix.cc:112-191), with non-negative sizes. -/
def resize (m : SparseMatrix) (nc nr : Nat) : Outcome SparseMatrix :=
  if nc = 0 ∧ nr = 0 then .ok m.clear
  else if nr = 0 then
    .ok ⟨(resizeVec m.cols nc).map SparseVector.clear, [], .upToDate⟩
  else if nc = 0 then
    .ok ⟨[], (resizeVec m.rows nr).map SparseVector.clear, .upToDate⟩
  else
    let m := if nr ≥ m.numRows then { m with rows := resizeVec m.rows nr } else m
    let m := if nc ≥ m.numCols then { m with cols := resizeVec m.cols nc } else m
    if nr = m.numRows ∧ nc = m.numCols then .ok m
    else if nr < m.numRows ∧ nc = m.numCols then do
      let m ← m.recomputeRows
      return { m with rows := resizeVec m.rows nr, consistency := .colsNeedRecomputation }
    else if nc < m.numCols ∧ nr = m.numRows then do
      let m ← m.recomputeCols
      return { m with cols := resizeVec m.cols nc, consistency := .rowsNeedRecomputation }
    else if !m.colsNeed then do
      let m := { m with cols := resizeVec m.cols nc, consistency := .rowsNeedRecomputation }
      let m ← m.recomputeRows
      return { m with rows := resizeVec m.rows nr, consistency := .colsNeedRecomputation }
    else do
      let m := { m with rows := resizeVec m.rows nr, consistency := .colsNeedRecomputation }
      let m ← m.recomputeCols
      return { m with cols := resizeVec m.cols nc, consistency := .rowsNeedRecomputation }

/-- `PopulateFromSparseMatrix` (strong_sparse_matrix.cc:26-29). -/
def populateFrom (_ : SparseMatrix) (m : SparseMatrix) : SparseMatrix := m

end SparseMatrix

end MiniMip
