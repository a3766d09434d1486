import Verif.Model.SparseVector
import Verif.Model.Dbl

/-!
# The Glop LP interface (minimip/lp_interface/lpi_glop.{h,cc})

`glop::LinearProgram`, `glop::RevisedSimplex` and `glop::LpScalingHelper` are external code.
`LinearProgram` is modelled by its documented contract (a list of columns with coefficient
lists, a list of rows, a sense).  The simplex solver is modelled by the answers it gives,
which are arguments, and by the basis state it stores.

Simplifications: bounds and sides are `Dbl`, coefficients are `ℚ`, indices are `Int` or `Nat`
(unbounded).  Reading or writing an array out of range is `Outcome.ub`, also where Glop extends the LP (the callers
exclude that by DCHECKs).  Logging is omitted.
The parameters are modelled in `Verif.Model.LpParameters`.
-/

namespace MiniMip

/-- `LpBasisStatus` (minimip/lp_interface/lp_types.h). -/
inductive LpBasisStatus where
  | basic | atLower | atUpper | fixed | free
  deriving Repr, DecidableEq

namespace Glop

/-- `glop::VariableStatus` (external).  `glop::ConstraintStatus` has the same values. -/
inductive VarStatus where
  | basic | fixedValue | atLower | atUpper | free
  deriving Repr, DecidableEq

/-- What `glop::LinearProgram` stores for one variable: bounds, objective coefficient, name and
the entries of its sparse column in the order in which they were set. -/
structure Column where
  lower : Dbl
  upper : Dbl
  objective : ℚ
  name : String
  entries : List Entry := []
  deriving Repr, DecidableEq

/-- What `glop::LinearProgram` stores for one constraint. -/
structure Row where
  lhs : Dbl
  rhs : Dbl
  name : String
  deriving Repr, DecidableEq

/-- `glop::LinearProgram` (external). -/
structure LinearProgram where
  cols : List Column := []
  rows : List Row := []
  maximize : Bool := false
  deriving Repr, DecidableEq

/-- The data members of `LpGlopInterface` (lpi_glop.h:230-261) that the model follows: `lp_`, the
basis state stored in `solver_`, `lp_modified_since_last_solve_`, the `use_scaling` field of the
solver parameters, `lp_time_limit_was_reached_` and `num_iterations_of_last_solve_`. -/
structure Interface where
  lp : LinearProgram := {}
  statuses : List VarStatus := []
  modified : Bool := true
  useScaling : Bool := true
  timeLimitReached : Bool := false
  numIterations : Int := 0
  deriving Repr, DecidableEq

/-! ## `glop::LinearProgram` -/

/-- The elements of a list whose mark is not set.  Missing marks count as not set. -/
def keepUnmarked {α : Type} : List α → List Bool → List α
  | [], _ => []
  | x :: xs, [] => x :: xs
  | x :: xs, b :: bs => if b then keepUnmarked xs bs else x :: keepUnmarked xs bs

/-- The new position of element `i` after the marked elements are removed (the permutation built
by `LinearProgram::DeleteRows`, external). -/
def newPosition (mask : List Bool) (i : Nat) : Option Nat :=
  if mask.getD i false then none else some (i - (mask.take i).count true)

/-- `LinearProgram::SetCoefficient` (external): appends to the sparse column. -/
def LinearProgram.setCoefficient (lp : LinearProgram) (row : Nat) (col : Int) (x : ℚ) :
    Outcome LinearProgram :=
  if 0 ≤ col ∧ col < lp.cols.length then
    .ok { lp with
      cols := lp.cols.modify col.toNat fun c => { c with entries := c.entries ++ [⟨row, x⟩] } }
  else .ub

/-- `LinearProgram::DeleteColumns` (external). -/
def LinearProgram.deleteColumns (lp : LinearProgram) (mask : List Bool) : LinearProgram :=
  { lp with cols := keepUnmarked lp.cols mask }

/-- `LinearProgram::DeleteRows` (external): removes the marked rows and renumbers the entries of
every column. -/
def LinearProgram.deleteRows (lp : LinearProgram) (mask : List Bool) : LinearProgram :=
  { lp with
    rows := keepUnmarked lp.rows mask
    cols := lp.cols.map fun c =>
      { c with
        entries := c.entries.filterMap fun e =>
          (newPosition mask e.index.toNat).map fun (i : Nat) => ⟨(i : Int), e.value⟩ } }

/-- `SparseMatrix::LookUpValue` (external): the last entry with that row, zero if there is
none. -/
def lookUp : List Entry → Int → ℚ
  | [], _ => 0
  | e :: r, i => if r.any (fun f => decide (f.index = i)) then lookUp r i
    else if e.index = i then e.value else 0

/-- One row of `LinearProgram::GetTransposeSparseMatrix` (external): the entries of that row, in
the order of the columns, starting at column `k`. -/
def transposedRow (row : Int) : (k : Nat) → List Column → List Entry
  | _, [] => []
  | k, c :: r =>
    ((c.entries.filter fun e => decide (e.index = row)).map fun e => ⟨k, e.value⟩)
      ++ transposedRow row (k + 1) r

/-! ## Setters -/

/-- `AddColumn` (lpi_glop.cc:185-213).  The loop over the entries calls `SetCoefficient` for the
new column, so the column stores the entries in their order. -/
def addColumn (g : Interface) (col : SparseVector) (lower upper : Dbl) (objective : ℚ)
    (name : String) : Interface :=
  { g with
    lp := { g.lp with cols := g.lp.cols ++ [⟨lower, upper, objective, name, col.entries⟩] }
    modified := true }

/-- The arguments of one `AddColumn` call. -/
structure NewColumn where
  col : SparseVector
  lower : Dbl
  upper : Dbl
  objective : ℚ
  name : String

/-- `AddColumns` (lpi_glop.cc:215-232).  The matrix and the four vectors are given as one list;
they have the same length (DCHECKs 223-226). -/
def addColumns (g : Interface) : List NewColumn → Interface
  | [] => g
  | c :: r => addColumns (addColumn g c.col c.lower c.upper c.objective c.name) r

/-- The loop of `AddRow` (lpi_glop.cc:271-277). -/
def setRow (row : Nat) (lp : LinearProgram) : List Entry → Outcome LinearProgram
  | [] => .ok lp
  | e :: r => do setRow row (← lp.setCoefficient row e.index e.value) r

/-- `AddRow` (lpi_glop.cc:254-281). -/
def addRow (g : Interface) (row : SparseVector) (lhs rhs : Dbl) (name : String) :
    Outcome Interface := do
  let k := g.lp.rows.length
  let lp ← setRow k { g.lp with rows := g.lp.rows ++ [⟨lhs, rhs, name⟩] } row.entries
  return { g with lp := lp, modified := true }

/-- The arguments of one `AddRow` call. -/
structure NewRow where
  row : SparseVector
  lhs : Dbl
  rhs : Dbl
  name : String

/-- `AddRows` (lpi_glop.cc:283-297); the vectors have the same length (DCHECKs 289-291). -/
def addRows (g : Interface) : List NewRow → Outcome Interface
  | [] => .ok g
  | r :: rs => do addRows (← addRow g r.row r.lhs r.rhs r.name) rs

/-- The loops that mark a range of columns or rows (lpi_glop.cc:245-247, 309-311): `count`
consecutive positions starting at `first`. -/
def markFrom (mask : List Bool) (first : Int) : (count : Nat) → Outcome (List Bool)
  | 0 => .ok mask
  | n + 1 =>
    if 0 ≤ first ∧ first < mask.length then markFrom (mask.set first.toNat true) (first + 1) n
    else .ub

/-- The number of iterations of `for (i = first; i <= last; ++i)`. -/
def rangeCount (first last : Int) : Nat := (last - first + 1).toNat

/-- `DeleteColumns` (lpi_glop.cc:234-252). -/
def deleteColumns (g : Interface) (first last : Int) : Outcome Interface := do
  let mask ← markFrom (List.replicate g.lp.cols.length false) first (rangeCount first last)
  return { g with lp := g.lp.deleteColumns mask, modified := true }

/-- The loop of `DeleteRowsAndUpdateCurrentBasis` (lpi_glop.cc:352-357), on the array
`state.statuses`, from `row` on, `newSize` being the next position to write. -/
def shiftStatuses (numCols : Nat) (mask : List Bool) :
    (rows : Nat) → (row newSize : Nat) → List VarStatus → Outcome (Nat × List VarStatus)
  | 0, _, newSize, st => .ok (newSize, st)
  | n + 1, row, newSize, st =>
    match mask[row]? with
    | none => .ub
    | some true => shiftStatuses numCols mask n (row + 1) newSize st
    | some false =>
      match st[numCols + row]? with
      | none => .ub
      | some s => shiftStatuses numCols mask n (row + 1) (newSize + 1) (st.set newSize s)

/-- `DeleteRowsAndUpdateCurrentBasis` (lpi_glop.cc:339-364).  `GetState` and
`LoadStateForNextSolve` read and write the stored state. -/
def deleteRowsAndUpdateCurrentBasis (g : Interface) (mask : List Bool) : Outcome Interface := do
  let numRows := g.lp.rows.length
  let numCols := g.lp.cols.length
  let statuses ←
    if g.statuses.length = numCols + numRows then do
      let (newSize, st) ← shiftStatuses numCols mask numRows 0 numCols g.statuses
      pure (st.take newSize)
    else pure g.statuses
  return { g with statuses := statuses, lp := g.lp.deleteRows mask, modified := true }

/-- `DeleteRows` (lpi_glop.cc:299-314). -/
def deleteRows (g : Interface) (first last : Int) : Outcome Interface := do
  let mask ← markFrom (List.replicate g.lp.rows.length false) first (rangeCount first last)
  deleteRowsAndUpdateCurrentBasis g mask

/-- The loop of `DeleteRowSet` (lpi_glop.cc:326-333): `kInvalidRow` (-1) for deleted rows,
`next_index++` for the others. -/
def rowMapping (mask : List Bool) : (next : Int) → List Int :=
  match mask with
  | [] => fun _ => []
  | b :: r => fun next => if b then -1 :: rowMapping r next else next :: rowMapping r (next + 1)

/-- `DeleteRowSet` (lpi_glop.cc:316-337).  `row_mapping` has one element per mark; the loop only
visits the rows of the LP, the elements after them keep the default value of `RowIndex`. -/
def deleteRowSet (g : Interface) (mask : List Bool) : Outcome (Interface × List Int) := do
  let n := g.lp.rows.length
  if mask.length < n then .ub
  else do
    let mapping := rowMapping (mask.take n) 0 ++ List.replicate (mask.length - n) 0
    let g ← deleteRowsAndUpdateCurrentBasis g mask
    return (g, mapping)

/-- `Clear` (lpi_glop.cc:366-371). -/
def clear (g : Interface) : Interface := { g with lp := {}, modified := true }

/-- `ClearState` (lpi_glop.cc:373-377). -/
def clearState (g : Interface) : Interface := { g with statuses := [] }

/-- `SetColumnBounds` (lpi_glop.cc:379-392). -/
def setColumnBounds (g : Interface) (col : Int) (lower upper : Dbl) : Outcome Interface :=
  if 0 ≤ col ∧ col < g.lp.cols.length then
    .ok { g with
      lp := { g.lp with
        cols := g.lp.cols.modify col.toNat fun c => { c with lower := lower, upper := upper } }
      modified := true }
  else .ub

/-- `SetRowSides` (lpi_glop.cc:394-409). -/
def setRowSides (g : Interface) (row : Int) (lhs rhs : Dbl) : Outcome Interface :=
  if 0 ≤ row ∧ row < g.lp.rows.length then
    .ok { g with
      lp := { g.lp with
        rows := g.lp.rows.modify row.toNat fun r => { r with lhs := lhs, rhs := rhs } }
      modified := true }
  else .ub

/-- `SetObjectiveSense` (lpi_glop.cc:411-417). -/
def setObjectiveSense (g : Interface) (isMaximization : Bool) : Interface :=
  { g with lp := { g.lp with maximize := isMaximization }, modified := true }

/-- `SetObjectiveCoefficient` (lpi_glop.cc:419-430). -/
def setObjectiveCoefficient (g : Interface) (col : Int) (x : ℚ) : Outcome Interface :=
  if 0 ≤ col ∧ col < g.lp.cols.length then
    .ok { g with
      lp := { g.lp with
        cols := g.lp.cols.modify col.toNat fun c => { c with objective := x } }
      modified := true }
  else .ub

/-! ## Getters (lpi_glop.cc:436-538) -/

/-- `GetNumberOfRows` (lpi_glop.cc:436-439). -/
def getNumberOfRows (g : Interface) : Int := g.lp.rows.length
/-- `GetNumberOfColumns` (lpi_glop.cc:441-444). -/
def getNumberOfColumns (g : Interface) : Int := g.lp.cols.length
/-- `IsMaximization` (lpi_glop.cc:446-449). -/
def isMaximization (g : Interface) : Bool := g.lp.maximize
/-- `GetNumberOfNonZeros` (lpi_glop.cc:451-454): `num_entries` is the total size of the
columns. -/
def getNumberOfNonZeros (g : Interface) : Int := ((g.lp.cols.map fun c => c.entries.length).sum : Nat)

/-- The loops that copy Glop entries (lpi_glop.cc:467-469, 489-491). -/
def copyEntries (v : SparseVector) : List Entry → SparseVector
  | [] => v
  | e :: r => copyEntries (v.addEntry e.index e.value) r

/-- The copy shared by the two getters (lpi_glop.cc:461-471, 483-493): `resize`, clean up,
`AddEntry` for every entry. -/
def copyToSparse (l : List Entry) : SparseVector :=
  copyEntries (SparseVector.mutateEntries {} (List.replicate l.length Entry.default)).cleanUpIfNeeded l

/-- `GetSparseColumnCoefficients` (lpi_glop.cc:456-473). -/
def getSparseColumnCoefficients (g : Interface) (col : Int) : Outcome SparseVector :=
  if col < 0 then .ub
  else match g.lp.cols[col.toNat]? with
    | none => .ub
    | some c => .ok (copyToSparse c.entries)

/-- `GetSparseRowCoefficients` (lpi_glop.cc:475-495). -/
def getSparseRowCoefficients (g : Interface) (row : Int) : Outcome SparseVector :=
  if row < 0 ∨ (g.lp.rows.length : Int) ≤ row then .ub
  else .ok (copyToSparse (transposedRow row 0 g.lp.cols))

/-- The `CHECK`s on the column and the array access (lpi_glop.cc:497-516). -/
def column (g : Interface) (col : Int) : Outcome Column :=
  if col < 0 then .abort
  else match g.lp.cols[col.toNat]? with
    | none => .abort
    | some c => .ok c

/-- The `CHECK`s on the row and the array access (lpi_glop.cc:518-530). -/
def row (g : Interface) (r : Int) : Outcome Row :=
  if r < 0 then .abort
  else match g.lp.rows[r.toNat]? with
    | none => .abort
    | some c => .ok c

/-- `GetObjectiveCoefficient` (lpi_glop.cc:497-502). -/
def getObjectiveCoefficient (g : Interface) (col : Int) : Outcome ℚ := do
  return (← column g col).objective
/-- `GetLowerBound` (lpi_glop.cc:504-509). -/
def getLowerBound (g : Interface) (col : Int) : Outcome Dbl := do return (← column g col).lower
/-- `GetUpperBound` (lpi_glop.cc:511-516). -/
def getUpperBound (g : Interface) (col : Int) : Outcome Dbl := do return (← column g col).upper
/-- `GetLeftHandSide` (lpi_glop.cc:518-523). -/
def getLeftHandSide (g : Interface) (r : Int) : Outcome Dbl := do return (← row g r).lhs
/-- `GetRightHandSide` (lpi_glop.cc:525-530). -/
def getRightHandSide (g : Interface) (r : Int) : Outcome Dbl := do return (← row g r).rhs

/-- `GetMatrixCoefficient` (lpi_glop.cc:532-541). -/
def getMatrixCoefficient (g : Interface) (col r : Int) : Outcome ℚ := do
  let c ← column g col
  let _ ← row g r
  return lookUp c.entries r

/-! ## Solving -/

/-- What one call of `RevisedSimplex::Solve` and the tests after it return (external): whether the
status is OK, whether the problem status is PRIMAL_FEASIBLE or OPTIMAL, whether the unscaled
solution satisfies the LP, whether the time limit was reached, the iterations and the new basis. -/
structure Answer where
  ok : Bool
  feasible : Bool
  lpFeasible : Bool
  limitReached : Bool
  iterations : Int
  statuses : List VarStatus
  deriving Repr, DecidableEq

/-- `SolveInternal` (lpi_glop.cc:545-620).  `answers` are the answers of the successive calls of
`solver_.Solve`.  The result is the interface and whether the returned status is OK.  The
recursion runs with scaling off, so it does not recurse again; `fuel` 2 suffices
(`C47_solve_fuel`).  `scaled_lp_`, `scaler_` and `solve_from_scratch_` only influence the
answers. -/
def solveInternal : (fuel : Nat) → (recursive : Bool) → Interface → (Nat → Answer) →
    Interface × Bool
  | 0, _, g, _ => (g, false)
  | fuel + 1, recursive, g, answers =>
    let g := if recursive then g else { g with numIterations := 0, timeLimitReached := false }
    let a := answers 0
    if !a.ok then (g, false)
    else
      let g := { g with
        timeLimitReached := a.limitReached
        numIterations := g.numIterations + a.iterations
        statuses := a.statuses }
      if a.feasible && g.useScaling && !a.lpFeasible then
        let (g, ok) := solveInternal fuel true { g with useScaling := false, modified := true }
          (fun k => answers (k + 1))
        if !ok then (g, false)
        else ({ g with useScaling := true, modified := false }, true)
      else ({ g with modified := false }, true)

/-- `SolveLpWithPrimalSimplex` and `SolveLpWithDualSimplex` (lpi_glop.cc:626-651); they differ in
the `use_dual_simplex` parameter only. -/
def solveLp (g : Interface) (answers : Nat → Answer) : Interface × Bool :=
  solveInternal 2 false g answers

/-- `IsSolved` (lpi_glop.cc:743-747). -/
def isSolved (g : Interface) : Bool := !g.modified

/-- `ReadLpFromFile` (lpi_glop.cc:1377-1387).  `file` is the program read, `none` if
`ReadFileToProto` fails.  The result is the interface and whether the status is OK. -/
def readLpFromFile (g : Interface) (file : Option LinearProgram) : Interface × Bool :=
  match file with
  | none => (g, false)
  | some lp => ({ g with lp := lp }, true)

/-- `WriteLpToFile` (lpi_glop.cc:1389-1402); `written` is whether `WriteProtoToFile` returned
OK. -/
def writeLpToFile (path : String) (written : Bool) : Outcome String :=
  if written then .error ("Could not write: " ++ path) else .ok path

/-! ## Basis statuses -/

/-- `ConvertGlopVariableStatus` (lpi_glop.cc:51-69). -/
def convertGlopVariableStatus (s : VarStatus) (reducedCost : ℚ) : LpBasisStatus :=
  match s with
  | .basic => .basic
  | .atUpper => .atUpper
  | .atLower => .atLower
  | .free => .free
  | .fixedValue => if reducedCost > 0 then .atLower else .atUpper

/-- `ConvertGlopConstraintStatus` (lpi_glop.cc:71-89). -/
def convertGlopConstraintStatus (s : VarStatus) (dualValue : ℚ) : LpBasisStatus :=
  match s with
  | .basic => .basic
  | .atUpper => .atUpper
  | .atLower => .atLower
  | .free => .free
  | .fixedValue => if dualValue > 0 then .atLower else .atUpper

/-- `ConvertMiniMIPVariableStatus` (lpi_glop.cc:91-107). -/
def convertVariableStatus : LpBasisStatus → VarStatus
  | .basic => .basic
  | .atUpper => .atUpper
  | .atLower => .atLower
  | .fixed => .fixedValue
  | .free => .free

/-- `ConvertMiniMIPConstraintStatusToSlackStatus` (lpi_glop.cc:109-128). -/
def convertConstraintStatusToSlackStatus : LpBasisStatus → VarStatus
  | .basic => .basic
  | .atUpper => .atLower
  | .atLower => .atUpper
  | .fixed => .fixedValue
  | .free => .free

/-- `RevisedSimplex::GetConstraintStatus` (external): the status of the slack with the bounds
swapped, because Glop's slack is minus the activity. -/
def glopConstraintStatus : VarStatus → VarStatus
  | .atLower => .atUpper
  | .atUpper => .atLower
  | s => s

/-- Reads the first `n` elements of an array; out of range is undefined. -/
def firstN {α : Type} (l : List α) (n : Nat) : Outcome (List α) :=
  if l.length < n then .ub else .ok (l.take n)

/-- `SetBasisStatusForColumnsAndRows` (lpi_glop.cc:977-998). -/
def setBasisStatus (g : Interface) (colStatuses rowStatuses : List LpBasisStatus) :
    Outcome Interface := do
  let cs ← firstN colStatuses g.lp.cols.length
  let rs ← firstN rowStatuses g.lp.rows.length
  return { g with
    statuses := cs.map convertVariableStatus ++ rs.map convertConstraintStatusToSlackStatus }

/-- `GetBasisStatusForColumns` (lpi_glop.cc:949-960).  `GetVariableStatus` and `GetReducedCost`
are external; the statuses are those of the basis state of the solver, i.e. the solver is assumed
to work on the state it stores. -/
def getBasisStatusForColumns (g : Interface) (reducedCost : Nat → ℚ) :
    Outcome (List LpBasisStatus) := do
  let st ← firstN g.statuses g.lp.cols.length
  return st.mapIdx fun i s => convertGlopVariableStatus s (reducedCost i)

/-- `GetBasisStatusForRows` (lpi_glop.cc:963-974), see `getBasisStatusForColumns`. -/
def getBasisStatusForRows (g : Interface) (dualValue : Nat → ℚ) : Outcome (List LpBasisStatus) := do
  let st ← firstN (g.statuses.drop g.lp.cols.length) g.lp.rows.length
  return st.mapIdx fun i s => convertGlopConstraintStatus (glopConstraintStatus s) (dualValue i)

/-- `ColOrRowIndex`. -/
inductive ColOrRow where
  | col (i : Int)
  | row (i : Int)
  deriving Repr, DecidableEq

/-- `GetColumnsAndRowsInBasis` (lpi_glop.cc:1000-1015); `basis` is `solver_.GetBasis(row)` for
the rows in order. -/
def getColumnsAndRowsInBasis (g : Interface) (basis : List Int) : List ColOrRow :=
  (basis.take g.lp.rows.length).map fun (col : Int) =>
    if col < g.lp.cols.length then .col col else .row (col - g.lp.cols.length)

/-! ## Strong branching -/

/-- What one call of `solver_.Solve` in strong branching returns: `none` if the status is not OK,
else the iterations, the objective value and `IsDualBoundValid` of the problem status
(lpi_glop.cc:130-135). -/
abbrev BranchAnswer := Option (Int × Dbl × Bool)

/-- `StrongBranchResult` (lpi.h:243-261).  The members have no initialisers; `none` is an
uninitialised member. -/
structure BranchResult where
  downBound : Option Dbl := none
  upBound : Option Dbl := none
  downValid : Option Bool := none
  upValid : Option Bool := none
  iterations : Option Int := none
  deriving Repr, DecidableEq

/-- The new upper bound of the down branch (lpi_glop.cc:697). -/
def downBranchBound (scaledValue eps : ℚ) : ℚ := ⌈scaledValue - 1 - eps⌉
/-- The new lower bound of the up branch (lpi_glop.cc:716). -/
def upBranchBound (scaledValue eps : ℚ) : ℚ := ⌊scaledValue + 1 + eps⌋

/-- `SolveDownAndUpStrongBranch` (lpi_glop.cc:666-737).  `lower`, `upper` are the bounds of the
column in the scaled problem, `limit` is the objective limit used when a branch is empty, `down`
and `up` answer the two `Solve` calls.  The second component lists the bounds of the column in the
problems solved, down branch first. -/
def solveDownAndUpStrongBranch (lower upper : Dbl) (scalingFactor eps primalValue : ℚ) (limit : Dbl)
    (down up : BranchAnswer) : BranchResult × List (Dbl × Dbl) :=
  let scaledValue := primalValue * scalingFactor
  let result : BranchResult := {}
  let newUpper := Dbl.fin (downBranchBound scaledValue eps)
  let (result, problems) :=
    if Dbl.le (Dbl.sub lower (.fin (1 / 2))) newUpper then
      (match down with
        | some (iterations, objective, valid) =>
          { result with
            iterations := result.iterations.map (· + iterations)
            downBound := some objective
            downValid := some valid }
        | none => { result with downBound := some (.fin 0), downValid := some false },
       [(lower, newUpper)])
    else ({ result with downValid := some true, downBound := some limit }, [])
  let newLower := Dbl.fin (upBranchBound scaledValue eps)
  if Dbl.le newLower (Dbl.add upper (.fin (1 / 2))) then
    (match up with
      | some (iterations, objective, valid) =>
        { result with
          iterations := result.iterations.map (· + iterations)
          upBound := some objective
          upValid := some valid }
      | none => { result with upBound := some (.fin 0), downValid := some false },
     problems ++ [(newLower, upper)])
  else ({ result with upValid := some true, upBound := some limit }, problems)

end Glop

end MiniMip
