import Verif.Model.GlopLpi
import Verif.Model.LpParameters

/-!
# The SoPlex LP interface (minimip/lp_interface/lpi_soplex.{h,cc})

`soplex::SoPlex` is external code.  The LP it stores is modelled by its documented contract, for
which `Glop.LinearProgram` (a list of columns with coefficient lists, a list of rows, a sense) is
used again.  The order in which SoPlex hands out the non-zeros of a row or column is not specified;
it is an argument (`order`).  What `optimize` returns and what the basis factorisation returns are
arguments.  Exceptions of the LP modification methods (memory) are not modelled; those of the basis
methods are.

Simplifications: as in `Verif.Model.GlopLpi`.  When the LP changes, SoPlex forgets its status and adapts its basis;
the model keeps both until the next solve, and no theorem reads them in between.  SoPlex drops zeros from the vectors
it is given; the vectors of the callers are clean and have none.  SoPlex takes bounds and sides beyond `Infinity()`
(10^100) for infinite; here they are what they are.
-/

namespace MiniMip
namespace Soplex

open Glop (LinearProgram Column Row NewColumn NewRow ColOrRow)

/-- `soplex::SPxSolver::VarStatus` (external). -/
inductive VarStatus where
  | onUpper | onLower | fixed | zero | basic | undefined
  deriving Repr, DecidableEq

/-- `soplex::SPxSolver::Status` (external). -/
inductive Status where
  | error | noRatioTester | noPricer | noSolver | notInit | abortCycling | abortTime | abortIter
  | abortValue | singular | noProblem | regular | running | unknown | optimal | unbounded
  | infeasible | infOrUnbd | optimalUnscaledViolations
  deriving Repr, DecidableEq

/-- `soplex::SPxBasis::SPxStatus` (external). -/
inductive BasisStatus where
  | noProblem | singular | regular | dual | primal | optimal | unbounded | infeasible
  deriving Repr, DecidableEq

/-- The data members of `LpSoplexInterface` (lpi_soplex.h:247-262): the LP, the basis, the two
statuses and the parameters of `spx_`, `is_solved_`, and the saved basis `col_basis_status_`,
`row_basis_status_`. -/
structure Interface where
  lp : LinearProgram := {}
  colStatus : List VarStatus := []
  rowStatus : List VarStatus := []
  status : Status := .noProblem
  basisStatus : BasisStatus := .noProblem
  settings : Settings
  isSolved : Bool := false
  savedCols : List VarStatus := []
  savedRows : List VarStatus := []
  deriving Repr, DecidableEq

/-- `PreStrongBranchingBasisFreed` (lpi_soplex.cc:246-249). -/
def freed (g : Interface) : Bool := g.savedRows.isEmpty && g.savedCols.isEmpty

/-! ## The LP methods of SoPlex (external) -/

/-- `addColReal`. -/
def addColReal (lp : LinearProgram) (c : NewColumn) : LinearProgram :=
  { lp with cols := lp.cols ++ [⟨c.lower, c.upper, c.objective, c.name, c.col.entries⟩] }

/-- `addColsReal`. -/
def addColsReal (lp : LinearProgram) : List NewColumn → LinearProgram
  | [] => lp
  | c :: r => addColsReal (addColReal lp c) r

/-- `addRowReal`.  An index that is no column violates the DCHECKs of the callers; it is
undefined here. -/
def addRowReal (lp : LinearProgram) (r : NewRow) : Outcome LinearProgram :=
  Glop.setRow lp.rows.length { lp with rows := lp.rows ++ [⟨r.lhs, r.rhs, r.name⟩] } r.row.entries

/-- `addRowsReal`. -/
def addRowsReal (lp : LinearProgram) : List NewRow → Outcome LinearProgram
  | [] => .ok lp
  | r :: rs => do addRowsReal (← addRowReal lp r) rs

/-- The marks of a range of positions. -/
def rangeMask (n : Nat) (first last : Int) : List Bool :=
  (List.range n).map fun i : Nat => decide (first ≤ (i : Int) ∧ (i : Int) ≤ last)

/-- `removeColRangeReal`. -/
def removeColRangeReal (lp : LinearProgram) (first last : Int) : Outcome LinearProgram :=
  if 0 ≤ first ∧ first ≤ last ∧ last < lp.cols.length then
    .ok (lp.deleteColumns (rangeMask lp.cols.length first last))
  else .ub

/-- `removeRowRangeReal`. -/
def removeRowRangeReal (lp : LinearProgram) (first last : Int) : Outcome LinearProgram :=
  if 0 ≤ first ∧ first ≤ last ∧ last < lp.rows.length then
    .ok (lp.deleteRows (rangeMask lp.rows.length first last))
  else .ub

/-- The positions `removeRowsReal` writes into its argument: elements that are not negative get
consecutive numbers, negative ones stay. -/
def renumberKept : List Int → (next : Int) → List Int
  | [], _ => []
  | p :: r, next => if p < 0 then p :: renumberKept r next else next :: renumberKept r (next + 1)

/-- `removeRowsReal`: removes the rows with a negative element and overwrites the array, whose
elements after the rows stay. -/
def removeRowsReal (lp : LinearProgram) (perm : List Int) : Outcome (LinearProgram × List Int) :=
  let n := lp.rows.length
  if perm.length < n then .ub
  else .ok (lp.deleteRows ((perm.take n).map fun p => decide (p < 0)),
    renumberKept (perm.take n) 0 ++ perm.drop n)

/-! ## Setters -/

/-- `AddColumn` (lpi_soplex.cc:458-500).  SoPlex stores no names. -/
def addColumn (g : Interface) (c : NewColumn) : Outcome Interface := do
  Outcome.check (freed g)
  return { g with isSolved := false, lp := addColReal g.lp { c with name := "" } }

/-- `AddColumns` (lpi_soplex.cc:502-551); the vectors are given as one list. -/
def addColumns (g : Interface) (cs : List NewColumn) : Outcome Interface := do
  Outcome.check (freed g)
  return { g with
    isSolved := false
    lp := addColsReal g.lp (cs.map fun c => { c with name := "" }) }

/-- `DeleteColumns` (lpi_soplex.cc:553-576). -/
def deleteColumns (g : Interface) (first last : Int) : Outcome Interface := do
  Outcome.check (freed g)
  let lp ← removeColRangeReal g.lp first last
  return { g with isSolved := false, lp := lp }

/-- `AddRow` (lpi_soplex.cc:578-602).  There is no CHECK on the saved basis. -/
def addRow (g : Interface) (r : NewRow) : Outcome Interface := do
  let lp ← addRowReal g.lp { r with name := "" }
  return { g with isSolved := false, lp := lp }

/-- `AddRows` (lpi_soplex.cc:604-649); the vectors are given as one list. -/
def addRows (g : Interface) (rs : List NewRow) : Outcome Interface := do
  Outcome.check (freed g)
  let lp ← addRowsReal g.lp (rs.map fun r => { r with name := "" })
  return { g with isSolved := false, lp := lp }

/-- `DeleteRows` (lpi_soplex.cc:651-666). -/
def deleteRows (g : Interface) (first last : Int) : Outcome Interface := do
  Outcome.check (freed g)
  let lp ← removeRowRangeReal g.lp first last
  return { g with isSolved := false, lp := lp }

/-- `int_deletion_status` (lpi_soplex.cc:681-688): 1 for marked rows, negated for the first `n`
elements; the loop is undefined if there are fewer. -/
def deletionStatus (mask : List Bool) (n : Nat) : Outcome (List Int) :=
  if mask.length < n then .ub
  else
    let ints := mask.map fun b => if b then (1 : Int) else 0
    .ok ((ints.take n).map (fun x => x * -1) ++ ints.drop n)

/-- `DeleteRowSet` (lpi_soplex.cc:668-703). -/
def deleteRowSet (g : Interface) (mask : List Bool) : Outcome (Interface × List Int) := do
  Outcome.check (freed g)
  let perm ← deletionStatus mask g.lp.rows.length
  let (lp, perm) ← removeRowsReal g.lp perm
  let mapping := List.zipWith (fun b p => if b then -1 else p) mask perm
  return ({ g with isSolved := false, lp := lp }, mapping)

/-- `Clear` (lpi_soplex.cc:706-715).  `clearLPReal` keeps the objective sense, which is a parameter
of SoPlex (assumed; if it did not, `PopulateFromMipData` would rely on `setIntParam(OBJSENSE)` having
an effect also when the value of the parameter is the old one). -/
def clear (g : Interface) : Outcome Interface := do
  Outcome.check (freed g)
  return { g with isSolved := false, lp := { maximize := g.lp.maximize } }

/-- `ClearState` (lpi_soplex.cc:718-731); `throws` is whether `clearBasis` throws.  The second
component is whether the status is OK. -/
def clearState (g : Interface) (throws : Bool) : Outcome (Interface × Bool) :=
  let g := { g with isSolved := false }
  if throws then do
    Outcome.check (decide (g.status ≠ .optimal))
    return (g, false)
  else
    .ok ({ g with
      colStatus := [], rowStatus := [], status := .noProblem, basisStatus := .noProblem }, true)

/-- `SetColumnBounds` (lpi_soplex.cc:733-756). -/
def setColumnBounds (g : Interface) (col : Int) (lower upper : Dbl) : Outcome Interface := do
  Outcome.check (freed g)
  Outcome.check (decide (0 ≤ col))
  Outcome.check (decide (col < g.lp.cols.length))
  return { g with
    isSolved := false
    lp := { g.lp with
      cols := g.lp.cols.modify col.toNat fun c => { c with lower := lower, upper := upper } } }

/-- `SetRowSides` (lpi_soplex.cc:758-780). -/
def setRowSides (g : Interface) (row : Int) (lhs rhs : Dbl) : Outcome Interface := do
  Outcome.check (freed g)
  if 0 ≤ row ∧ row < g.lp.rows.length then
    return { g with
      isSolved := false
      lp := { g.lp with
        rows := g.lp.rows.modify row.toNat fun r => { r with lhs := lhs, rhs := rhs } } }
  else .ub

/-- `SetObjectiveSense` (lpi_soplex.cc:782-795). -/
def setObjectiveSense (g : Interface) (isMaximization : Bool) : Outcome Interface := do
  Outcome.check (freed g)
  return { g with isSolved := false, lp := { g.lp with maximize := isMaximization } }

/-- `SetObjectiveCoefficient` (lpi_soplex.cc:797-808). -/
def setObjectiveCoefficient (g : Interface) (col : Int) (x : ℚ) : Outcome Interface := do
  Outcome.check (freed g)
  if 0 ≤ col ∧ col < g.lp.cols.length then
    return { g with
      isSolved := false
      lp := { g.lp with cols := g.lp.cols.modify col.toNat fun c => { c with objective := x } } }
  else .ub

/-! ## Getters (lpi_soplex.cc:814-960) -/

/-- `GetNumberOfRows` (lpi_soplex.cc:814-818). -/
def getNumberOfRows (g : Interface) : Int := g.lp.rows.length
/-- `GetNumberOfColumns` (lpi_soplex.cc:820-824). -/
def getNumberOfColumns (g : Interface) : Int := g.lp.cols.length
/-- `IsMaximization` (lpi_soplex.cc:845-850). -/
def isMaximization (g : Interface) : Bool := g.lp.maximize

/-- `GetNumberOfNonZeros` (lpi_soplex.cc:826-843): the smaller dimension is summed up. -/
def getNumberOfNonZeros (g : Interface) : Int :=
  if g.lp.rows.length < g.lp.cols.length then
    (((List.range g.lp.rows.length).map fun i : Nat =>
      (Glop.transposedRow (i : Int) 0 g.lp.cols).length).sum : Nat)
  else ((g.lp.cols.map fun c => c.entries.length).sum : Nat)

/-- The entries SoPlex hands out, added one by one. -/
def copyToSparse (l : List Entry) : SparseVector := Glop.copyEntries {} l

/-- `GetSparseColumnCoefficients` (lpi_soplex.cc:855-877).  The two branches on
`PERSISTENTSCALING` read the same unscaled column. -/
def getSparseColumnCoefficients (order : List Entry → List Entry) (g : Interface) (col : Int) :
    Outcome SparseVector :=
  if col < 0 then .ub
  else match g.lp.cols[col.toNat]? with
    | none => .ub
    | some c => .ok (copyToSparse (order c.entries)).cleanUpIfNeeded

/-- `GetSparseRowCoefficients` (lpi_soplex.cc:882-903).  There is no clean-up. -/
def getSparseRowCoefficients (order : List Entry → List Entry) (g : Interface) (row : Int) :
    Outcome SparseVector :=
  if row < 0 ∨ (g.lp.rows.length : Int) ≤ row then .ub
  else .ok (copyToSparse (order (Glop.transposedRow row 0 g.lp.cols)))

/-- Access to a column. -/
def column (g : Interface) (col : Int) : Outcome Column :=
  if col < 0 then .ub
  else match g.lp.cols[col.toNat]? with
    | none => .ub
    | some c => .ok c

/-- Access to a row. -/
def row (g : Interface) (r : Int) : Outcome Row :=
  if r < 0 then .ub
  else match g.lp.rows[r.toNat]? with
    | none => .ub
    | some c => .ok c

/-- `GetObjectiveCoefficient` (lpi_soplex.cc:905-912). -/
def getObjectiveCoefficient (g : Interface) (col : Int) : Outcome ℚ := do
  return (← column g col).objective
/-- `GetLowerBound` (lpi_soplex.cc:914-921). -/
def getLowerBound (g : Interface) (col : Int) : Outcome Dbl := do return (← column g col).lower
/-- `GetUpperBound` (lpi_soplex.cc:923-930). -/
def getUpperBound (g : Interface) (col : Int) : Outcome Dbl := do return (← column g col).upper
/-- `GetLeftHandSide` (lpi_soplex.cc:932-939). -/
def getLeftHandSide (g : Interface) (r : Int) : Outcome Dbl := do return (← row g r).lhs
/-- `GetRightHandSide` (lpi_soplex.cc:941-948). -/
def getRightHandSide (g : Interface) (r : Int) : Outcome Dbl := do return (← row g r).rhs

/-- `GetMatrixCoefficient` (lpi_soplex.cc:950-960). -/
def getMatrixCoefficient (g : Interface) (col r : Int) : Outcome ℚ := do
  let c ← column g col
  let _ ← row g r
  return Glop.lookUp c.entries r

/-! ## Solving -/

/-- `CheckConsistentBounds` and `CheckConsistentSides` (lpi_soplex.cc:80-106); `eps` is
`EPSILON_ZERO`. -/
def consistent (g : Interface) (eps : ℚ) : Bool :=
  g.lp.cols.all (fun c => !Dbl.lt (Dbl.add c.upper (.fin eps)) c.lower) &&
  g.lp.rows.all (fun r => !Dbl.lt (Dbl.add r.rhs (.fin eps)) r.lhs)

/-- What one call of `optimize` leaves behind (external): whether it threw, the two statuses, the
iterations, the time spent and the basis. -/
structure Answer where
  throws : Bool
  status : Status
  basisStatus : BasisStatus
  iterations : Int
  time : ℚ
  colStatus : List VarStatus
  rowStatus : List VarStatus
  deriving Repr, DecidableEq

/-- `LpSolve` (lpi_soplex.cc:108-149). -/
def lpSolve (a : Accepts) (g : Interface) (eps : ℚ) (ans : Answer) : Outcome Interface := do
  Outcome.check (consistent g eps)
  let g := { g with
    status := ans.status, basisStatus := ans.basisStatus, colStatus := ans.colStatus,
    rowStatus := ans.rowStatus }
  Outcome.check (!ans.throws || decide (g.status ≠ .optimal))
  Outcome.check (decide (g.settings.iterlimit < 0) ||
    decide (ans.iterations ≤ g.settings.iterlimit))
  let timeLimit := g.settings.timelimit
  let left := Dbl.max (.fin 0) (Dbl.sub timeLimit (.fin ans.time))
  let s1 : Settings :=
    if ans.time > 0 ∧ a.real .timelimit left = true then { g.settings with timelimit := left }
    else g.settings
  Outcome.check (a.real .timelimit timeLimit)
  return { g with settings := { s1 with timelimit := timeLimit } }

/-- The statuses for which a solve returns OK (lpi_soplex.cc:191-206). -/
def Status.isFine : Status → Bool
  | .abortTime | .abortIter | .abortValue | .singular | .regular | .unknown | .optimal
  | .optimalUnscaledViolations | .unbounded | .infeasible => true
  | _ => false

/-- `SoPlexSolve` (lpi_soplex.cc:151-207), called by `SolveLpWithPrimalSimplex` and
`SolveLpWithDualSimplex` (966-980).  `clearThrows` is whether `clearBasis` throws.  The second
component is whether the status is OK. -/
def soPlexSolve (a : Accepts) (g : Interface) (eps : ℚ) (clearThrows : Bool) (ans : Answer) :
    Outcome (Interface × Bool) := do
  let g := { g with isSolved := false }
  Outcome.check (freed g)
  let g := { g with settings := { g.settings with simplifier := false } }
  if g.settings.solveFromScratch && clearThrows then do
    Outcome.check (decide (g.status ≠ .optimal))
    return (g, false)
  else do
    let g := if g.settings.solveFromScratch then
        { g with colStatus := [], rowStatus := [], status := .noProblem, basisStatus := .noProblem }
      else g
    let g ← lpSolve a g eps ans
    return ({ g with isSolved := true }, g.status.isFine)

/-- `IsPrimalFeasible` (lpi_soplex.cc:1042-1046). -/
def isPrimalFeasible (g : Interface) : Bool := g.basisStatus = .optimal ∨ g.basisStatus = .primal
/-- `IsDualFeasible` (lpi_soplex.cc:1076-1080). -/
def isDualFeasible (g : Interface) : Bool := g.basisStatus = .optimal ∨ g.basisStatus = .dual
/-- `IsPrimalInfeasible` (lpi_soplex.cc:1037-1040). -/
def isPrimalInfeasible (g : Interface) : Bool := g.status = .infeasible
/-- `IsPrimalUnbounded` (lpi_soplex.cc:1028-1035). -/
def isPrimalUnbounded (g : Interface) : Bool := g.status = .unbounded

/-- `IsOptimal` (lpi_soplex.cc:1082-1089). -/
def isOptimal (g : Interface) : Outcome Bool := do
  Outcome.check (decide (g.basisStatus = .optimal) == (isPrimalFeasible g && isDualFeasible g))
  return decide (g.status = .optimal)

/-- `ReadLpFromFile` (lpi_soplex.cc:1956-1980).  `exists_` is `FileExists`, `file` is the LP read,
`none` if `readFile` fails or throws. -/
def readLpFromFile (g : Interface) (path : String) (exists_ : Bool) (file : Option LinearProgram) :
    Outcome (Interface × Bool) := do
  Outcome.check (path ≠ "")
  Outcome.check (freed g)
  if !exists_ then return (g, false)
  else match file with
    | none => return (g, false)
    | some lp => return ({ g with lp := lp }, true)

/-- `WriteLpToFile` (lpi_soplex.cc:1982-2000); `written` is the result of `writeFileReal`, `none`
if it throws. -/
def writeLpToFile (path : String) (written : Option Bool) : Outcome String := do
  Outcome.check (path ≠ "")
  match written with
  | none => .error "Write Error: soplex exception"
  | some false => .error "SoPlex failed to write LP to file"
  | some true => .ok path

/-! ## Basis statuses -/

/-- The switch of `GetBasisStatusForColumns` (lpi_soplex.cc:1313-1347). -/
def convertColumn : VarStatus → Outcome LpBasisStatus
  | .basic => .ok .basic
  | .fixed => .ok .atLower
  | .onLower => .ok .atLower
  | .onUpper => .ok .atUpper
  | .zero => .ok .free
  | .undefined => .abort

/-- The switch of `GetBasisStatusForRows` (lpi_soplex.cc:1362-1384); the case FIXED has no break,
so the case ON_LOWER overwrites its value. -/
def convertRow : VarStatus → Outcome LpBasisStatus
  | .basic => .ok .basic
  | .fixed => .ok .atLower
  | .onLower => .ok .atLower
  | .onUpper => .ok .atUpper
  | .zero => .error "Error"
  | .undefined => .abort

/-- The loop over the statuses. -/
def convertAll (f : VarStatus → Outcome LpBasisStatus) : List VarStatus →
    Outcome (List LpBasisStatus)
  | [] => .ok []
  | s :: r => do
    let x ← f s
    let l ← convertAll f r
    return x :: l

/-- `GetBasisStatusForColumns` (lpi_soplex.cc:1302-1350). -/
def getBasisStatusForColumns (g : Interface) : Outcome (List LpBasisStatus) := do
  Outcome.check (freed g)
  Outcome.check (← isOptimal g)
  let st ← Glop.firstN g.colStatus g.lp.cols.length
  convertAll convertColumn st

/-- `GetBasisStatusForRows` (lpi_soplex.cc:1353-1387). -/
def getBasisStatusForRows (g : Interface) : Outcome (List LpBasisStatus) := do
  Outcome.check (freed g)
  Outcome.check (← isOptimal g)
  let st ← Glop.firstN g.rowStatus g.lp.rows.length
  convertAll convertRow st

/-- The switch for rows in `SetBasisStatusForColumnsAndRows` (lpi_soplex.cc:1408-1430); `none` is
the return with an error. -/
def toRowStatus : LpBasisStatus → Option VarStatus
  | .basic => some .basic
  | .atLower => some .onLower
  | .atUpper => some .onUpper
  | .fixed => some .fixed
  | .free => none

/-- The switch for columns (lpi_soplex.cc:1433-1454). -/
def toColStatus : LpBasisStatus → VarStatus
  | .basic => .basic
  | .atLower => .onLower
  | .atUpper => .onUpper
  | .fixed => .fixed
  | .free => .zero

/-- The loop over the rows (lpi_soplex.cc:1407-1431): the statuses written and whether the loop
ended.  Elements that are not written have an unspecified value (`reSize`), here `undefined`. -/
def fillRows : List LpBasisStatus → List VarStatus × Bool
  | [] => ([], true)
  | s :: r =>
    match toRowStatus s with
    | none => (List.replicate (r.length + 1) .undefined, false)
    | some v => (v :: (fillRows r).1, (fillRows r).2)

/-- `SetBasisStatusForColumnsAndRows` (lpi_soplex.cc:1389-1459).  The statuses are written into the
saved basis; `throws` is whether `setBasis` throws; `status`, `basisStatus` are the statuses of
SoPlex after `setBasis`.  The saved basis is freed at the end only. -/
def setBasisStatus (g : Interface) (colStatuses rowStatuses : List LpBasisStatus) (throws : Bool)
    (status : Status) (basisStatus : BasisStatus) : Outcome (Interface × Bool) := do
  Outcome.check (freed g)
  let cs ← Glop.firstN colStatuses g.lp.cols.length
  let rs ← Glop.firstN rowStatuses g.lp.rows.length
  let g := { g with isSolved := false }
  if !(fillRows rs).2 then
    return ({ g with
      savedRows := (fillRows rs).1
      savedCols := List.replicate g.lp.cols.length .undefined }, false)
  else
    let g := { g with savedRows := (fillRows rs).1, savedCols := cs.map toColStatus }
    if throws then return (g, false)
    else
      return ({ g with
        colStatus := g.savedCols, rowStatus := g.savedRows
        status := status, basisStatus := basisStatus
        savedRows := [], savedCols := [] }, true)

/-- `GetColumnsAndRowsInBasis` (lpi_soplex.cc:1463-1479); `basis` is what `getBasisInd` writes. -/
def getColumnsAndRowsInBasis (g : Interface) (basis : List Int) : Outcome (List ColOrRow) := do
  Outcome.check (freed g)
  return basis.map fun (i : Int) => if i < 0 then ColOrRow.row (-1 * i - 1) else ColOrRow.col i

/-! ## The basis inverse -/

/-- What `getBasisInverseRowReal` writes (external): the dense row, the array of indices and their
number, -1 for a row given in dense form only. -/
structure InverseRow where
  dense : List ℚ
  indices : List Int
  num : Int
  deriving Repr, DecidableEq

/-- `dense_row[i]`. -/
def denseAt (d : List ℚ) (i : Int) : Outcome ℚ :=
  if i < 0 then .ub
  else match d[i.toNat]? with
    | none => .ub
    | some x => .ok x

/-- The loop over the dense row (lpi_soplex.cc:1510-1512), from column `k` on. -/
def addDense : (v : SparseVector) → (k : Nat) → List ℚ → SparseVector
  | v, _, [] => v
  | v, k, x :: r => addDense (if x ≠ 0 then v.addEntry (k : Int) x else v) (k + 1) r

/-- The loop over the indices (lpi_soplex.cc:1514-1516). -/
def addIndexed (d : List ℚ) : SparseVector → List Int → Outcome SparseVector
  | v, [] => .ok v
  | v, i :: r => do
    let x ← denseAt d i
    addIndexed d (v.addEntry i x) r

/-- `GetSparseRowOfBInverted` (lpi_soplex.cc:1490-1522); `inverse` answers
`getBasisInverseRowReal`, `none` if it returns false. -/
def getSparseRowOfBInverted (g : Interface) (inverse : Nat → Option InverseRow) (row : Nat) :
    Outcome SparseVector := do
  Outcome.check (freed g)
  match inverse row with
  | none => .error "Error"
  | some a => do
    let v ← if a.num = -1 then Outcome.ok (addDense {} 0 (a.dense.take g.lp.rows.length))
      else addIndexed a.dense {} (a.indices.take a.num.toNat)
    return v.cleanUpIfNeeded

/-- `std::find`: the position of the first element equal to `x`, the length if there is none. -/
def findIndex : List Int → Int → Nat
  | [], _ => 0
  | y :: r, x => if y = x then 0 else findIndex r x + 1

/-- The loop of `GetSparseColumnOfBInverted` (lpi_soplex.cc:1551-1570) over `n` rows starting at
`row`. -/
def columnLoop (inverse : Nat → Option InverseRow) (col : Int) : (n row : Nat) → SparseVector →
    Outcome SparseVector
  | 0, _, v => .ok v
  | n + 1, row, v =>
    match inverse row with
    | none => .error "Error"
    | some a =>
      if a.num = -1 then do
        let x ← denseAt a.dense col
        columnLoop inverse col n (row + 1) (v.addEntry (row : Int) x)
      else
        let index := findIndex a.indices col
        if index < a.indices.length ∧ (index : Int) < a.num then do
          let x ← denseAt a.dense (index : Int)
          columnLoop inverse col n (row + 1) (v.addEntry (row : Int) x)
        else columnLoop inverse col n (row + 1) v

/-- `GetSparseColumnOfBInverted` (lpi_soplex.cc:1536-1575). -/
def getSparseColumnOfBInverted (g : Interface) (inverse : Nat → Option InverseRow) (col : Int) :
    Outcome SparseVector := do
  Outcome.check (freed g)
  let v ← columnLoop inverse col g.lp.rows.length 0 {}
  return v.cleanUpIfNeeded

/-! ## Strong branching -/

/-- The status `getBasis` of SoPlex (external) gives a column when there is no basis. -/
def slackBasisStatus (c : Column) : VarStatus :=
  if Dbl.lt infinity.neg c.lower then .onLower else if Dbl.lt c.upper infinity then .onUpper else .zero

/-- `StartStrongBranching` and `SavePreStrongbranchingBasis` (lpi_soplex.cc:983-989, 209-223).  The
arrays get one element per row and column; `getBasis` copies the basis of SoPlex if it has one;
otherwise all slack variables are basic. -/
def startStrongBranching (g : Interface) : Outcome Interface := do
  Outcome.check (freed g)
  let hasBasis := g.colStatus.length = g.lp.cols.length ∧ g.rowStatus.length = g.lp.rows.length
  return { g with
    savedRows := if hasBasis then g.rowStatus else List.replicate g.lp.rows.length .basic
    savedCols := if hasBasis then g.colStatus else g.lp.cols.map slackBasisStatus }

/-- `RestorePreStrongbranchingBasis` (lpi_soplex.cc:225-239), for a `setBasis` that does not
throw. -/
def restoreBasis (g : Interface) : Interface :=
  { g with colStatus := g.savedCols, rowStatus := g.savedRows }

/-- `EndStrongBranching` (lpi_soplex.cc:992-999). -/
def endStrongBranching (g : Interface) : Outcome Interface := do
  Outcome.check (!freed g)
  return { restoreBasis g with savedRows := [], savedCols := [] }

/-- What one call of `optimize` in strong branching leaves behind. -/
structure BranchAnswer where
  status : Status
  basisStatus : BasisStatus
  objective : Dbl
  iterations : Int
  colStatus : List VarStatus
  rowStatus : List VarStatus
  deriving Repr, DecidableEq

/-- `StrongBranchResult` (lpi.h:243-261); `none` is an uninitialised bound. -/
structure BranchResult where
  downBound : Option Dbl := none
  upBound : Option Dbl := none
  downValid : Bool := false
  upValid : Bool := false
  iterations : Int := 0
  deriving Repr, DecidableEq

/-- `objective_limit` (lpi_soplex.h:232-238). -/
def objectiveLimit (g : Interface) : Dbl :=
  if g.lp.maximize then g.settings.objlimitLower else g.settings.objlimitUpper

/-- The switch on the status (lpi_soplex.cc:303-325, 355-377): the dual bound and its validity, or
`none` for an error. -/
def branchBound (limit : Dbl) (b : BranchAnswer) : Option (Dbl × Bool) :=
  match b.status with
  | .optimal => some (b.objective, true)
  | .abortTime | .abortIter | .abortCycling | .optimalUnscaledViolations =>
    some (b.objective, false)
  | .abortValue | .infeasible => some (limit, true)
  | _ => none

/-- The new upper bound of the down branch (lpi_soplex.cc:288). -/
def downBranchBound (value eps : ℚ) : ℚ := ⌈value - 1 - eps⌉
/-- The new lower bound of the up branch (lpi_soplex.cc:341). -/
def upBranchBound (value eps : ℚ) : ℚ := ⌊value + 1 - eps⌋

/-- `changeUpperReal` and `changeLowerReal` (external). -/
def changeBounds (g : Interface) (col : Nat) (lower upper : Dbl) : Interface :=
  { g with
    lp := { g.lp with
      cols := g.lp.cols.modify col fun c => { c with lower := lower, upper := upper } } }

/-- `setIntParam(ITERLIMIT, n)`. -/
def setIterLimit (a : Accepts) (g : Interface) (n : Int) : Interface :=
  if a.int .iterlimit n then { g with settings := { g.settings with iterlimit := n } } else g

/-- One branch (lpi_soplex.cc:294-336, 343-388): changes the bounds of the column, solves, restores
the basis and the bounds.  The loop is run once (`from_parent_basis` is false). -/
def solveBranch (a : Accepts) (g : Interface) (col : Nat) (old new : Dbl × Dbl) (iterationLimit : Int)
    (b : BranchAnswer) : Outcome Interface := do
  let g := changeBounds g col new.1 new.2
  let g := setIterLimit a g iterationLimit
  let g := { g with
    status := b.status, basisStatus := b.basisStatus, colStatus := b.colStatus,
    rowStatus := b.rowStatus }
  Outcome.check (!freed g)
  return changeBounds (restoreBasis g) col old.1 old.2

/-- `SolveDownAndUpStrongBranch` (lpi_soplex.cc:262-404).  The result is the interface, the result of
the call (`none` if it is an error) and the bounds of the column in the problems solved, down branch
first. -/
def solveDownAndUpStrongBranch (a : Accepts) (g : Interface) (col : Nat) (primalValue eps : ℚ)
    (iterationLimit : Int) (down up : BranchAnswer) :
    Outcome (Interface × Option BranchResult × List (Dbl × Dbl)) := do
  let oldLimit := g.settings.iterlimit
  let c ← column g (col : Int)
  let old := (c.lower, c.upper)
  let limit := objectiveLimit g
  let result : BranchResult := {}
  let newUpper := Dbl.fin (downBranchBound primalValue eps)
  let (g, result, problems) ←
    if Dbl.le (Dbl.sub old.1 (.fin (1 / 2))) newUpper then do
      let g ← solveBranch a g col old (old.1, newUpper) iterationLimit down
      Outcome.ok (g, (branchBound limit down).map (fun r => { result with
        downBound := some r.1, downValid := r.2, iterations := down.iterations }),
        [(old.1, newUpper)])
    else Outcome.ok (g, some { result with downBound := some limit, downValid := true }, [])
  match result with
  | none => return (setIterLimit a g oldLimit, none, problems)
  | some result => do
    let newLower := Dbl.fin (upBranchBound primalValue eps)
    let (g, result, problems) ←
      if Dbl.le newLower (Dbl.add old.2 (.fin (1 / 2))) then do
        let g ← solveBranch a g col old (newLower, old.2) iterationLimit up
        Outcome.ok (g, (branchBound limit up).map (fun r => { result with
          upBound := some r.1, upValid := r.2, iterations := result.iterations + up.iterations }),
          problems ++ [(newLower, old.2)])
      else Outcome.ok (g, some { result with upBound := some limit, upValid := true }, problems)
    return (setIterLimit a g oldLimit, result, problems)

/-! ## PopulateFromMipData -/

/-- The loop over the entries of the objective (lpi_soplex.cc:443-445). -/
def objectiveVector (v : List ℚ) : List Entry → Outcome (List ℚ)
  | [] => .ok v
  | e :: r =>
    if 0 ≤ e.index ∧ e.index < (v.length : Int) then
      objectiveVector (v.set e.index.toNat e.value) r
    else .ub

end Soplex
end MiniMip
