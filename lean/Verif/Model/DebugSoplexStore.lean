import Verif.Model.DebugStore

/-!
# Modifying and reading the LP of the SoPlex interface in the build with assertions

The functions of `Model/SoplexLpi.lean` that change or read the LP, with their assertions.  `AddRow` is in
`Model/DebugPopulate.lean`.  `inf` and `eps` are the parameters `INFTY` and `EPSILON_ZERO` of SoPlex; the sums with `eps` are
exact.  Assertions inside SoPlex are not modelled.
-/

namespace MiniMip
namespace Soplex

open Glop (NewColumn NewRow checkRange checkPosition)

/-- The assertions on the entries of a column or row (lpi_soplex.cc:464-481, 518-524, 582-590, 618-625), with `n` the other
dimension of the LP. -/
def checkEntries (n : Nat) (v : SparseVector) : Outcome (List Entry) := do
  let l ← v.debugEntries
  Outcome.check (l.all fun e => decide (e.value ≠ 0))
  Outcome.check (indicesBelow n l)
  return l

/-- `checkEntries` and the assertion on infinite values (lpi_soplex.cc:486, 538). -/
def checkColumn (inf : ℚ) (n : Nat) (v : SparseVector) : Outcome Unit := do
  let l ← checkEntries n v
  Outcome.check (valuesBelow inf l)

/-- `AddColumn` (lpi_soplex.cc:458-500). -/
def debugAddColumn (inf : ℚ) (g : Interface) (c : NewColumn) : Outcome Interface := do
  checkColumn inf g.lp.rows.length c.col
  addColumn g c

/-- The assertions in the loops of `AddColumns` (lpi_soplex.cc:518-524, 533-541). -/
def checkNewColumns (inf : ℚ) (n : Nat) : List NewColumn → Outcome Unit
  | [] => .ok ()
  | c :: r => do
    checkColumn inf n c.col
    checkNewColumns inf n r

/-- `AddColumns` (lpi_soplex.cc:502-551).  The columns are those the matrix hands out; the matrix is one for which
`AllColsAreClean` (line 515) holds. -/
def debugAddColumns (inf : ℚ) (g : Interface) (cs : List NewColumn) : Outcome Interface := do
  Outcome.check (freed g)
  checkNewColumns inf g.lp.rows.length cs
  addColumns g cs

/-- The assertions in `AddRows` (lpi_soplex.cc:616-629).  There is none on infinite values. -/
def checkNewRows (n : Nat) : List NewRow → Outcome Unit
  | [] => .ok ()
  | r :: rs => do
    let _ ← checkEntries n r.row
    checkNewRows n rs

/-- `AddRows` (lpi_soplex.cc:604-649). -/
def debugAddRows (g : Interface) (rs : List NewRow) : Outcome Interface := do
  Outcome.check (freed g)
  checkNewRows g.lp.cols.length rs
  addRows g rs

/-- `DeleteColumns` (lpi_soplex.cc:553-576). -/
def debugDeleteColumns (g : Interface) (first last : Int) : Outcome Interface := do
  checkRange g.lp.cols.length first last
  deleteColumns g first last

/-- `DeleteRows` (lpi_soplex.cc:651-666). -/
def debugDeleteRows (g : Interface) (first last : Int) : Outcome Interface := do
  checkRange g.lp.rows.length first last
  deleteRows g first last

/-- The assertions on a pair of bounds or sides before they are stored (lpi_soplex.cc:737-738, 763-764); `IsInfinity` is
lpi_soplex.cc:1946-1950. -/
def checkInfinite (inf : ℚ) (lower upper : Dbl) : Outcome Unit := do
  Outcome.check (!Dbl.le (.fin inf) lower)
  Outcome.check (!Dbl.le (.fin inf) upper.neg)

/-- `SetColumnBounds` (lpi_soplex.cc:733-756). -/
def debugSetColumnBounds (inf eps : ℚ) (g : Interface) (col : Int) (lower upper : Dbl) : Outcome Interface := do
  checkInfinite inf lower upper
  let g ← setColumnBounds g col lower upper
  Outcome.check (Dbl.le lower (upper.add (.fin eps)))
  return g

/-- `SetRowSides` (lpi_soplex.cc:758-780). -/
def debugSetRowSides (inf eps : ℚ) (g : Interface) (row : Int) (lhs rhs : Dbl) : Outcome Interface := do
  checkPosition g.lp.rows.length row
  checkInfinite inf lhs rhs
  let g ← setRowSides g row lhs rhs
  Outcome.check (Dbl.le lhs (rhs.add (.fin eps)))
  return g

/-- `SetObjectiveCoefficient` (lpi_soplex.cc:797-808).  There is no assertion on the column. -/
def debugSetObjectiveCoefficient (inf : ℚ) (g : Interface) (col : Int) (x : ℚ) : Outcome Interface := do
  Outcome.check (decide (|x| < inf))
  setObjectiveCoefficient g col x

/-- `GetSparseColumnCoefficients` (lpi_soplex.cc:855-877).  The assertion inside `CleanUpIfNeeded` is left out: it holds for
every vector (C125). -/
def debugGetSparseColumn (order : List Entry → List Entry) (g : Interface) (col : Int) : Outcome SparseVector := do
  checkPosition g.lp.cols.length col
  getSparseColumnCoefficients order g col

/-- `GetSparseRowCoefficients` (lpi_soplex.cc:882-903). -/
def debugGetSparseRow (order : List Entry → List Entry) (g : Interface) (row : Int) : Outcome SparseVector := do
  checkPosition g.lp.rows.length row
  getSparseRowCoefficients order g row

/-- `GetObjectiveCoefficient` (lpi_soplex.cc:905-912). -/
def debugGetObjectiveCoefficient (g : Interface) (col : Int) : Outcome ℚ := do
  checkPosition g.lp.cols.length col
  getObjectiveCoefficient g col

/-- `GetLowerBound` (lpi_soplex.cc:914-921). -/
def debugGetLowerBound (g : Interface) (col : Int) : Outcome Dbl := do
  checkPosition g.lp.cols.length col
  getLowerBound g col

/-- `GetUpperBound` (lpi_soplex.cc:923-930). -/
def debugGetUpperBound (g : Interface) (col : Int) : Outcome Dbl := do
  checkPosition g.lp.cols.length col
  getUpperBound g col

/-- `GetLeftHandSide` (lpi_soplex.cc:932-939). -/
def debugGetLeftHandSide (g : Interface) (row : Int) : Outcome Dbl := do
  checkPosition g.lp.rows.length row
  getLeftHandSide g row

/-- `GetRightHandSide` (lpi_soplex.cc:941-948). -/
def debugGetRightHandSide (g : Interface) (row : Int) : Outcome Dbl := do
  checkPosition g.lp.rows.length row
  getRightHandSide g row

/-- `GetMatrixCoefficient` (lpi_soplex.cc:950-960). -/
def debugGetMatrixCoefficient (g : Interface) (col row : Int) : Outcome ℚ := do
  checkPosition g.lp.cols.length col
  checkPosition g.lp.rows.length row
  getMatrixCoefficient g col row

end Soplex
end MiniMip
