import Verif.Model.DebugPopulate

/-!
# Modifying the LP of the Glop interface in the build with assertions

The functions of `Model/GlopLpi.lean` that change the LP or copy its entries, with their assertions.  `AddColumn` and `AddRow`
are in `Model/DebugPopulate.lean`.  Assertions inside Glop are not modelled.
-/

namespace MiniMip
namespace Glop

/-- `AddColumns` (lpi_glop.cc:215-232).  The assertions on the sizes (222-225) hold because the arguments of the calls of
`AddColumn` are one list. -/
def debugAddColumns (g : Interface) : List NewColumn → Outcome Interface
  | [] => .ok g
  | c :: r => do debugAddColumns (← debugAddColumn g c.col c.lower c.upper c.objective c.name) r

/-- `AddRows` (lpi_glop.cc:283-297).  The assertions on the sizes (289-291) hold because the arguments of the calls of
`AddRow` are one list. -/
def debugAddRows (g : Interface) : List NewRow → Outcome Interface
  | [] => .ok g
  | r :: rs => do debugAddRows (← debugAddRow g r.row r.lhs r.rhs r.name) rs

/-- The assertions on a range (lpi_glop.cc:237-239, 302-304). -/
def checkRange (n : Nat) (first last : Int) : Outcome Unit := do
  Outcome.check (decide (0 ≤ first))
  Outcome.check (decide (first ≤ last))
  Outcome.check (decide (last < n))

/-- The assertions on a position (lpi_glop.cc:382-383, 397-398, 422-423, 458-459, 477-478). -/
def checkPosition (n : Nat) (i : Int) : Outcome Unit := do
  Outcome.check (decide (0 ≤ i))
  Outcome.check (decide (i < n))

/-- The assertions on a pair of bounds or sides (lpi_glop.cc:384-385, 399-400); `IsInfinity` is lpi_glop.cc:1368-1371. -/
def checkInfinite (lower upper : Dbl) : Outcome Unit := do
  Outcome.check (decide (lower ≠ .pinf))
  Outcome.check (decide (upper.neg ≠ .pinf))

/-- `DeleteColumns` (lpi_glop.cc:234-252). -/
def debugDeleteColumns (g : Interface) (first last : Int) : Outcome Interface := do
  checkRange g.lp.cols.length first last
  deleteColumns g first last

/-- `DeleteRows` (lpi_glop.cc:299-314). -/
def debugDeleteRows (g : Interface) (first last : Int) : Outcome Interface := do
  checkRange g.lp.rows.length first last
  deleteRows g first last

/-- `DeleteRowSet` (lpi_glop.cc:316-337). -/
def debugDeleteRowSet (g : Interface) (mask : List Bool) : Outcome (Interface × List Int) := do
  Outcome.check (decide (mask.length = g.lp.rows.length))
  deleteRowSet g mask

/-- `SetColumnBounds` (lpi_glop.cc:379-392). -/
def debugSetColumnBounds (g : Interface) (col : Int) (lower upper : Dbl) : Outcome Interface := do
  checkPosition g.lp.cols.length col
  checkInfinite lower upper
  setColumnBounds g col lower upper

/-- `SetRowSides` (lpi_glop.cc:394-409). -/
def debugSetRowSides (g : Interface) (row : Int) (lhs rhs : Dbl) : Outcome Interface := do
  checkPosition g.lp.rows.length row
  checkInfinite lhs rhs
  Outcome.check (Dbl.le lhs rhs)
  setRowSides g row lhs rhs

/-- `SetObjectiveCoefficient` (lpi_glop.cc:419-430).  The value is finite, so the assertion at line 424 holds. -/
def debugSetObjectiveCoefficient (g : Interface) (col : Int) (x : ℚ) : Outcome Interface := do
  checkPosition g.lp.cols.length col
  setObjectiveCoefficient g col x

/-- `GetSparseColumnCoefficients` (lpi_glop.cc:456-473).  The assertion inside `CleanUpIfNeeded` is left out: it holds for
every vector (C125). -/
def debugGetSparseColumn (g : Interface) (col : Int) : Outcome SparseVector := do
  checkPosition g.lp.cols.length col
  let v ← getSparseColumnCoefficients g col
  Outcome.check (!v.mayNeedCleaning)
  return v

/-- `GetSparseRowCoefficients` (lpi_glop.cc:475-495), with the same omission. -/
def debugGetSparseRow (g : Interface) (row : Int) : Outcome SparseVector := do
  checkPosition g.lp.rows.length row
  let v ← getSparseRowCoefficients g row
  Outcome.check (!v.mayNeedCleaning)
  return v

end Glop
end MiniMip
