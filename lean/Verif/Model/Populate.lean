import Verif.Model.MipData
import Verif.Model.SoplexLpi

/-!
# Loading the LP relaxation: `PopulateFromMipData` of both LP interfaces

The `MipData` argument is constant, but its matrix recomputes and cleans columns lazily, so the
matrix is threaded through the successive reads.
-/

namespace MiniMip

/-- `v[i]` for a vector of `MipData`: out of range is undefined behaviour. -/
def MipData.item {α : Type} (l : List α) (i : Nat) : Outcome α :=
  match l[i]? with
  | some x => .ok x
  | none => .ub

namespace Glop

/-- The loop over the rows in `PopulateFromMipData` (lpi_glop.cc:169-174), with `n` rows to go. -/
def populateRows (d : MipData) (g : Interface) : (n row : Nat) → Outcome Interface
  | 0, _ => .ok g
  | n + 1, row => do
    let lhs ← MipData.item d.lhs row
    let rhs ← MipData.item d.rhs row
    let name ← MipData.item d.constraintNames row
    let g ← addRow g {} lhs rhs name
    populateRows d g n (row + 1)

/-- The loop over the columns in `PopulateFromMipData` (lpi_glop.cc:175-180), with `n` columns to
go; `m` is the matrix of `d` after the reads so far. -/
def populateColumns (d : MipData) (g : Interface) (m : SparseMatrix) :
    (n col : Nat) → Outcome Interface
  | 0, _ => .ok g
  | n + 1, col => do
    let (m, v) ← m.col col
    let lower ← MipData.item d.lower col
    let upper ← MipData.item d.upper col
    let name ← MipData.item d.variableNames col
    populateColumns d (addColumn g v lower upper (d.objective.value col) name) m n (col + 1)

/-- `PopulateFromMipData` (lpi_glop.cc:159-183). -/
def populateFromMipData (g : Interface) (d : MipData) : Outcome Interface := do
  let g ← populateRows d (clear g) d.lhs.length 0
  let g ← populateColumns d g d.matrix d.matrix.numCols 0
  return setObjectiveSense g false

end Glop

namespace Soplex

open Glop (NewColumn NewRow)

/-- The empty rows of `PopulateFromMipData` (lpi_soplex.cc:435-438), with `n` rows to go. -/
def emptyRows (d : MipData) : (n row : Nat) → Outcome (List NewRow)
  | 0, _ => .ok []
  | n + 1, row => do
    let lhs ← MipData.item d.lhs row
    let rhs ← MipData.item d.rhs row
    return ⟨{}, lhs, rhs, ""⟩ :: (← emptyRows d n (row + 1))

/-- The loop over the columns in `AddColumns` (lpi_soplex.cc:533-544) called with the matrix and
bounds of `d`, with `n` columns to go.  The code calls `matrix.col(col)` twice per column. -/
def readColumns (d : MipData) (objective : List ℚ) (m : SparseMatrix) :
    (n col : Nat) → Outcome (List NewColumn)
  | 0, _ => .ok []
  | n + 1, col => do
    let (m, _) ← m.col col
    let (m, v) ← m.col col
    let x ← MipData.item objective col
    let lower ← MipData.item d.lower col
    let upper ← MipData.item d.upper col
    return ⟨v, lower, upper, x, ""⟩ :: (← readColumns d objective m n (col + 1))

/-- `PopulateFromMipData` (lpi_soplex.cc:410-454).  The call of `AddColumns` reads all columns before
it changes the LP. -/
def populateFromMipData (g : Interface) (d : MipData) : Outcome Interface := do
  let g ← clear g
  Outcome.check (freed g)
  let g := { g with lp := { g.lp with maximize := false } }
  let rows ← emptyRows d d.lhs.length 0
  let lp ← addRowsReal g.lp rows
  let objective ← objectiveVector (List.replicate d.lower.length 0) d.objective.entries
  let cs ← readColumns d objective d.matrix d.matrix.numCols 0
  addColumns { g with lp := lp } cs

end Soplex
end MiniMip
