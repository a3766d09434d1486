import Verif.Model.SoplexLpi

/-!
# Strong branching of the SoPlex interface in the build with assertions
-/

namespace MiniMip
namespace Soplex

/-- `RestorePreStrongbranchingBasis` (lpi_soplex.cc:225-239), for a `setBasis` that does not throw. -/
def debugRestoreBasis (g : Interface) : Outcome Interface := do
  Outcome.check (decide (g.savedRows.length = g.lp.rows.length))
  Outcome.check (decide (g.savedCols.length = g.lp.cols.length))
  return restoreBasis g

/-- The assertion on the bounds of the column (lpi_soplex.cc:293, 334, 347, 388). -/
def checkBranchColumn (g : Interface) (col : Nat) : Outcome Unit := do
  let c ← column g (col : Int)
  Outcome.check (Dbl.le c.lower c.upper)

/-- One branch (lpi_soplex.cc:292-334, 346-388), as `solveBranch`. -/
def debugSolveBranch (a : Accepts) (g : Interface) (col : Nat) (old new : Dbl × Dbl) (iterationLimit : Int)
    (b : BranchAnswer) : Outcome Interface := do
  let g := changeBounds g col new.1 new.2
  checkBranchColumn g col
  let g := setIterLimit a g iterationLimit
  let g := { g with
    status := b.status, basisStatus := b.basisStatus, colStatus := b.colStatus,
    rowStatus := b.rowStatus }
  Outcome.check (!freed g)
  let g ← debugRestoreBasis g
  let g := changeBounds g col old.1 old.2
  checkBranchColumn g col
  return g

/-- `SolveDownAndUpStrongBranch` (lpi_soplex.cc:262-404), as `solveDownAndUpStrongBranch`.  There is no assertion on the
column. -/
def debugDownAndUp (a : Accepts) (g : Interface) (col : Nat) (primalValue eps : ℚ)
    (iterationLimit : Int) (down up : BranchAnswer) :
    Outcome (Interface × Option BranchResult × List (Dbl × Dbl)) := do
  let oldLimit := g.settings.iterlimit
  let c ← column g (col : Int)
  let old := (c.lower, c.upper)
  let limit := objectiveLimit g
  let result : BranchResult := {}
  let newUpper := Dbl.fin (downBranchBound primalValue eps)
  let (g, result, problems) ←
    if Dbl.le (Dbl.sub old.1 (.fin (1 / 2))) newUpper then do
      let g ← debugSolveBranch a g col old (old.1, newUpper) iterationLimit down
      Outcome.ok (g, (branchBound limit down).map (fun r => { result with
        downBound := some r.1, downValid := r.2, iterations := down.iterations }),
        [(old.1, newUpper)])
    else Outcome.ok (g, some { result with downBound := some limit, downValid := true }, [])
  match result with
  | none => return (setIterLimit a g oldLimit, none, problems)
  | some result => do
    let newLower := Dbl.fin (upBranchBound primalValue eps)
    let (g, result, problems) ←
      if Dbl.le newLower (Dbl.add old.2 (.fin (1 / 2))) then do
        let g ← debugSolveBranch a g col old (newLower, old.2) iterationLimit up
        Outcome.ok (g, (branchBound limit up).map (fun r => { result with
          upBound := some r.1, upValid := r.2, iterations := result.iterations + up.iterations }),
          problems ++ [(newLower, old.2)])
      else Outcome.ok (g, some { result with upBound := some limit, upValid := true }, problems)
    return (setIterLimit a g oldLimit, result, problems)

/-- `EndStrongBranching` (lpi_soplex.cc:992-999). -/
def debugEndStrongBranching (g : Interface) : Outcome Interface := do
  Outcome.check (!freed g)
  let g ← debugRestoreBasis g
  return { g with savedRows := [], savedCols := [] }

end Soplex
end MiniMip
