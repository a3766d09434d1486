import Verif.Model.SoplexLpi

/-!
# Strong branching with SoPlex when `optimize` throws (minimip/lp_interface/lpi_soplex.cc:262-404)

`SolveDownAndUpStrongBranch` calls `optimize` outside of a try block, in contrast to `LpSolve` (108-149).  An exception
leaves the function at that point; what follows in the function is not executed.
-/

namespace MiniMip
namespace Soplex

/-- What one call of `optimize` in strong branching leaves behind, and whether it throws (external). -/
structure Attempt where
  answer : BranchAnswer
  throws : Bool
  deriving Repr, DecidableEq

/-- How a call of `SolveDownAndUpStrongBranch` ends: it returns (`none` is an error), or an exception leaves it. -/
inductive Ending where
  | returned (g : Interface) (result : Option BranchResult) (problems : List (Dbl × Dbl))
  | threw (g : Interface)
  deriving Repr, DecidableEq

/-- One branch (lpi_soplex.cc:294-336, 343-388); the second component is whether `optimize` threw. -/
def attemptBranch (a : Accepts) (g : Interface) (col : Nat) (old new : Dbl × Dbl) (iterationLimit : Int)
    (t : Attempt) : Outcome (Interface × Bool) :=
  if t.throws then
    let g := changeBounds g col new.1 new.2
    let g := setIterLimit a g iterationLimit
    .ok ({ g with
      status := t.answer.status, basisStatus := t.answer.basisStatus, colStatus := t.answer.colStatus,
      rowStatus := t.answer.rowStatus }, true)
  else do
    let g ← solveBranch a g col old new iterationLimit t.answer
    Outcome.ok (g, false)

/-- The up branch and the end of the call (lpi_soplex.cc:339-404); `result` is that of the down branch. -/
def attemptUp (a : Accepts) (g : Interface) (col : Nat) (old : Dbl × Dbl) (primalValue eps : ℚ)
    (iterationLimit oldLimit : Int) (limit : Dbl) (result : BranchResult) (problems : List (Dbl × Dbl)) (up : Attempt) :
    Outcome Ending :=
  let newLower := Dbl.fin (upBranchBound primalValue eps)
  if Dbl.le newLower (Dbl.add old.2 (.fin (1 / 2))) then do
    let (g, threw) ← attemptBranch a g col old (newLower, old.2) iterationLimit up
    if threw then Outcome.ok (.threw g)
    else Outcome.ok (.returned (setIterLimit a g oldLimit) ((branchBound limit up.answer).map (fun r => { result with
      upBound := some r.1, upValid := r.2, iterations := result.iterations + up.answer.iterations }))
      (problems ++ [(newLower, old.2)]))
  else Outcome.ok (.returned (setIterLimit a g oldLimit)
    (some { result with upBound := some limit, upValid := true }) problems)

/-- `SolveDownAndUpStrongBranch` (lpi_soplex.cc:262-404). -/
def attemptDownAndUp (a : Accepts) (g : Interface) (col : Nat) (primalValue eps : ℚ)
    (iterationLimit : Int) (down up : Attempt) : Outcome Ending := do
  let oldLimit := g.settings.iterlimit
  let c ← column g (col : Int)
  let old := (c.lower, c.upper)
  let limit := objectiveLimit g
  let newUpper := Dbl.fin (downBranchBound primalValue eps)
  if Dbl.le (Dbl.sub old.1 (.fin (1 / 2))) newUpper then do
    let (g, threw) ← attemptBranch a g col old (old.1, newUpper) iterationLimit down
    if threw then Outcome.ok (.threw g)
    else match branchBound limit down.answer with
      | none => Outcome.ok (.returned (setIterLimit a g oldLimit) none [(old.1, newUpper)])
      | some r =>
        attemptUp a g col old primalValue eps iterationLimit oldLimit limit
          { downBound := some r.1, downValid := r.2, iterations := down.answer.iterations } [(old.1, newUpper)] up
  else
    attemptUp a g col old primalValue eps iterationLimit oldLimit limit
      { downBound := some limit, downValid := true } [] up

end Soplex
end MiniMip
