import Verif.Model.SoplexLpi

/-!
# Parameters and solves of the SoPlex interface in the build with assertions

`LOG(DFATAL)` ends the process in this build.
-/

namespace MiniMip
namespace Soplex

/-- `SetLpParameters` (lpi_soplex.cc:1785-1934), as `setLpParameters`.  The three `LOG(DFATAL)` are at lines 1807, 1842 (which no
pricing strategy reaches) and 1900.  Those of `GetLpParameters` (1683, 1710, 1735) are reached only for values that the
interface does not set. -/
def debugSetLpParameters (a : Accepts) : (fuel : Nat) → Settings → LpParameters → Outcome (Settings × Bool)
  | 0, _, _ => .abort
  | fuel + 1, s, p =>
    if !supported p then .ok (s, false)
    else do
      Outcome.check (scalerOf p.scaling).2
      Outcome.check (timerOf p.timing).2
      let r := assign a s p
      if r.2 then .ok (r.1, true)
      else do
        let (s', ok) ← debugSetLpParameters a fuel r.1 (getLpParameters s)
        Outcome.check ok
        return (s', false)

/-- `LpSolve` (lpi_soplex.cc:108-149). -/
def debugLpSolve (a : Accepts) (g : Interface) (eps : ℚ) (ans : Answer) : Outcome Interface := do
  Outcome.check (consistent g eps)
  let g := { g with
    status := ans.status, basisStatus := ans.basisStatus, colStatus := ans.colStatus,
    rowStatus := ans.rowStatus }
  Outcome.check (!ans.throws || decide (g.status ≠ .optimal))
  Outcome.check (decide (g.settings.iterlimit < 0) ||
    decide (ans.iterations ≤ g.settings.iterlimit))
  let timeLimit := g.settings.timelimit
  let left := Dbl.max (.fin 0) (Dbl.sub timeLimit (.fin ans.time))
  let s1 : Settings :=
    if ans.time > 0 ∧ a.real .timelimit left = true then { g.settings with timelimit := left }
    else g.settings
  Outcome.check (Dbl.le (.fin 0) timeLimit)
  Outcome.check (a.real .timelimit timeLimit)
  return { g with settings := { s1 with timelimit := timeLimit } }

/-- `SoPlexSolve` (lpi_soplex.cc:151-207), as `soPlexSolve`. -/
def debugSoPlexSolve (a : Accepts) (g : Interface) (eps : ℚ) (clearThrows : Bool) (ans : Answer) :
    Outcome (Interface × Bool) := do
  let g := { g with isSolved := false }
  Outcome.check (freed g)
  let g := { g with settings := { g.settings with simplifier := false } }
  if g.settings.solveFromScratch && clearThrows then do
    Outcome.check (decide (g.status ≠ .optimal))
    return (g, false)
  else do
    let g := if g.settings.solveFromScratch then
        { g with colStatus := [], rowStatus := [], status := .noProblem, basisStatus := .noProblem }
      else g
    let g ← debugLpSolve a g eps ans
    return ({ g with isSolved := true }, g.status.isFine)

end Soplex
end MiniMip
