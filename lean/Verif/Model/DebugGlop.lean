import Verif.Model.LpSolution

/-!
# The Glop interface in the build with assertions: solving and the queries after it

The assertions at lpi_glop.cc:850 (`IterationLimitIsExceeded`), 870 (`GetPrimalValues`, called inside `SolveInternal` at 590)
1162, 1191, 1200, 1206 (`GetLpParameters`) and 1270, 1300 (`SetLpParameters`).
-/

namespace MiniMip
namespace Glop

/-- The interface, the global flag `FLAGS_time_limit_use_usertime`, and the number of iterations that `solver_` reports
(`GetNumberOfIterations`, external): those of its last call. -/
structure DebugSession where
  session : Session
  usertime : Bool
  solverIterations : Int := 0

/-- The constructor (lpi_glop.cc:139-153).  `settings` are those a new `solver_` has (external).  Its CHECK holds
(`construct_accepted`). -/
def DebugSession.construct (usertime : Bool) (settings : Settings) : DebugSession :=
  let r := setLpParameters usertime settings { solverType := .glop }
  { session := { iface := { useScaling := r.2.1.useScaling }, settings := r.2.1 }, usertime := r.1 }

/-- `SolveInternal` (lpi_glop.cc:545-620), as `solveInternal`.  `statuses` are the problem statuses after the successive calls
of `solver_.Solve`.  The result is the interface, whether the returned status is OK, and the iterations and the status of the
last call.  The assertion is that of `GetPrimalValues` (line 870), called at line 594. -/
def debugSolveInternal : (fuel : Nat) → (recursive : Bool) → Interface → (Nat → Answer) → (Nat → ProblemStatus) →
    Outcome (Interface × Bool × Int × ProblemStatus)
  | 0, _, g, answers, statuses => .ok (g, false, (answers 0).iterations, statuses 0)
  | fuel + 1, recursive, g, answers, statuses =>
    let g := if recursive then g else { g with numIterations := 0, timeLimitReached := false }
    let a := answers 0
    if !a.ok then .ok (g, false, a.iterations, statuses 0)
    else
      let g := { g with
        timeLimitReached := a.limitReached
        numIterations := g.numIterations + a.iterations
        statuses := a.statuses }
      if a.feasible && g.useScaling then do
        Outcome.check (decide (statuses 0 = .optimal))
        if !a.lpFeasible then do
          let (g, ok, last) ← debugSolveInternal fuel true { g with useScaling := false, modified := true }
            (fun k => answers (k + 1)) (fun k => statuses (k + 1))
          if !ok then return (g, false, last)
          else return ({ g with useScaling := true, modified := false }, true, last)
        else return ({ g with modified := false }, true, a.iterations, statuses 0)
      else .ok ({ g with modified := false }, true, a.iterations, statuses 0)

/-- `SolveLpWithPrimalSimplex` and `SolveLpWithDualSimplex` (lpi_glop.cc:626-651).  `limit` is the flag of the objective limit
afterwards. -/
def DebugSession.solveLp (d : DebugSession) (useDual : Bool) (answers : Nat → Answer) (statuses : Nat → ProblemStatus)
    (limit : Bool) : Outcome (DebugSession × Bool) := do
  let (iface, ok, iterations, status) ← debugSolveInternal 2 false d.session.iface answers statuses
  return ({ d with
    session := { d.session with iface := iface, status := status, objectiveLimitReached := limit, useDualSimplex := useDual }
    solverIterations := iterations }, ok)

/-- `SolveDownAndUpStrongBranch` (lpi_glop.cc:666-737), as `strongBranch`.  `solver_` then reports the iterations of the branch
solved last. -/
def DebugSession.strongBranch (d : DebugSession) (col : Nat) (factor eps primalValue : ℚ) (limit : Dbl)
    (down up : BranchSolve) : Outcome (DebugSession × BranchResult) := do
  let (s, result) ← Glop.strongBranch d.session col factor eps primalValue limit down up
  let (lower, upper) := d.session.scaledBounds.getD col (.nan, .nan)
  let it := d.solverIterations
  let it := if Dbl.le (Dbl.sub lower (.fin (1 / 2))) (.fin (downBranchBound (primalValue * factor) eps)) then
    down.iterations else it
  let it := if Dbl.le (.fin (upBranchBound (primalValue * factor) eps)) (Dbl.add upper (.fin (1 / 2))) then
    up.iterations else it
  return ({ d with session := s, solverIterations := it }, result)

/-- `LpGlopInterface::SetLpParameters` with its `LOG(DFATAL)` (lpi_glop.cc:1270, 1300), which ends the process in this build; no
value of the timing mode reaches that at line 1341. -/
def debugSetLpParameters (usertime : Bool) (s : Settings) (p : LpParameters) : Outcome (Bool × Settings × Bool) :=
  if !supported p then .ok (usertime, s, false)
  else do
    Outcome.check (scalingOf p.scaling).isSome
    Outcome.check (ruleOf p.pricing).isSome
    return Glop.setLpParameters usertime s p

/-- `SetLpParameters` (lpi_glop.cc:1248-1353); the second component is whether the status is OK. -/
def DebugSession.setLpParameters (d : DebugSession) (p : LpParameters) : DebugSession × Bool :=
  let r := Glop.setLpParameters d.usertime d.session.settings p
  ({ d with
    session := { d.session with
      settings := r.2.1
      iface := { d.session.iface with useScaling := if r.2.2 then r.2.1.useScaling else d.session.iface.useScaling } }
    usertime := r.1 }, r.2.2)

/-- `IterationLimitIsExceeded` (lpi_glop.cc:847-855). -/
def DebugSession.iterationLimitIsExceeded (d : DebugSession) : Outcome Bool := do
  Outcome.check (decide (d.solverIterations ≤ d.session.iface.numIterations))
  return d.session.iterationLimitIsExceeded

/-- `IsStable` (lpi_glop.cc:812-835); `&&` evaluates from left to right. -/
def DebugSession.isStable (d : DebugSession) : Outcome Bool :=
  let s := d.session
  let healthy := decide (¬ (s.status = .abnormal ∨ s.status = .invalidProblem ∨ s.status = .imprecise))
  if (s.status = .primalFeasible ∨ s.status = .dualFeasible) ∧ !s.objectiveLimitIsExceeded then do
    let limit ← d.iterationLimitIsExceeded
    if !limit && !s.timeLimitIsExceeded then return false else return healthy
  else .ok healthy

/-- `GetLpParameters` (lpi_glop.cc:1136-1216). -/
def DebugSession.getLpParameters (d : DebugSession) : Outcome LpParameters := do
  let s := d.session.settings
  Outcome.check (decide (s.feasibilityRule = s.optimizationRule))
  if Dbl.lt s.maxDeterministicTime .pinf then Outcome.check (Dbl.eq s.maxTime .pinf)
  if Dbl.lt s.maxTime .pinf then Outcome.check (Dbl.eq s.maxDeterministicTime .pinf)
  Outcome.check (decide (s.maxIterations ≠ 0))
  return Glop.getLpParameters d.usertime s

end Glop
end MiniMip
