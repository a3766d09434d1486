import Verif.Model.SoplexLpi
import Verif.Model.LpParameters

/-!
# Strong branching sessions, status queries and rays of the Glop interface
(lpi_glop.cc:653-870, 919-932), rays of the SoPlex interface (lpi_soplex.cc:1240-1264)
-/

namespace MiniMip
namespace Glop

/-- `glop::ProblemStatus` (external). -/
inductive ProblemStatus where
  | optimal | primalInfeasible | dualInfeasible | infeasibleOrUnbounded | primalUnbounded
  | dualUnbounded | init | primalFeasible | dualFeasible | abnormal | invalidProblem | imprecise
  deriving Repr, DecidableEq

/-- The interface with what strong branching and the status queries read and write: the status of
`solver_`, its flag `objective_limit_reached`, its parameters (`use_dual_simplex` is not among the
`Settings`, no getter returns it) and the column bounds of `scaled_lp_`. -/
structure Session where
  iface : Interface
  settings : Settings
  status : ProblemStatus := .init
  objectiveLimitReached : Bool := false
  useDualSimplex : Bool := false
  scaledBounds : List (Dbl × Dbl) := []

/-- One call of `solver_.Solve` in strong branching (external): whether the returned status is OK,
the number of iterations, the objective value, and the state of the solver afterwards. -/
structure BranchSolve where
  ok : Bool
  iterations : Int
  objective : Dbl
  status : ProblemStatus
  objectiveLimitReached : Bool
  statuses : List VarStatus
  deriving Repr, DecidableEq

/-- `IsDualBoundValid` (lpi_glop.cc:130-135). -/
def isDualBoundValid (s : ProblemStatus) : Bool :=
  s = .optimal ∨ s = .dualFeasible ∨ s = .dualUnbounded

/-- What `SolveDownAndUpStrongBranch` reads of a solve. -/
def BranchSolve.answer (b : BranchSolve) : BranchAnswer :=
  if b.ok then some (b.iterations, b.objective, isDualBoundValid b.status) else none

/-- `solver_.Solve(scaled_lp_)` with the bounds of the column changed. -/
def Session.solveBranch (s : Session) (col : Nat) (bounds : Dbl × Dbl) (b : BranchSolve) : Session :=
  { s with
    scaledBounds := s.scaledBounds.set col bounds
    status := b.status
    objectiveLimitReached := b.objectiveLimitReached
    iface := { s.iface with statuses := b.statuses } }

/-- `StartStrongBranching` and `EndStrongBranching` (lpi_glop.cc:653-664). -/
def startStrongBranching (s : Session) : Outcome Session := .ok s
/-- `EndStrongBranching` (lpi_glop.cc:660-664). -/
def endStrongBranching (s : Session) : Outcome Session := .ok s

/-- `SolveDownAndUpStrongBranch` (lpi_glop.cc:666-737) with its effect on the interface.  The result
is that of `solveDownAndUpStrongBranch`.  `factor` is the scaling factor of the column, `eps` the
primal feasibility tolerance, `limit` the objective limit. -/
def strongBranch (s : Session) (col : Nat) (factor eps primalValue : ℚ) (limit : Dbl)
    (down up : BranchSolve) : Outcome (Session × BranchResult) :=
  match s.scaledBounds[col]? with
  | none => .ub
  | some (lower, upper) =>
    let result :=
      (solveDownAndUpStrongBranch lower upper factor eps primalValue limit down.answer up.answer).1
    let s := { s with useDualSimplex := true }
    let newUpper := Dbl.fin (downBranchBound (primalValue * factor) eps)
    let s := if Dbl.le (Dbl.sub lower (.fin (1 / 2))) newUpper then
        s.solveBranch col (lower, newUpper) down else s
    let newLower := Dbl.fin (upBranchBound (primalValue * factor) eps)
    let s := if Dbl.le newLower (Dbl.add upper (.fin (1 / 2))) then
        s.solveBranch col (newLower, upper) up else s
    .ok ({ s with scaledBounds := s.scaledBounds.set col (lower, upper) }, result)

/-! ## Status queries -/

/-- `IsSolved` (lpi_glop.cc:743-747). -/
def Session.isSolved (s : Session) : Bool := !s.iface.modified
/-- `ExistsPrimalRay`, `HasPrimalRay`, `IsPrimalUnbounded` (lpi_glop.cc:749-762). -/
def Session.isPrimalUnbounded (s : Session) : Bool := s.status = .primalUnbounded
/-- `IsPrimalInfeasible` (lpi_glop.cc:764-769). -/
def Session.isPrimalInfeasible (s : Session) : Bool :=
  s.status = .dualUnbounded ∨ s.status = .primalInfeasible
/-- `IsPrimalFeasible` (lpi_glop.cc:771-776). -/
def Session.isPrimalFeasible (s : Session) : Bool := s.status = .primalFeasible ∨ s.status = .optimal
/-- `ExistsDualRay`, `HasDualRay`, `IsDualUnbounded` (lpi_glop.cc:778-791). -/
def Session.isDualUnbounded (s : Session) : Bool := s.status = .dualUnbounded
/-- `IsDualInfeasible` (lpi_glop.cc:793-798). -/
def Session.isDualInfeasible (s : Session) : Bool :=
  s.status = .primalUnbounded ∨ s.status = .dualInfeasible
/-- `IsDualFeasible` (lpi_glop.cc:800-805). -/
def Session.isDualFeasible (s : Session) : Bool := s.status = .dualFeasible ∨ s.status = .optimal
/-- `IsOptimal` (lpi_glop.cc:807-810). -/
def Session.isOptimal (s : Session) : Bool := s.status = .optimal
/-- `ObjectiveLimitIsExceeded` (lpi_glop.cc:837-840). -/
def Session.objectiveLimitIsExceeded (s : Session) : Bool := s.objectiveLimitReached
/-- `TimeLimitIsExceeded` (lpi_glop.cc:842-845). -/
def Session.timeLimitIsExceeded (s : Session) : Bool := s.iface.timeLimitReached
/-- `IterationLimitIsExceeded` (lpi_glop.cc:847-855). -/
def Session.iterationLimitIsExceeded (s : Session) : Bool :=
  s.settings.maxIterations ≠ -1 ∧ s.iface.numIterations ≥ s.settings.maxIterations
/-- `IsStable` (lpi_glop.cc:812-835). -/
def Session.isStable (s : Session) : Bool :=
  if (s.status = .primalFeasible ∨ s.status = .dualFeasible) ∧ !s.objectiveLimitIsExceeded ∧
      !s.iterationLimitIsExceeded ∧ !s.timeLimitIsExceeded then false
  else if s.status = .abnormal ∨ s.status = .invalidProblem ∨ s.status = .imprecise then false
  else true

/-! ## Rays -/

/-- `GetPrimalRay` (lpi_glop.cc:919-932).  `ray` is the unscaled ray of the solver. -/
def getPrimalRay (g : Interface) (ray : Nat → ℚ) : List ℚ :=
  (List.range g.lp.cols.length).map fun c : Nat => -ray c

end Glop

namespace Soplex

/-- `GetPrimalRay` (lpi_soplex.cc:1240-1264).  `hasRay` is `hasPrimalRay`, `ray` is the vector
`getPrimalRayReal` fills, `none` if it returns false or throws. -/
def getPrimalRay (g : Interface) (hasRay : Bool) (ray : Option (Nat → ℚ)) : Outcome (List ℚ) := do
  Outcome.check hasRay
  match ray with
  | none => .error "Error"
  | some x => return (List.range g.lp.cols.length).map fun c : Nat => x c

end Soplex
end MiniMip
