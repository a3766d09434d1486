import Verif.Model.GlopSession

/-!
# Solution information getters of both LP interfaces (lpi_glop.cc:741-932, lpi_soplex.cc:1001-1293)

What is not in `Verif.Model.GlopSession` and `Verif.Model.SoplexLpi`.  The vectors the LP code holds
after a solve are arguments; those of Glop are given unscaled (the calls of `scaler_` are part of the
external code).
-/

namespace MiniMip
namespace Glop

/-- `SolveLpWithPrimalSimplex` and `SolveLpWithDualSimplex` (lpi_glop.cc:626-651), with the status and the
flag of the objective limit `solver_` has after its last call.  After a call that failed nothing is
said about them. -/
def Session.solveLp (s : Session) (useDual : Bool) (answers : Nat → Answer) (status : ProblemStatus)
    (limit : Bool) : Session × Bool :=
  let (iface, ok) := Glop.solveLp s.iface answers
  ({ s with
    iface := iface, status := status, objectiveLimitReached := limit, useDualSimplex := useDual }, ok)

/-- `GetNumIterations` (lpi_glop.cc:856-859). -/
def Session.getNumIterations (s : Session) : Int := s.iface.numIterations

/-- `GetPrimalValues` (lpi_glop.cc:868-879). -/
def getPrimalValues (g : Interface) (values : Nat → ℚ) : Outcome (List ℚ) :=
  .ok ((List.range g.lp.cols.length).map values)
/-- `GetDualValues` (lpi_glop.cc:881-892). -/
def getDualValues (g : Interface) (values : Nat → ℚ) : Outcome (List ℚ) :=
  .ok ((List.range g.lp.rows.length).map values)
/-- `GetReducedCosts` (lpi_glop.cc:894-905). -/
def getReducedCosts (g : Interface) (values : Nat → ℚ) : Outcome (List ℚ) :=
  .ok ((List.range g.lp.cols.length).map values)
/-- `GetRowActivities` (lpi_glop.cc:907-918). -/
def getRowActivities (g : Interface) (values : Nat → ℚ) : Outcome (List ℚ) :=
  .ok ((List.range g.lp.rows.length).map values)

/-- `GetDualRay` (lpi_glop.cc:935-948).  `ray` is the unscaled dual ray of the solver. -/
def getDualRay (g : Interface) (ray : Nat → ℚ) : List ℚ :=
  (List.range g.lp.rows.length).map fun r : Nat => -ray r

end Glop

namespace Soplex

/-- `ExistsPrimalRay` (lpi_soplex.cc:1015-1018). -/
def existsPrimalRay (g : Interface) : Bool := g.status = .unbounded
/-- `ExistsDualRay` (lpi_soplex.cc:1052-1055). -/
def existsDualRay (g : Interface) : Bool := g.status = .infeasible
/-- `IsDualUnbounded` (lpi_soplex.cc:1065-1069). -/
def isDualUnbounded (g : Interface) : Bool := g.status = .infeasible ∧ g.basisStatus = .dual
/-- `IsDualInfeasible` (lpi_soplex.cc:1071-1074). -/
def isDualInfeasible (g : Interface) : Bool := g.status = .unbounded
/-- `IsStable` (lpi_soplex.cc:1096-1107). -/
def isStable (g : Interface) : Bool :=
  if g.status = .error ∨ g.status = .singular then false
  else if g.status = .optimalUnscaledViolations then false
  else true
/-- `ObjectiveLimitIsExceeded` (lpi_soplex.cc:1109-1113). -/
def objectiveLimitIsExceeded (g : Interface) : Bool := g.status = .abortValue
/-- `IterationLimitIsExceeded` (lpi_soplex.cc:1115-1119). -/
def iterationLimitIsExceeded (g : Interface) : Bool := g.status = .abortIter
/-- `TimeLimitIsExceeded` (lpi_soplex.cc:1121-1125). -/
def timeLimitIsExceeded (g : Interface) : Bool := g.status = .abortTime

/-- A call that fills `n` doubles; `values` is `none` if it returns false or throws. -/
def fetch (n : Nat) (values : Option (Nat → ℚ)) : Outcome (List ℚ) :=
  match values with
  | none => .error "Error"
  | some x => .ok ((List.range n).map x)

/-- `GetPrimalValues` (lpi_soplex.cc:1136-1159). -/
def getPrimalValues (g : Interface) (values : Option (Nat → ℚ)) : Outcome (List ℚ) := do
  Outcome.check (← isOptimal g)
  fetch g.lp.cols.length values
/-- `GetDualValues` (lpi_soplex.cc:1165-1187). -/
def getDualValues (g : Interface) (values : Option (Nat → ℚ)) : Outcome (List ℚ) := do
  Outcome.check (← isOptimal g)
  fetch g.lp.rows.length values
/-- `GetRowActivities` (lpi_soplex.cc:1190-1212). -/
def getRowActivities (g : Interface) (values : Option (Nat → ℚ)) : Outcome (List ℚ) :=
  fetch g.lp.rows.length values
/-- `GetReducedCosts` (lpi_soplex.cc:1215-1237). -/
def getReducedCosts (g : Interface) (values : Option (Nat → ℚ)) : Outcome (List ℚ) :=
  fetch g.lp.cols.length values

/-- `GetDualRay` (lpi_soplex.cc:1266-1289).  `hasRay` is `hasDualFarkas`. -/
def getDualRay (g : Interface) (hasRay : Bool) (ray : Option (Nat → ℚ)) : Outcome (List ℚ) := do
  Outcome.check hasRay
  fetch g.lp.rows.length ray

end Soplex
end MiniMip
