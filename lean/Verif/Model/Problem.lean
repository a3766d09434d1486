import Verif.Model.Outcome
import Verif.Model.Dbl

/-!
# The problem and result structures (minimip/data_structures/problem.{h,cc})

Bounds, sides and objective values of solutions can be infinite and are `Dbl`; matrix and
objective coefficients are finite (`ℚ`).
-/

namespace MiniMip

/-- `MiniMipVariable` (problem.h:53-59). -/
structure Variable where
  name : String
  objective : ℚ := 0
  lower : Dbl := .ninf
  upper : Dbl := .pinf
  isInteger : Bool := false
  deriving Repr, DecidableEq

/-- `MiniMipConstraint` (problem.h:61-67). -/
structure Constraint where
  name : String
  varIndices : List Int := []
  coefficients : List ℚ := []
  lhs : Dbl := .ninf
  rhs : Dbl := .pinf
  deriving Repr, DecidableEq

/-- `MiniMipSolutionHint` (problem.h:69-72). -/
structure Hint where
  varIndices : List Int := []
  values : List ℚ := []
  deriving Repr, DecidableEq

/-- `MiniMipProblem` (problem.h:44-51). -/
structure Problem where
  name : String := ""
  vars : List Variable := []
  constraints : List Constraint := []
  hints : List Hint := []
  isMaximization : Bool := false
  offset : ℚ := 0
  deriving Repr, DecidableEq

namespace Problem

/-- The loop over the variables (problem.cc:22-32); the empty string means no error. -/
def variableError : List Variable → String
  | [] => ""
  | v :: r =>
    if v.name = "" then "No variable name given."
    else if Dbl.lt v.upper v.lower then
      "Variable " ++ v.name ++ "'s lower variable bound is less than its upper variable bound."
    else variableError r

/-- The loop over the indices of a constraint (problem.cc:38-52).  `seen` is
`var_indices_set`.  The comparison in line 44 is `>`. -/
def indexError (name : String) (numVariables : Nat) (seen : List Int) : List Int → String
  | [] => ""
  | i :: r =>
    if i < 0 then "Negative variable index in constraint " ++ name ++ "."
    else if i > numVariables then "Variable index " ++ toString i ++ " does not exist."
    else if i ∈ seen then "Variable indices in constraint " ++ name ++ " are not unique."
    else indexError name numVariables (i :: seen) r

/-- The body of the loop over the constraints (problem.cc:34-63). -/
def constraintError (numVariables : Nat) (c : Constraint) : String :=
  if c.name = "" then "No constraint name given."
  else
    let e := indexError c.name numVariables [] c.varIndices
    if e ≠ "" then e
    else if c.varIndices.length ≠ c.coefficients.length then
      "Constraint " ++ c.name ++ " has unequal number of indices and coefficients."
    else if Dbl.lt c.rhs c.lhs then
      "Constraint " ++ c.name ++ " has lesser left- than right-hand side."
    else ""

/-- The loop over the constraints (problem.cc:34-63). -/
def constraintsError (numVariables : Nat) : List Constraint → String
  | [] => ""
  | c :: r =>
    let e := constraintError numVariables c
    if e ≠ "" then e else constraintsError numVariables r

/-- `FindErrorInMiniMipProblem` (problem.cc:21-65). -/
def findError (p : Problem) : String :=
  let e := variableError p.vars
  if e ≠ "" then e else constraintsError p.vars.length p.constraints

end Problem

/-- `MiniMipSolution` (problem.h:81-90). -/
structure Solution where
  values : List ℚ := []
  objective : Dbl := .pinf
  deriving Repr, DecidableEq

/-- `MiniMipSolveStatus` (problem.h:121-156) by its numeric value; `kInfeasible` and
`kUnbounded` are both 5. -/
abbrev SolveStatus := Nat
/-- `kOptimal` (problem.h:129). -/
def SolveStatus.optimal : SolveStatus := 2
/-- `kInfeasible` (problem.h:142). -/
def SolveStatus.infeasible : SolveStatus := 5
/-- `kUnbounded` (problem.h:148). -/
def SolveStatus.unbounded : SolveStatus := 5

/-- `MiniMipStoppingReason` (problem.h:158-170) by its numeric value. -/
abbrev StoppingReason := Nat

/-- `MiniMipResult` (problem.h:92-101).  `none`: not initialised (these members have no
initialiser, and solver.h:53 makes the result without values). -/
structure SolveResult where
  solveStatus : Option SolveStatus := none
  stoppingReason : Option StoppingReason := none
  errorMessage : String := ""
  bestPrimalBound : Option Dbl := none
  bestDualBound : Option Dbl := none
  best : Solution := {}
  additional : List Solution := []
  deriving Repr, DecidableEq

/-- `AddSolution` (problem.h:106-118); it always returns OK. -/
def SolveResult.addSolution (r : SolveResult) (s : Solution) : SolveResult :=
  if Dbl.lt s.objective r.best.objective then
    if Dbl.ne r.best.objective .pinf then
      { r with additional := r.additional ++ [r.best], best := s }
    else { r with best := s }
  else { r with additional := r.additional ++ [s] }

end MiniMip
