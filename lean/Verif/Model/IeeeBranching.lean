import Verif.Model.Ieee
import Verif.Model.Branching

/-!
# The tests and the branching rule of branch and bound in floating-point arithmetic

`Verif.Model.MipData`, `Verif.Model.Generator` and `Verif.Model.Branching` compute with exact rationals.  These are the
same functions with the arithmetic of `double`; `Verif.Props.IeeeBranching` compares.
-/

namespace MiniMip
namespace Ieee

/-- `IsIntegerWithinTolerance` (solver.h:100-102). -/
def isIntegerWithinTolerance (tol v : Dbl) : Bool := Dbl.le (abs (sub v (roundHalfAway v))) tol

/-- `FloorWithTolerance` (solver.h:108-110). -/
def floorWithTolerance (tol v : Dbl) : Dbl :=
  if isIntegerWithinTolerance tol v then roundHalfAway v else v.floor

/-- `SolutionIsIntegral` (mip_data.cc:114-124) over the listed integer variables. -/
def allIntegral (values : List Dbl) (tolerance : Dbl) : List Int → Outcome Bool
  | [] => .ok true
  | c :: r => do
    let x ← vecGet values c
    if Dbl.le (abs (sub x (roundHalfAway x))) tolerance then allIntegral values tolerance r else .ok false

/-- `SolutionIsIntegral` (mip_data.cc:114-124). -/
def solutionIsIntegral (d : MipData) (values : List Dbl) (tolerance : Dbl) : Outcome Bool :=
  allIntegral values tolerance d.integerVariables

/-- The loop of the max-fractional rule (maxfractional_branching.cc:31-40). -/
def scan (tol : Dbl) (values : List Dbl) (best : Dbl × Int) : List Int → Outcome (Dbl × Int)
  | [] => .ok best
  | col :: r => do
    let value ← vecGet values col
    if isIntegerWithinTolerance tol value then scan tol values best r
    else
      let part := abs (sub value value.floor)
      scan tol values (if Dbl.lt best.1 part then (part, col) else best) r

/-- `MaxFractionalBranching::NextBranchingVariable` (maxfractional_branching.cc:19-53). -/
def maxFractional (unset : Int) (direction : Branching.Direction) (tol : Dbl) (integerVariables : List Int)
    (primal : Outcome (List Dbl)) : Outcome (Int × Bool) :=
  if integerVariables ≠ [] then
    match primal with
    | .ok values => do
      let (part, index) ← scan tol values (.fin 0, unset) integerVariables
      let upFirst := decide (direction = .up)
      let upFirst := if direction = .unspecified then Dbl.le part (.fin (1 / 2)) else upFirst
      return (index, upFirst)
    | .ub => .ub
    | _ => .abort
  else .error "No integer variables to branch on."

end Ieee
end MiniMip
