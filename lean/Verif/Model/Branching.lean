import Verif.Model.MipData
import Verif.Model.MipTree
import Verif.Model.Generator

/-!
# Branching rules (minimip/branching_interface)

LP values are finite (`ℚ`).  The direction parameter is the proto enum; the random draw is
a parameter.
-/

namespace MiniMip
namespace Branching

/-- `BranchingParameters_BranchingDirection` (parameters.proto:107-112). -/
inductive Direction where
  | unspecified
  | down
  | up
  deriving Repr, DecidableEq

/-- The loop over the integer variables (maxfractional_branching.cc:31-40).  `best` is the
pair `max_fractional_part`, `branching_variable.index`.  The unqualified `abs` of line 34 is taken to be the one for `double`. -/
def scan (tol : ℚ) (values : List ℚ) (best : ℚ × Int) : List Int → Outcome (ℚ × Int)
  | [] => .ok best
  | col :: r => do
    let value ← vecGet values col
    if Generator.isIntegerWithinTolerance tol value then scan tol values best r
    else
      let part := |value - ⌊value⌋|
      scan tol values (if part > best.1 then (part, col) else best) r

/-- `MaxFractionalBranching::NextBranchingVariable` (maxfractional_branching.cc:19-53);
`primal` is `GetPrimalValues()`, whose `.value()` aborts on an error; `unset` is the index
of a default-constructed `BranchingVariable` (line 25). -/
def maxFractional (unset : Int) (direction : Direction) (tol : ℚ) (integerVariables : List Int)
    (primal : Outcome (List ℚ)) : Outcome (Int × Bool) :=
  if integerVariables ≠ [] then
    match primal with
    | .ok values => do
      let (part, index) ← scan tol values (0, unset) integerVariables
      let upFirst := decide (direction = .up)
      let upFirst := if direction = .unspecified then decide (part ≤ 1 / 2) else upFirst
      return (index, upFirst)
    | .ub => .ub
    | _ => .abort
  else .error "No integer variables to branch on."

/-- `RandomBranching::NextBranchingVariable` (random_branching.cc:21-39).  `draw` is the
value of `dis(gen)`, uniform on `0 .. #integer variables - 1`: any value is possible, it is
reduced modulo the number here to make the function total. -/
def random (direction : Direction) (integerVariables : List Int) (draw : Nat) :
    Outcome (Int × Bool) :=
  if integerVariables.length > 0 then
    .ok (((draw % integerVariables.length : Nat) : Int), decide (direction = .up))
  else .error "No integer variables to branch on."

/-- Which of the `oneof` branching-specific parameters is set (parameters.proto:101-104). -/
inductive Specific where
  | none
  | random
  | maxFractional
  deriving Repr, DecidableEq

/-- The rule objects. -/
inductive Rule where
  | random (direction : Direction)
  | maxFractional (direction : Direction)
  deriving Repr, DecidableEq

/-- `CreateBranchingRule` (branching_factory.h:25-34). -/
def create (specific : Specific) (direction : Direction) : Outcome Rule :=
  match specific with
  | .random => .ok (.random direction)
  | .maxFractional => .ok (.maxFractional direction)
  | .none => .error "No branching-specific parameters set."

/-- The virtual call `NextBranchingVariable`. -/
def Rule.next (unset : Int) (rule : Rule) (tol : ℚ) (integerVariables : List Int)
    (primal : Outcome (List ℚ)) (draw : Nat) : Outcome (Int × Bool) :=
  match rule with
  | .random direction => Branching.random direction integerVariables draw
  | .maxFractional direction => Branching.maxFractional unset direction tol integerVariables primal

end Branching
end MiniMip
