import Verif.Model.DebugGlop

/-!
# The solution getters of the Glop interface in the build with assertions (lpi_glop.cc:861-948)
-/

namespace MiniMip
namespace Glop

/-- What `solver_` holds after a solve (external), unscaled: a value and a reduced cost per column and, after those, per slack
(`AddSlackVariablesWhereNecessary` at line 552 gives every row one), a dual value and an activity per row, and the rays. -/
structure Held where
  objective : ℚ
  values : List ℚ
  reducedCosts : List ℚ
  duals : List ℚ
  activities : List ℚ
  primalRay : List ℚ
  dualRay : List ℚ

/-- The solution getters. -/
inductive Getter where
  | objectiveValue | primalValues | dualValues | reducedCosts | rowActivities | primalRay | dualRay
  deriving DecidableEq, Repr

/-- The getters without assertions (lpi_glop.cc:861-948): each reads as many elements as `lp_` has columns or rows, wherever
`solver_` holds them.  A single value is returned as a list. -/
def Session.get (s : Session) (h : Held) : Getter → Outcome (List ℚ)
  | .objectiveValue => .ok [h.objective]
  | .primalValues => firstN h.values s.iface.lp.cols.length
  | .dualValues => firstN h.duals s.iface.lp.rows.length
  | .reducedCosts => firstN h.reducedCosts s.iface.lp.cols.length
  | .rowActivities => firstN h.activities s.iface.lp.rows.length
  | .primalRay => do return (← firstN h.primalRay s.iface.lp.cols.length).map (-·)
  | .dualRay => do return (← firstN h.dualRay s.iface.lp.rows.length).map (-·)

/-- The getters with their assertions (lpi_glop.cc:863, 870, 883, 896, 909, 922, 937). -/
def Session.debugGet (s : Session) (h : Held) (q : Getter) : Outcome (List ℚ) := do
  match q with
  | .primalRay => Outcome.check s.isPrimalUnbounded
  | .dualRay => Outcome.check s.isDualUnbounded
  | _ => Outcome.check s.isOptimal
  s.get h q

end Glop
end MiniMip
