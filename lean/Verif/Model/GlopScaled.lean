import Verif.Model.GlopSession

/-!
# The copy of the LP that the Glop interface hands to the simplex (lpi_glop.cc:545-620, 666-737)

`LpGlopInterface` keeps the LP of the caller in `lp_` and solves the copy `scaled_lp_`, which it
refreshes at the beginning of a solve if the LP is marked as modified.  `Verif.Model.GlopLpi` leaves
the copy out, because no getter returns it; here it is added, and every problem handed to
`RevisedSimplex::Solve` is recorded.
-/

namespace MiniMip
namespace Glop

/-- The interface with `scaled_lp_`: `source` is the LP the copy was last made from (lpi_glop.cc:550),
`scaled` is whether `scaler_` scaled the copy (554-559).  `AddSlackVariablesWhereNecessary` and the
scaling itself are external. -/
structure Handle where
  iface : Interface := {}
  source : LinearProgram := {}
  scaled : Bool := false
  deriving Repr, DecidableEq

/-- A problem handed to `solver_.Solve`: the LP it was made from, whether it was scaled, and the
bounds (in the scaled problem) that replaced those of a column. -/
structure Handed where
  lp : LinearProgram
  scaled : Bool
  bounds : Option (Nat × Dbl × Dbl) := none
  deriving Repr, DecidableEq

/-- The copy is made again if the LP is marked as modified (lpi_glop.cc:548-560). -/
def Handle.refresh (h : Handle) : Handle :=
  if h.iface.modified then { h with source := h.iface.lp, scaled := h.iface.useScaling } else h

/-- `SolveInternal` (lpi_glop.cc:545-620) with the copy; `solveInternal` is its effect on the
interface (`C103_same_interface`).  The third component lists the problems handed to `solver_.Solve`. -/
def solveCopy : (fuel : Nat) → (recursive : Bool) → Handle → (Nat → Answer) →
    Handle × Bool × List Handed
  | 0, _, h, _ => (h, false, [])
  | fuel + 1, recursive, h, answers =>
    let h := h.refresh
    let h := if recursive then h
      else { h with iface := { h.iface with numIterations := 0, timeLimitReached := false } }
    let a := answers 0
    let handed : Handed := ⟨h.source, h.scaled, none⟩
    if !a.ok then (h, false, [handed])
    else
      let g := { h.iface with
        timeLimitReached := a.limitReached
        numIterations := h.iface.numIterations + a.iterations
        statuses := a.statuses }
      if a.feasible && g.useScaling && !a.lpFeasible then
        let (h, ok, l) :=
          solveCopy fuel true { h with iface := { g with useScaling := false, modified := true } }
            (fun k => answers (k + 1))
        if !ok then (h, false, handed :: l)
        else ({ h with iface := { h.iface with useScaling := true, modified := false } }, true,
          handed :: l)
      else ({ h with iface := { g with modified := false } }, true, [handed])

/-- What a call of strong branching gets from outside: the scaling of the column's bounds, the
scaling factor, the tolerance, the objective limit, the answers, and the basis left behind. -/
structure BranchCallee where
  scale : Dbl → Dbl
  factor : ℚ
  eps : ℚ
  limit : Dbl
  down : BranchAnswer
  up : BranchAnswer
  statuses : List VarStatus

/-- `SolveDownAndUpStrongBranch` (lpi_glop.cc:666-737) on the copy.  The copy is not refreshed; its
bounds are restored at the end (734). -/
def branchCopy (h : Handle) (col : Nat) (value : ℚ) (x : BranchCallee) :
    Outcome (Handle × List Handed) :=
  match h.source.cols[col]? with
  | none => .ub
  | some c =>
    let problems := (solveDownAndUpStrongBranch (x.scale c.lower) (x.scale c.upper) x.factor x.eps
      value x.limit x.down x.up).2
    .ok ({ h with iface := { h.iface with statuses := x.statuses } },
      problems.map fun b => ⟨h.source, h.scaled, some (col, b.1, b.2)⟩)

end Glop
end MiniMip
