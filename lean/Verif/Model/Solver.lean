import Verif.Model.Branching

/-!
# The branch-and-bound loop (minimip/solver.{h,cc})

The LP solver, the cut runner and the branching rule are an oracle over a state type `W`
(the joint state of LP, cut runner, cut registry and random numbers).
-/

namespace MiniMip

/-- `CHECK_OK(...)` and `.value()`: an error aborts the process. -/
def Outcome.orAbort {α : Type} : Outcome α → Outcome α
  | .error _ => .abort
  | x => x

namespace Solver

/-- What `Solve` asks of the LP interface, the cut runner and the branching rule. -/
structure Oracle (W : Type) where
  /-- `lp->SetColumnBounds(col, lower, upper)` -/
  setBounds : W → Int → Dbl → Dbl → Outcome W
  /-- `lp->SolveLpWithDualSimplex()` -/
  solve : W → Outcome W
  /-- `lp->IsOptimal()` -/
  isOptimal : W → Bool
  /-- `cut_runner_->SeparateCurrentLPSolution(*this)` -/
  separate : W → Outcome W
  /-- `lp->GetObjectiveValue()` -/
  objective : W → Dbl
  /-- `lp->GetPrimalValues()` -/
  primal : W → Outcome (List ℚ)
  /-- `branching_interface_->NextBranchingVariable(*this)`: column, up first -/
  branch : W → Outcome (W × Int × Bool)

/-- The parameters read by `Solve`. -/
structure Params where
  backtrackLimit : Int := 2
  tol : ℚ := 1 / 1000000

/-- The local variables of `Solve` (solver.cc:30-34) and the members it changes.  The
`int` counter is unbounded here. -/
structure State (W : Type) where
  queue : List Int := [0]
  backjump : Bool := true
  infeasible : Int := 0
  tree : MipTree := MipTree.init
  result : SolveResult := {}
  world : W

/-- Choosing and removing the next node (solver.cc:48-55); `none`: the queue is empty. -/
def pop (backjump : Bool) (queue : List Int) : Option (Int × List Int) :=
  if backjump then
    match queue.getLast? with
    | none => none
    | some n => some (n, queue.dropLast)
  else
    match queue with
    | [] => none
    | n :: r => some (n, r)

/-- The loop setting the bounds of the integer variables (solver.cc:68-71). -/
def applyBounds {W : Type} (o : Oracle W) (lb ub : List Dbl) : W → List Int → Outcome W
  | w, [] => .ok w
  | w, col :: r => do
    let l ← vecGet lb col
    let u ← vecGet ub col
    let w ← (o.setBounds w col l u).orAbort
    applyBounds o lb ub w r

/-- Setting the bounds, solving the LP, separating (solver.cc:68-79). -/
def solveNode {W : Type} (o : Oracle W) (d : MipData) (lb ub : List Dbl) (w : W) : Outcome W := do
  let w ← applyBounds o lb ub w d.integerVariables
  let w ← (o.solve w).orAbort
  if o.isOptimal w then (o.separate w).orAbort else return w

/-- How one iteration of the loop ends: the loop goes on, or is left by `break`. -/
inductive Step (W : Type) where
  | again (s : State W)
  | stop (s : State W)

/-- The node is not optimal (solver.cc:81-96). -/
def infeasibleNode {W : Type} (prm : Params) (s : State W) (node : Int) (queue : List Int) (w : W) :
    Outcome (Step W) :=
  if node = 0 then .error "The problem is infeasible or unbounded"
  else do
    let tree ← s.tree.close node
    let k := s.infeasible + 1
    if k > prm.backtrackLimit then
      return .again { s with queue := queue, backjump := true, infeasible := 0, tree := tree, world := w }
    else
      return .again { s with queue := queue, backjump := false, infeasible := k, tree := tree, world := w }

/-- Branching (solver.cc:132-151). -/
def branchNode {W : Type} (o : Oracle W) (s : State W) (node : Int) (queue : List Int) (w : W)
    (tree : MipTree) (values : List ℚ) : Outcome (Step W) := do
  let (w, col, upFirst) ← (o.branch w).orAbort
  let v ← vecGet values col
  let (tree, down) ← tree.addNode node col true (.fin v)
  let (tree, up) ← tree.addNode node col false (.fin v)
  return .again
    { s with
      queue := if upFirst then up :: queue ++ [down] else down :: queue ++ [up]
      backjump := false, infeasible := 0, tree := tree, world := w }

/-- The node is optimal (solver.cc:98-151). -/
def optimalNode {W : Type} (o : Oracle W) (d : MipData) (prm : Params) (s : State W) (node : Int)
    (queue : List Int) (w : W) : Outcome (Step W) := do
  let tree ← s.tree.setLpData node (o.objective w)
  let values ← (o.primal w).orAbort
  let integral ← d.solutionIsIntegral values prm.tol
  if integral then
    let s := { s with
      queue := queue, infeasible := 0, tree := tree, world := w
      result := s.result.addSolution ⟨values, o.objective w⟩ }
    if node = 0 then return .stop { s with backjump := false }
    else return .again { s with backjump := true }
  else branchNode o s node queue w tree values

/-- One iteration of the loop (solver.cc:36-152). -/
def iterate {W : Type} (o : Oracle W) (d : MipData) (prm : Params) (s : State W) : Outcome (Step W) :=
  match pop s.backjump s.queue with
  | none => .ok (.stop s)
  | some (node, queue) => do
    let lb ← s.tree.retrieveLower node d.lower
    let ub ← s.tree.retrieveUpper node d.upper
    let w ← solveNode o d lb ub s.world
    if o.isOptimal w then optimalNode o d prm s node queue w
    else infeasibleNode prm s node queue w

/-- `Solve` (solver.cc:28-155) with at most `fuel` iterations; `none`: it has not ended by
then.  On OK the status is set to `kOptimal` (line 153). -/
def solveFuel {W : Type} (o : Oracle W) (d : MipData) (prm : Params) :
    Nat → State W → Option (Outcome (State W))
  | 0, _ => none
  | fuel + 1, s =>
    match iterate o d prm s with
    | .ok (.again s) => solveFuel o d prm fuel s
    | .ok (.stop s) =>
      some (.ok { s with result := { s.result with solveStatus := some SolveStatus.optimal } })
    | .error m => some (.error m)
    | .abort => some .abort
    | .ub => some .ub

/-- What `result()` (solver.h:80) shows after the same run has returned OK or an error.  The error is returned
before anything is written to the result in that iteration (solver.cc:81-87). -/
def resultAfter {W : Type} (o : Oracle W) (d : MipData) (prm : Params) :
    Nat → State W → Option SolveResult
  | 0, _ => none
  | fuel + 1, s =>
    match iterate o d prm s with
    | .ok (.again s) => resultAfter o d prm fuel s
    | .ok (.stop s) => some { s.result with solveStatus := some SolveStatus.optimal }
    | .error _ => some s.result
    | .abort => none
    | .ub => none

/-- The state in which `Solve` starts its loop for a solver just made by `Create`
(solver.h:38-73). -/
def initial {W : Type} (w : W) : State W := { world := w }

/-- The state in which `Solve` starts its loop when it is called on a solver that has been run before
(solver.cc:30-34): the local variables are new, the members are as the last call left them. -/
def restart {W : Type} (s : State W) : State W := { tree := s.tree, result := s.result, world := s.world }

/-- The conversion `absl::Status` → `absl::StatusOr<MiniMipResult>` at `return
solver->Solve();` (solver.h:162): a non-OK status becomes that error; an OK status is not a
valid argument of this constructor, `StatusOr` replaces it by an internal error (and
crashes in debug builds). -/
def statusToResult : Outcome Unit → Outcome SolveResult
  | .ok _ => .error "An OK status is not a valid constructor argument to StatusOr<T>"
  | .error m => .error m
  | .abort => .abort
  | .ub => .ub

/-- The free function `Solve` (solver.h:157-163), after `Create` has returned the solver:
`run` is how the member function ended. -/
def freeSolve {W : Type} (run : Outcome (State W)) : Outcome SolveResult :=
  statusToResult (run >>= fun _ => .ok ())

end Solver
end MiniMip
