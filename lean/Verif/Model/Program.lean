import Verif.Model.Setup
import Verif.Model.Solver
import Verif.Model.DefaultRunner
import Verif.Model.HybridSelector
import Verif.Model.Generator
import Verif.Model.LpSolution
import Verif.Model.BasisInverse

/-!
# The whole program: `Solver::Create` followed by `Solve`

This file puts the components together: the branch-and-bound loop of `Verif.Model.Solver` runs on the
LP interface, the cut runner with its generators and selector, and the branching rule that `Create`
made.  Only the LP code behind the two interfaces, `std::sort` and the random numbers stay
parameters (`Engine`).
-/

namespace MiniMip
namespace Program

/-- What the LP code holds after a solve (external): objective value, a value for every column, an
activity for every row, the basis head in the numbering of the LP code, and the rows of the inverse of
the basis matrix, as Glop and as SoPlex hand them out.  `none`: the SoPlex call fails. -/
structure Report where
  objective : Dbl := .fin 0
  primal : Option (Nat → ℚ) := none
  activities : Option (Nat → ℚ) := none
  basis : List Int := []
  glopInverse : Nat → Glop.Scattered := fun _ => ⟨[], []⟩
  soplexInverse : Nat → Option Soplex.InverseRow := fun _ => none

/-- The LP interface with what the status queries read. -/
inductive Lp where
  | glop (s : Glop.Session)
  | soplex (g : Soplex.Interface)

/-- The state outside cut runner and tree: the LP interface, what the LP code reports, and the number of
solves and of random numbers drawn so far. -/
structure World where
  lp : Lp
  report : Report := {}
  solves : Nat := 0
  draws : Nat := 0

/-- The external code.  What a solve answers may depend on everything before it; the number of solves
stands for that. -/
structure Engine where
  /-- the calls of `RevisedSimplex::Solve`, the problem status and the flag of the objective limit -/
  glop : Nat → Glop.Session → (Nat → Glop.Answer) × Glop.ProblemStatus × Bool × Report
  /-- whether `clearBasis` throws, and what `optimize` does -/
  soplex : Nat → Soplex.Interface → Bool × Soplex.Answer × Report
  accepts : Soplex.Accepts
  /-- `EPSILON_ZERO` of SoPlex -/
  epsilonZero : ℚ
  /-- `Infinity()` of the SoPlex interface -/
  soplexInfinity : ℚ
  /-- the order in which SoPlex hands out the non-zeros of a row -/
  order : List Entry → List Entry
  sorter : HybridSelector.Sorter
  /-- the index of a default-constructed `BranchingVariable` -/
  unset : Int
  draw : Nat → Nat
  /-- the iteration order of the copy of the set of integer variables that the branching rule makes, which
  may be another one for every copy -/
  copyOrder : Nat → MipData.HashOrder := fun _ => .id

/-! ## The LP interface -/

/-- The stored LP. -/
def Lp.program : Lp → Glop.LinearProgram
  | .glop s => s.iface.lp
  | .soplex g => g.lp

/-- `SetColumnBounds`, dispatched. -/
def Lp.setColumnBounds (l : Lp) (col : Int) (lower upper : Dbl) : Outcome Lp :=
  match l with
  | .glop s => do return .glop { s with iface := ← Glop.setColumnBounds s.iface col lower upper }
  | .soplex g => do return .soplex (← Soplex.setColumnBounds g col lower upper)

/-- `AddRow`, dispatched. -/
def Lp.addRow (l : Lp) (r : LpRow) : Outcome Lp :=
  match l with
  | .glop s => do return .glop { s with iface := ← Glop.addRow s.iface r.row r.lhs r.rhs r.name }
  | .soplex g => do return .soplex (← Soplex.addRow g ⟨r.row, r.lhs, r.rhs, r.name⟩)

/-- `IsSolved`, dispatched. -/
def Lp.isSolved : Lp → Bool
  | .glop s => s.isSolved
  | .soplex g => g.isSolved

/-- `IsOptimal`, dispatched.  The CHECK of the SoPlex interface never fails (`soplex_isOptimal`). -/
def Lp.isOptimal : Lp → Bool
  | .glop s => s.isOptimal
  | .soplex g => decide (g.status = .optimal)

/-- The seven queries at default_runner.cc:43-49. -/
def Lp.stop : Lp → Bool
  | .glop s => s.isPrimalInfeasible || s.isPrimalUnbounded || s.isDualInfeasible ||
      s.isDualUnbounded || s.timeLimitIsExceeded || s.iterationLimitIsExceeded ||
      s.objectiveLimitIsExceeded
  | .soplex g => Soplex.isPrimalInfeasible g || Soplex.isPrimalUnbounded g || Soplex.isDualInfeasible g ||
      Soplex.isDualUnbounded g || Soplex.timeLimitIsExceeded g || Soplex.iterationLimitIsExceeded g ||
      Soplex.objectiveLimitIsExceeded g

/-- `SolveLpWithDualSimplex` (lpi_glop.cc:640-651, lpi_soplex.cc:974-980), dispatched. -/
def World.solve (e : Engine) (w : World) : Outcome World :=
  match w.lp with
  | .glop s =>
    let (answers, status, limit, report) := e.glop w.solves s
    let (s, ok) := s.solveLp true answers status limit
    if ok then .ok { w with lp := .glop s, report := report, solves := w.solves + 1 }
    else .error "LP Error"
  | .soplex g => do
    let (clearThrows, answer, report) := e.soplex w.solves g
    let (g, ok) ← Soplex.soPlexSolve e.accepts g e.epsilonZero clearThrows answer
    if ok then return { w with lp := .soplex g, report := report, solves := w.solves + 1 }
    else .error "Error"

/-- `GetPrimalValues`, dispatched.  Glop always has a value for every column. -/
def World.primal (w : World) : Outcome (List ℚ) :=
  match w.lp with
  | .glop s => Glop.getPrimalValues s.iface (w.report.primal.getD fun _ => 0)
  | .soplex g => Soplex.getPrimalValues g w.report.primal

/-- `GetRowActivities`, dispatched. -/
def World.activities (w : World) : Outcome (List ℚ) :=
  match w.lp with
  | .glop s => Glop.getRowActivities s.iface (w.report.activities.getD fun _ => 0)
  | .soplex g => Soplex.getRowActivities g w.report.activities

/-- `GetColumnsAndRowsInBasis`, dispatched, followed by `col()` on every element, which is `kInvalidCol`
(here `none`) for rows (mip_types.h:45-58).  The CHECK of the SoPlex interface is left out: no basis is saved
outside of strong branching, which `Solve` does not use. -/
def World.basis (w : World) : List (Option Int) :=
  let elements := match w.lp with
    | .glop s => Glop.getColumnsAndRowsInBasis s.iface w.report.basis
    | .soplex g =>
      match Soplex.getColumnsAndRowsInBasis { g with savedRows := [], savedCols := [] } w.report.basis with
      | .ok l => l
      | _ => []
  elements.map fun
    | .col i => some i
    | .row _ => none

/-- `GetSparseRowOfBInverted`, dispatched.  Glop compares with its primal feasibility tolerance, which is
finite for valid parameters. -/
def World.inverseRow (w : World) (k : Nat) : Outcome SparseVector :=
  match w.lp with
  | .glop s =>
    let eps := match s.settings.primalTolerance with
      | .fin q => q
      | _ => 0
    Glop.getSparseRowOfBInverted s.iface w.report.glopInverse eps k
  | .soplex g => Soplex.getSparseRowOfBInverted g w.report.soplexInverse k

/-! ## The cut runner -/

/-- `GetSparseRowCoefficients` for an existing row, which always returns. -/
def Lp.sparseRow (e : Engine) (l : Lp) (r : Nat) : SparseVector :=
  match l with
  | .glop s => Glop.copyToSparse (Glop.transposedRow r 0 s.iface.lp.cols)
  | .soplex g => Soplex.copyToSparse (e.order (Glop.transposedRow r 0 g.lp.cols))

/-- `Infinity()` (lpi_glop.cc:1363-1366, lpi_soplex.cc:1940-1944), dispatched. -/
def Lp.infinity (e : Engine) : Lp → Dbl
  | .glop _ => .pinf
  | .soplex _ => .fin e.soplexInfinity

/-- What the LP code takes the left-hand side of a row for: all that is not above `-Infinity()` is
minus infinity. -/
def readLhs (infinity v : Dbl) : Dbl := if Dbl.le v infinity.neg then .ninf else v

/-- What the generator reads from the LP interface. -/
def Lp.view (e : Engine) (l : Lp) : LpView where
  rows := (List.range l.program.rows.length).map (l.sparseRow e)
  lhs := l.program.rows.map (·.lhs)
  rhs := l.program.rows.map (·.rhs)
  lower := l.program.cols.map (·.lower)
  upper := l.program.cols.map (·.upper)
  infinity := l.infinity e

/-- The context of the generator. -/
def context (e : Engine) (c : Setup.Created) (w : World) : GenContext where
  lp := w.lp.view e
  isInteger := fun j => decide (j ∈ c.data.integerVariables)
  integralRow := c.data.isIntegralConstraint
  objective := c.data.objective
  tol := c.integralityTolerance

/-- What the generator reads from the LP solution. -/
def World.view (w : World) : Generator.SolverView where
  isSolved := w.lp.isSolved
  isOptimal := w.lp.isOptimal
  activities := w.activities
  basis := w.basis
  primal := w.primal
  bInverted := w.inverseRow

/-- The rounders of a generator (aggregating_generator.h:124-138). -/
def rounders (g : Setup.GeneratorConfig) : List Generator.Rounder :=
  (if g.useMir then [.mir] else []) ++ (if g.useStrongCg then [.strongCG] else [])

/-- The LP interface of a solver just created. -/
def start : Setup.Lpi → Lp
  | .glop settings g => .glop { iface := g, settings := settings }
  | .soplex g => .soplex g

/-- The generators, the selector and the LP, as the cut runner sees them.  The runner passes `-Infinity()` as
left-hand side of a cut (default_runner.cc:109), which for SoPlex is a finite number that SoPlex stores, but takes for
minus infinity; the model stores minus infinity. -/
noncomputable def plugins (e : Engine) (c : Setup.Created) : Plugins World where
  infinity := (start c.lpi).infinity e
  stop w := w.lp.stop
  isSolved w := w.lp.isSolved
  generators := c.runner.generators.map fun g => fun w _ => do
    let cuts ← Generator.generateCuttingPlanes (context e c w) w.view (rounders g) g.maxNumCuts
    return (w, cuts)
  select w _ cuts := do
    return (w, ← HybridSelector.selectCuttingPlanes e.sorter c.runner.selector cuts)
  addRow w r := do
    return { w with lp := ← w.lp.addRow { r with lhs := readLhs ((start c.lpi).infinity e) r.lhs } }
  solve := World.solve e

/-- `SeparateCurrentLPSolution`.  The fuel always suffices (`C24_terminates_partial`), so the last case
does not occur. -/
noncomputable def separate (e : Engine) (c : Setup.Created) (r : Runner World) :
    Outcome (Runner World) :=
  match Runner.separateFuel c.runner.params (plugins e c)
      ((c.runner.params.maxIterations - r.numCutrounds).toNat + 1) r with
  | some x => x
  | none => .ub

/-! ## The program -/

/-- The direction parameter as the rule reads it. -/
def direction : Setup.Direction → Branching.Direction
  | .unspecified => .unspecified
  | .down => .down
  | .up => .up

/-- `NextBranchingVariable` of the rule `Create` made.  The max-fractional rule copies the set of integer variables
(maxfractional_branching.cc:23); the copy is numbered by the LP solves before it, because `Solve` solves an LP between
any two calls of the rule (solver.cc:75, 134). -/
def branch (e : Engine) (c : Setup.Created) (w : World) : Outcome (World × Int × Bool) :=
  match c.rule with
  | .random _ dir => do
    let r ← Branching.random (direction dir) c.data.integerVariables (e.draw w.draws)
    return ({ w with draws := w.draws + 1 }, r)
  | .maxFractional dir => do
    let r ← Branching.maxFractional e.unset (direction dir) c.integralityTolerance
      ((e.copyOrder w.solves).apply c.data.integerVariables) w.primal
    return (w, r)

/-- The members of `Solver` as the loop uses them. -/
noncomputable def oracle (e : Engine) (c : Setup.Created) : Solver.Oracle (Runner World) where
  setBounds r col l u := do
    return { r with world := { r.world with lp := ← r.world.lp.setColumnBounds col l u } }
  solve r := do return { r with world := ← r.world.solve e }
  isOptimal r := r.world.lp.isOptimal
  separate := separate e c
  objective r := r.world.report.objective
  primal r := r.world.primal
  branch r := do
    let (w, col, up) ← branch e c r.world
    return ({ r with world := w }, col, up)

/-- The parameters `Solve` reads. -/
def params (c : Setup.Created) : Solver.Params where
  backtrackLimit := c.backtrackLimit
  tol := c.integralityTolerance

/-- `Solve` on a solver just created, with at most `fuel` iterations. -/
noncomputable def solve (e : Engine) (c : Setup.Created) (fuel : Nat) :
    Option (Outcome (Solver.State (Runner World))) :=
  Solver.solveFuel (oracle e c) c.data (params c) fuel
    (Solver.initial { world := { lp := start c.lpi } })

/-- What `result()` (solver.h:80) shows after the same run has returned OK or an error. -/
noncomputable def resultAfter (e : Engine) (c : Setup.Created) (fuel : Nat) : Option SolveResult :=
  Solver.resultAfter (oracle e c) c.data (params c) fuel
    (Solver.initial { world := { lp := start c.lpi } })

/-- `Solve` called again on a solver that the last call left in state `s` (solver.cc:28-155). -/
noncomputable def solveAgain (e : Engine) (c : Setup.Created) (s : Solver.State (Runner World)) (fuel : Nat) :
    Option (Outcome (Solver.State (Runner World))) :=
  Solver.solveFuel (oracle e c) c.data (params c) fuel (Solver.restart s)

end Program
end MiniMip
