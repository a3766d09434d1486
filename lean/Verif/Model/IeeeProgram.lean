import Verif.Model.Program
import Verif.Model.IeeeGenerator

/-!
# The whole program with cuts generated in floating-point arithmetic

The program of `Verif.Model.Program` with two changes: the LP code answers with doubles, namely with the numbers an
exact LP code would return, rounded to nearest (`Engine.rounded`), and the cut generators compute in doubles
(`Verif.Model.IeeeGenerator`).  The measures of a cut that the selector reads (efficacy, parallelism, score) are exact,
as in `Verif.Model.CutRegistry`, and so are the tests of branch and bound, which is no simplification for doubles
(`C86`).
-/

namespace MiniMip
namespace Program

/-! ## LP answers -/

/-- The values of a report, rounded to doubles.  Overflow is left out. -/
def Report.rounded (r : Report) : Report where
  objective := match r.objective with
    | .fin q => .fin (Ieee.rnd q)
    | d => d
  primal := r.primal.map fun f n => Ieee.rnd (f n)
  activities := r.activities.map fun f n => Ieee.rnd (f n)
  basis := r.basis
  glopInverse := fun k => { r.glopInverse k with values := (r.glopInverse k).values.map Ieee.rnd }
  soplexInverse := fun k => (r.soplexInverse k).map fun v => { v with dense := v.dense.map Ieee.rnd }

/-- LP code that answers with doubles. -/
def Engine.rounded (e : Engine) : Engine :=
  { e with
    glop := fun n s => ((e.glop n s).1, (e.glop n s).2.1, (e.glop n s).2.2.1, (e.glop n s).2.2.2.rounded)
    soplex := fun n g => ((e.soplex n g).1, (e.soplex n g).2.1, (e.soplex n g).2.2.rounded) }

/-! ## The generator -/

/-- A sparse vector, for the generator. -/
def toVec (v : SparseVector) : Ieee.Vec := ⟨v.entries.map fun e => ⟨e.index, .fin e.value⟩, v.dirty⟩

/-- What the generator reads from the LP interface. -/
def Lp.floatView (e : Engine) (l : Lp) : Ieee.LpView where
  rows := (l.view e).rows.map toVec
  lhs := (l.view e).lhs
  rhs := (l.view e).rhs
  lower := (l.view e).lower
  upper := (l.view e).upper
  infinity := (l.view e).infinity

/-- The context of the generator; the tolerance is a parameter of type `double`. -/
def floatContext (e : Engine) (c : Setup.Created) (w : World) : Ieee.GenContext where
  lp := w.lp.floatView e
  isInteger := fun j => decide (j ∈ c.data.integerVariables)
  integralRow := c.data.isIntegralConstraint
  tol := Ieee.round c.integralityTolerance

/-- Values of the LP code, for the generator. -/
def toDbls (o : Outcome (List ℚ)) : Outcome (List Dbl) := do return (← o).map Dbl.fin

/-- What the generator reads from the LP solution. -/
def World.floatView (w : World) : Ieee.SolverView where
  isSolved := w.lp.isSolved
  isOptimal := w.lp.isOptimal
  activities := toDbls w.activities
  basis := w.basis
  primal := toDbls w.primal
  bInverted := fun k => do return toVec (← w.inverseRow k)

/-- A sparse vector of doubles, unless there is an infinity or NaN. -/
def ofVec (v : Ieee.Vec) : Option SparseVector := do
  let l ← v.entries.mapM fun e => match e.value with
    | .fin q => some (⟨e.index, q⟩ : Entry)
    | _ => none
  return ⟨l, v.dirty⟩

/-- `CreateCut` (aggregating_generator.cc:464-467, cuts_data.h) on the row and the right-hand side of the generator.
The rest of the model has no non-finite cuts, so these count as undefined. -/
noncomputable def floatCut (c : Setup.Created) (lpOptimum : SparseVector) (cut : Ieee.Cut) : Outcome CutData :=
  match ofVec cut.row, cut.rhs with
  | some row, .fin rhs =>
    .ok (createCut c.data.objective (fun j => decide (j ∈ c.data.integerVariables)) lpOptimum row rhs cut.name false)
  | _, _ => .ub

/-- All cuts of a call. -/
noncomputable def floatCuts (c : Setup.Created) (lpOptimum : SparseVector) : List Ieee.Cut → Outcome (List CutData)
  | [] => .ok []
  | x :: r => do
    let d ← floatCut c lpOptimum x
    let l ← floatCuts c lpOptimum r
    return d :: l

/-- `GenerateCuttingPlanes` (aggregating_generator.cc:365-473) on the state of the program. -/
noncomputable def floatGenerate (e : Engine) (c : Setup.Created) (g : Setup.GeneratorConfig) (w : World) :
    Outcome (World × List CutData) := do
  let cuts ← Ieee.generateCuttingPlanes (floatContext e c w) w.floatView (rounders g) g.maxNumCuts
  let primal ← w.primal
  let l ← floatCuts c (SparseVector.ofDense primal) cuts
  return (w, l)

/-! ## The program -/

/-- `plugins` with the generators in doubles. -/
noncomputable def floatPlugins (e : Engine) (c : Setup.Created) : Plugins World :=
  { plugins e c with generators := c.runner.generators.map fun g => fun w _ => floatGenerate e c g w }

/-- `SeparateCurrentLPSolution` (default_runner.cc:74-117), as `separate`. -/
noncomputable def floatSeparate (e : Engine) (c : Setup.Created) (r : Runner World) : Outcome (Runner World) :=
  match Runner.separateFuel c.runner.params (floatPlugins e c)
      ((c.runner.params.maxIterations - r.numCutrounds).toNat + 1) r with
  | some x => x
  | none => .ub

/-- `oracle` with the generators in doubles. -/
noncomputable def floatOracle (e : Engine) (c : Setup.Created) : Solver.Oracle (Runner World) :=
  { oracle e c with separate := floatSeparate e c }

/-- `Solve` (solver.cc:28-155) on a solver just created, with at most `fuel` iterations, LP answers rounded to doubles
and cuts computed in doubles. -/
noncomputable def floatSolve (e : Engine) (c : Setup.Created) (fuel : Nat) :
    Option (Outcome (Solver.State (Runner World))) :=
  Solver.solveFuel (floatOracle e.rounded c) c.data (params c) fuel
    (Solver.initial { world := { lp := start c.lpi } })

end Program
end MiniMip
