import Verif.Model.IeeeProgram
import Verif.Model.IeeeSelector
import Verif.Model.RDbl

/-!
# The whole program with cuts generated, measured and selected in floating-point arithmetic

`Verif.Model.IeeeProgram` with the measures of a cut and the hybrid selector in doubles (`Verif.Model.IeeeSelector`).
What is left exact is the inside of the LP code, whose answers are rounded to doubles.
-/

namespace MiniMip

/-- A double among the numbers of `CutData`. -/
def RDbl.ofDbl : Dbl → RDbl
  | .nan => .nan
  | .ninf => .ninf
  | .fin q => .fin q
  | .pinf => .pinf

open Classical in
/-- The double that `CutData` holds; all its numbers are doubles in this program. -/
noncomputable def RDbl.toDbl (x : RDbl) : Dbl := if h : ∃ d, RDbl.ofDbl d = x then h.choose else .nan

namespace Program

/-- The cut, for the registry.  As in `floatCut`, non-finite coefficients and right-hand sides count as undefined. -/
def ofCutF (c : Ieee.CutF) : Outcome CutData :=
  match ofVec c.row, c.rhs with
  | some row, .fin rhs =>
    .ok { row := row, rhs := rhs, numNonZeros := c.numNonZeros, numIntegers := c.numIntegers,
          objectiveParallelism := .ofDbl c.objectiveParallelism, name := c.name, forced := c.forced,
          efficacy := .ofDbl c.efficacy, index := c.index, score := c.score.map .ofDbl }
  | _, _ => .ub

/-- The cut, for the selector. -/
noncomputable def toCutF (c : CutData) : Ieee.CutF where
  row := toVec c.row
  rhs := .fin c.rhs
  numNonZeros := c.numNonZeros
  numIntegers := c.numIntegers
  objectiveParallelism := c.objectiveParallelism.toDbl
  name := c.name
  forced := c.forced
  efficacy := c.efficacy.toDbl
  index := c.index
  score := c.score.map RDbl.toDbl

/-- All cuts of a list. -/
def ofCutFs : List Ieee.CutF → Outcome (List CutData)
  | [] => .ok []
  | x :: r => do
    let d ← ofCutF x
    let l ← ofCutFs r
    return d :: l

/-- `CreateCut` (aggregating_generator.cc:464-467, cuts_data.cc:34-63) on the row and the right-hand side of the
generator. -/
def doubleCut (s : Ieee.SqrtCode) (c : Setup.Created) (lpOptimum : SparseVector) (cut : Ieee.Cut) : Ieee.CutF :=
  Ieee.createCut s (toVec c.data.objective) (fun j => decide (j ∈ c.data.integerVariables)) (toVec lpOptimum) cut.row
    cut.rhs cut.name false

/-- `GenerateCuttingPlanes` (aggregating_generator.cc:365-473) on the state of the program. -/
def doubleGenerate (s : Ieee.SqrtCode) (e : Engine) (c : Setup.Created) (g : Setup.GeneratorConfig) (w : World) :
    Outcome (World × List CutData) := do
  let cuts ← Ieee.generateCuttingPlanes (floatContext e c w) w.floatView (rounders g) g.maxNumCuts
  let primal ← w.primal
  let l ← ofCutFs (cuts.map (doubleCut s c (SparseVector.ofDense primal)))
  return (w, l)

/-- `SelectCuttingPlanes` (hybrid_selector.cc:74-122) on the state of the program. -/
noncomputable def doubleSelect (s : Ieee.SqrtCode) (t : Ieee.Selector.Sorter) (q : Ieee.Selector.Params) (w : World)
    (_ : CutRegistry) (cuts : List CutData) : Outcome (World × List CutData) := do
  let l ← Ieee.Selector.selectCuttingPlanes s t q (cuts.map toCutF)
  let l ← ofCutFs l
  return (w, l)

/-- `plugins` with generators and selector in doubles.  The parameters of the selector are given as doubles. -/
noncomputable def doublePlugins (s : Ieee.SqrtCode) (t : Ieee.Selector.Sorter) (q : Ieee.Selector.Params) (e : Engine)
    (c : Setup.Created) : Plugins World :=
  { plugins e c with
    generators := c.runner.generators.map fun g => fun w _ => doubleGenerate s e c g w
    select := doubleSelect s t q }

/-- `SeparateCurrentLPSolution` (default_runner.cc:74-117), as `separate`. -/
noncomputable def doubleSeparate (s : Ieee.SqrtCode) (t : Ieee.Selector.Sorter) (q : Ieee.Selector.Params) (e : Engine)
    (c : Setup.Created) (r : Runner World) : Outcome (Runner World) :=
  match Runner.separateFuel c.runner.params (doublePlugins s t q e c)
      ((c.runner.params.maxIterations - r.numCutrounds).toNat + 1) r with
  | some x => x
  | none => .ub

/-- `oracle` with generators and selector in doubles. -/
noncomputable def doubleOracle (s : Ieee.SqrtCode) (t : Ieee.Selector.Sorter) (q : Ieee.Selector.Params) (e : Engine)
    (c : Setup.Created) : Solver.Oracle (Runner World) :=
  { oracle e c with separate := doubleSeparate s t q e c }

/-- `Solve` (solver.cc:28-155) on a solver just created, with at most `fuel` iterations and cuts generated, measured and
selected in doubles, for LP code that answers with whatever numbers it has. -/
noncomputable def doubleRun (s : Ieee.SqrtCode) (t : Ieee.Selector.Sorter) (q : Ieee.Selector.Params) (e : Engine)
    (c : Setup.Created) (fuel : Nat) : Option (Outcome (Solver.State (Runner World))) :=
  Solver.solveFuel (doubleOracle s t q e c) c.data (params c) fuel (Solver.initial { world := { lp := start c.lpi } })

/-- The same with LP answers rounded to doubles. -/
noncomputable def doubleSolve (s : Ieee.SqrtCode) (t : Ieee.Selector.Sorter) (q : Ieee.Selector.Params) (e : Engine)
    (c : Setup.Created) (fuel : Nat) : Option (Outcome (Solver.State (Runner World))) :=
  doubleRun s t q e.rounded c fuel

end Program
end MiniMip
