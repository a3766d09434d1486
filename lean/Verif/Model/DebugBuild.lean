import Verif.Model.Program

/-!
# The build with assertions (`DCHECK`, active unless `NDEBUG` is defined)

`Solver::Create` and `Solve` as before, with the assertions below.  A failed one aborts the process.

Modelled: the constructor of `MipData` (mip_data.cc:44, 92-93, strong_sparse_matrix.cc:102-108), `SetColumnBounds`
(lpi_glop.cc:382-385, lpi_soplex.cc:737-750), `GetObjectiveValue` and `GetPrimalValues` of Glop as `Solve` and the branching
rule call them (lpi_glop.cc:863, 870), `ChooseActiveSidesByBasis` (aggregating_generator.cc:269), strong CG rounding
(aggregating_generator.cc:64-67, 77, 340-341, 348, 356) and the constructor of `CutData` (cuts_data.h:115-122).

Not modelled: all others.  Those are the assertions of the libraries and, modelled elsewhere for the classes alone: of the sparse
matrix (`Model/DebugMatrix.lean`), of filling the LP, `AddRow` and `AddColumn` (`Model/DebugPopulate.lean`), and of Glop's
interface in `GetLpParameters`, on the iteration count (lpi_glop.cc:850) and inside `SolveInternal` (lpi_glop.cc:870 called from
594; `Model/DebugGlop.lean`); further those of the sparse vectors on vectors that the code has just cleaned.
-/

namespace MiniMip

/-! ## `MipData` -/

/-- `entries()` (strong_sparse_vector.h:136-141), which calls `MayNeedCleaning` (250-258). -/
def SparseVector.debugEntries (v : SparseVector) : Outcome (List Entry) := do
  Outcome.check (v.isClean || v.dirty)
  Outcome.check (!v.mayNeedCleaning)
  return v.entries

/-- `PopulateRow` (strong_sparse_matrix.cc:98-110). -/
def SparseMatrix.debugPopulateRow (m : SparseMatrix) (r : Nat) (data : SparseVector) : Outcome SparseMatrix := do
  let m ← m.recomputeRows
  Outcome.check (decide (r < m.numRows))
  let v := data.cleanUpIfNeeded
  let l ← v.debugEntries
  Outcome.check (l.isEmpty || (decide (0 ≤ v.firstIndex) && decide (v.lastIndex < m.numCols)))
  return { m with rows := m.rows.set r v, consistency := .colsNeedRecomputation }

namespace MipData

/-- One iteration of the loop over the constraints (mip_data.cc:81-99). -/
def debugAddConstraint (d : MipData) (row : Nat) (c : Constraint) : Outcome MipData := do
  let v ← buildRow {} c.varIndices c.coefficients
  let l ← v.debugEntries
  let integral := l.all fun e => isIntegralCoefficient e.value && decide (e.index ∈ d.integerVariables)
  let matrix ← d.matrix.debugPopulateRow row v
  return { d with
    lhs := d.lhs ++ [c.lhs]
    rhs := d.rhs ++ [c.rhs]
    constraintNames := d.constraintNames ++ [c.name]
    isIntegralConstraint := d.isIntegralConstraint ++ [integral]
    matrix := matrix }

/-- The loop over the constraints (mip_data.cc:81-99), from row `row` on. -/
def debugAddConstraints (d : MipData) (row : Nat) : List Constraint → Outcome MipData
  | [] => .ok d
  | c :: r => do
    let d ← debugAddConstraint d row c
    debugAddConstraints d (row + 1) r

/-- The constructor (mip_data.cc:31-112). -/
def debugOfProblem (order : HashOrder) (p : Problem) : Outcome MipData := do
  Outcome.check (decide (p.findError = ""))
  let d : MipData :=
    { name := p.name
      wasMaximization := p.isMaximization
      offset := p.offset
      matrix := SparseMatrix.mk' p.vars.length p.constraints.length }
  let d ← addVariables d 0 p.vars
  let d := { d with objective := d.objective.cleanUpIfNeeded, hints := p.hints }
  let d ← debugAddConstraints d 0 p.constraints
  let d := { d with integerVariables := order.apply (reinsert d.integerVariables 0 d.isIntegerType) }
  return if p.isMaximization then
    { d with offset := d.offset * (-1), objective := d.objective.transform (fun _ x => -x) }
  else d

end MipData

/-- `Solver::Create` (solver.h:38-72). -/
noncomputable def Setup.debugCreate (e : External) (problem : Problem) (user : ParamsMsg) : Outcome Created :=
  let msg := problem.findError
  if msg ≠ "" then .error ("Error found in problem: " ++ msg)
  else do
    let params := userCustomized user
    let data ← MipData.debugOfProblem e.order problem
    let lpi ← createLpSolver e (params.lp.getD {}).read
    let runner ← createRunner (params.cutRunner.getD {})
    let rule ← createBranchingRule (params.branching.getD {})
    let lpi ← (lpi.populate data).orAbort
    return ⟨params.integralityTolerance.getD (1 / 10 ^ 6), params.numericalTolerance.getD (1 / 10 ^ 9),
      params.backtrackLimit.getD 2, data, lpi, runner, rule⟩

/-! ## The cut generator -/

/-- `CreateCut` (cuts_data.cc:34-63) with the constructor of `CutData` (cuts_data.h:98-123).  The right-hand side is finite
and the number of integer variables is a count. -/
noncomputable def debugCreateCut (objective : SparseVector) (isInteger : Int → Bool)
    (lpOptimum : SparseVector) (row : SparseVector) (rhs : ℚ) (name : String)
    (isForced : Bool) : Outcome CutData :=
  let cut := createCut objective isInteger lpOptimum row rhs name isForced
  open Classical in
  if row.isClean = true ∧ 0 < cut.numNonZeros ∧ RDbl.le (.fin (-1)) cut.objectiveParallelism ∧
      RDbl.le cut.objectiveParallelism (.fin 1) ∧ RDbl.le (.fin 0) cut.efficacy ∧ name ≠ "" then .ok cut
  else .abort

namespace Generator

/-- `CGRoundInteger` (aggregating_generator.cc:59-79) for a finite `k`. -/
def debugCgRoundInteger (tol coefficient k f0 : ℚ) : Outcome ℚ := do
  let fj := fractionality tol coefficient
  let p : ℚ := if fj ≤ f0 then 0 else ⌈k * (fj - f0) / (1 - f0)⌉
  Outcome.check (decide (fj ≤ f0) ||
    (decide (f0 + 1 / k * (p - 1) * (1 - f0) < fj) && decide (fj ≤ f0 + 1 / k * p * (1 - f0))))
  let result := floorWithTolerance tol coefficient + p / (k + 1)
  Outcome.check (decide (0 ≤ result))
  return result

/-- `StrongCGRounder::RoundAggregatedRow` (aggregating_generator.cc:309-363).  If the right-hand side is infinite or NaN, `f0`
is NaN, and if `f0` is 0, `k` is infinite and `1 / k` is 0; in both cases the assertion `f0 < 1 / k` fails. -/
def debugStrongCGRound (c : GenContext) (a : AggRow) : Outcome (Option AggRow) := do
  let ok ← slacksAllowCG c a.slackCoefs.entries
  if !ok then return none
  else if !varsAllowCG c a.vars.entries then return none
  else match a.rhs with
    | none => .abort
    | some b => do
      let f0 := fractionality c.tol b
      Outcome.check (decide (f0 ≠ 0))
      let k : ℚ := ⌈1 / f0⌉ - 1
      Outcome.check (decide (1 / (k + 1) ≤ f0))
      Outcome.check (decide (f0 < 1 / k))
      let slacks ← transformM (fun row x => do
        let i ← hasIntegralSlack c row
        if i then debugCgRoundInteger c.tol x k f0
        else do
          Outcome.check (decide (0 ≤ x))
          return 0) a.slackCoefs.entries
      let vars ← transformM (fun col x =>
        if c.isInteger col then debugCgRoundInteger c.tol x k f0
        else do
          Outcome.check (decide (0 ≤ x))
          return 0) a.vars.entries
      return some { a with
        vars := ⟨vars, a.vars.dirty⟩
        slackCoefs := ⟨slacks, a.slackCoefs.dirty⟩
        rhs := some (floorWithTolerance c.tol b) }

/-- The virtual function `RoundAggregatedRow`; MIR rounding has no assertions. -/
def Rounder.debugRound (c : GenContext) : Rounder → AggRow → Outcome (Option AggRow)
  | .mir => mirRound c
  | .strongCG => debugStrongCGRound c

/-- One rounder applied to the transformed row (aggregating_generator.cc:442-455). -/
def debugRoundOne (c : GenContext) (a : AggRow) (rounder : Rounder) :
    Outcome (Option (SparseVector × ℚ)) := do
  let rounded ← rounder.debugRound c a
  match rounded with
  | none => return none
  | some r => do
    let (r, ok) ← toOriginal c.lp r
    if !ok then .error "Failed to transform back to original variables"
    else do
      let r ← substituteSlacks c.lp r
      return r.rhs.map fun b => (r.vars, b)

/-- The loop over the rounders for one tableau row (aggregating_generator.cc:439-469). -/
noncomputable def debugRoundAll (c : GenContext) (lpOptimum : SparseVector) (a : AggRow) (total : Nat) :
    List Rounder → Outcome (List CutData)
  | [] => .ok []
  | rounder :: rs => do
    let res ← debugRoundOne c a rounder
    match res with
    | none => debugRoundAll c lpOptimum a total rs
    | some (row, rhs) =>
      if removesLPOptimum row rhs lpOptimum then do
        let cut ← debugCreateCut c.objective c.isInteger lpOptimum row rhs (rounder.name ++ toString total) false
        let cuts ← debugRoundAll c lpOptimum a (total + 1) rs
        return cut :: cuts
      else debugRoundAll c lpOptimum a total rs

/-- One iteration of the loop over the tableau rows (aggregating_generator.cc:395-470). -/
noncomputable def debugTableauRow (c : GenContext) (s : SolverView) (rounders : List Rounder)
    (useRhs : List Bool) (lpOptimum : SparseVector) (k : Nat) : Outcome (List CutData) := do
  let basic ← listAt s.basis k
  match basic with
  | none => return []
  | some col =>
    if !c.isInteger col then return []
    else if isIntegerWithinTolerance c.tol (lpOptimum.value col) then return []
    else do
      let b ← s.bInverted k
      let a ← aggregateByWeight c.lp (rowWeights b) useRhs
      let (a, ok) ← toNonNegative c.lp a
      if !ok then return []
      else debugRoundAll c lpOptimum a 0 rounders

/-- The loop over the tableau rows (aggregating_generator.cc:392-470). -/
noncomputable def debugTableauLoop (c : GenContext) (s : SolverView) (rounders : List Rounder)
    (maxNumCuts : Int) (useRhs : List Bool) (lpOptimum : SparseVector) :
    Nat → Nat → List CutData → Outcome (List CutData)
  | 0, _, cuts => .ok cuts
  | n + 1, k, cuts =>
    if (cuts.length : Int) < maxNumCuts then do
      let new ← debugTableauRow c s rounders useRhs lpOptimum k
      debugTableauLoop c s rounders maxNumCuts useRhs lpOptimum n (k + 1) (cuts ++ new)
    else .ok cuts

/-- `ChooseActiveSidesByBasis` (aggregating_generator.cc:243-276), from row `k` on. -/
def debugChooseSides (lp : LpView) (k : Nat) : List ℚ → Outcome (List Bool)
  | [] => .ok []
  | a :: r => do
    let rhs ← listAt lp.rhs k
    let lhs ← listAt lp.lhs k
    Outcome.check (lp.isInfinity rhs || lp.isInfinity lhs.neg || Dbl.eq lhs rhs || Dbl.lt lhs rhs)
    let us ← debugChooseSides lp (k + 1) r
    return chooseSide lp a lhs rhs :: us

/-- `GenerateCuttingPlanes` (aggregating_generator.cc:365-473). -/
noncomputable def debugGenerate (c : GenContext) (s : SolverView) (rounders : List Rounder)
    (maxNumCuts : Int) : Outcome (List CutData) :=
  if !s.isSolved then .error "CutGenerator called without solving LP."
  else if !s.isOptimal then .error "CutGenerator called on non-optimal LP."
  else do
    let activities ← s.activities
    let useRhs ← debugChooseSides c.lp 0 activities
    let primal ← s.primal
    let lpOptimum := SparseVector.ofDense primal
    if maxNumCuts < 0 then .abort
    else debugTableauLoop c s rounders maxNumCuts useRhs lpOptimum c.lp.rows.length 0 []

end Generator

/-! ## The program -/

namespace Program

/-- `SetColumnBounds`, dispatched (lpi_glop.cc:379-392, lpi_soplex.cc:733-756).  The last assertion of the SoPlex interface
reads the bounds just stored. -/
def Lp.debugSetColumnBounds (e : Engine) (l : Lp) (col : Int) (lower upper : Dbl) : Outcome Lp := do
  match l with
  | .glop s => Outcome.check (decide (0 ≤ col) && decide (col < s.iface.lp.cols.length))
  | .soplex _ => pure ()
  Outcome.check (!Dbl.le (l.infinity e) lower)
  Outcome.check (!Dbl.le (l.infinity e) upper.neg)
  let l ← l.setColumnBounds col lower upper
  match l with
  | .glop _ => pure ()
  | .soplex _ => Outcome.check (Dbl.le lower (Dbl.add upper (.fin e.epsilonZero)))
  return l

/-- `GetPrimalValues`, dispatched, as called after `GetObjectiveValue` in the same state. -/
def World.debugPrimal (w : World) : Outcome (List ℚ) := do
  match w.lp with
  | .glop s => Outcome.check s.isOptimal
  | .soplex _ => pure ()
  w.primal

/-- The cut runner with the generators of this build. -/
noncomputable def debugPlugins (e : Engine) (c : Setup.Created) : Plugins World :=
  { plugins e c with
    generators := c.runner.generators.map fun g => fun w _ => do
      let cuts ← Generator.debugGenerate (context e c w) w.view (rounders g) g.maxNumCuts
      return (w, cuts) }

/-- `SeparateCurrentLPSolution`, as `separate`. -/
noncomputable def debugSeparate (e : Engine) (c : Setup.Created) (r : Runner World) :
    Outcome (Runner World) :=
  match Runner.separateFuel c.runner.params (debugPlugins e c)
      ((c.runner.params.maxIterations - r.numCutrounds).toNat + 1) r with
  | some x => x
  | none => .ub

/-- The members of `Solver` as the loop uses them.  The branching rule reads the primal values in a state in which `Solve`
has just read them. -/
noncomputable def debugOracle (e : Engine) (c : Setup.Created) : Solver.Oracle (Runner World) :=
  { oracle e c with
    setBounds := fun r col l u => do
      return { r with world := { r.world with lp := ← r.world.lp.debugSetColumnBounds e col l u } }
    separate := debugSeparate e c
    primal := fun r => r.world.debugPrimal }

/-- `Solve` (solver.cc:28-155) on a solver just created, with at most `fuel` iterations. -/
noncomputable def debugSolve (e : Engine) (c : Setup.Created) (fuel : Nat) :
    Option (Outcome (Solver.State (Runner World))) :=
  Solver.solveFuel (debugOracle e c) c.data (params c) fuel
    (Solver.initial { world := { lp := start c.lpi } })

end Program
end MiniMip
