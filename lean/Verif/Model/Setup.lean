import Verif.Model.Populate
import Verif.Model.LpParameters
import Verif.Model.HybridSelector
import Verif.Model.DefaultRunner
import Verif.Model.Solver

/-!
# Parameters, factories and `Solver::Create`
(minimip/parameters_factory.h, minimip/parameters.proto, the factories, minimip/solver.h)

Messages are records of optional fields, as in proto2: `none` is a field that is not set.  Enumerations
hold only their named values.  The two tolerances and the weights of the selector are finite.
-/

namespace MiniMip
namespace Setup

/-! ## Messages -/

/-- `LpParameters` (parameters.proto:116-207) as a message. -/
structure LpMsg where
  solverType : Option SolverType := none
  solveFromScratch : Option Bool := none
  scaling : Option Scaling := none
  usePresolve : Option Bool := none
  pricing : Option Pricing := none
  feasibilityTolerance : Option Dbl := none
  optimalityTolerance : Option Dbl := none
  minMarkowitz : Option Dbl := none
  refactorization : Option Int := none
  objectiveLower : Option Dbl := none
  objectiveUpper : Option Dbl := none
  timing : Option Timing := none
  timeLimit : Option Dbl := none
  iterationLimit : Option Int := none
  numThreads : Option Int := none
  randomSeed : Option Int := none
  output : Option Bool := none
  deriving Repr, DecidableEq

/-- `TableauRoundingGeneratorParameters` (parameters.proto:22-26). -/
structure TableauMsg where
  useMir : Option Bool := none
  useStrongCg : Option Bool := none
  deriving Repr, DecidableEq

/-- `CutGeneratorParameters` (parameters.proto:28-36); the oneof has one case. -/
structure GeneratorMsg where
  maxNumCuts : Option Int := none
  tableau : Option TableauMsg := none
  deriving Repr, DecidableEq

/-- `HybridSelectorParameters` (parameters.proto:40-63). -/
structure HybridMsg where
  efficacyWeight : Option ℝ := none
  objectiveParallelismWeight : Option ℝ := none
  integerSupportWeight : Option ℝ := none
  minimumOrthogonality : Option ℝ := none
  minimumOrthogonalityAtRoot : Option ℝ := none
  signedOrthogonality : Option Bool := none
  scoreThreshold : Option ℝ := none
  maximumTreeDepth : Option Int := none
  maxNumCuts : Option Int := none

/-- `CutSelectorParameters` (parameters.proto:65-70); the oneof has one case. -/
structure SelectorMsg where
  hybrid : Option HybridMsg := none

/-- `DefaultRunnerParameters` (parameters.proto:73-78). -/
structure DefaultRunnerMsg where
  maxIterations : Option Int := none
  maxNumCutsTotal : Option Int := none
  maxNumCutsAtRoot : Option Int := none
  maxNumCutsPerNode : Option Int := none
  deriving Repr, DecidableEq

/-- `CutRunnerParameters` (parameters.proto:80-87); the oneof has one case. -/
structure RunnerMsg where
  generators : List GeneratorMsg := []
  selectors : List SelectorMsg := []
  defaultRunner : Option DefaultRunnerMsg := none

/-- The oneof of `BranchingParameters` (parameters.proto:101-104). -/
inductive RuleMsg where
  | random (seed : Option Int)
  | maxFractional
  deriving Repr, DecidableEq

/-- `BranchingDirection` (parameters.proto:107-111). -/
inductive Direction where
  | unspecified | down | up
  deriving Repr, DecidableEq

/-- `BranchingParameters` (parameters.proto:98-114). -/
structure BranchingMsg where
  rule : Option RuleMsg := none
  direction : Option Direction := none
  deriving Repr, DecidableEq

/-- `MiniMipParameters` (parameters.proto:209-241). -/
structure ParamsMsg where
  integralityTolerance : Option ℚ := none
  numericalTolerance : Option ℚ := none
  lp : Option LpMsg := none
  cutRunner : Option RunnerMsg := none
  cutGenerators : List GeneratorMsg := []
  cutSelectors : List SelectorMsg := []
  backtrackLimit : Option Int := none
  branching : Option BranchingMsg := none

/-! ## `MergeFrom` (generated by the protocol buffer compiler)

A set scalar replaces, a set submessage is merged, elements of a repeated field are appended, a set
oneof is merged if both hold the same case and replaced otherwise. -/

/-- A scalar field. -/
def over {α : Type} (d u : Option α) : Option α := u.or d

/-- A submessage. -/
def mergeSub {α : Type} (merge : α → α → α) (d u : Option α) : Option α :=
  match d, u with
  | some d, some u => some (merge d u)
  | none, some u => some u
  | d, none => d

/-- `LpParameters::MergeFrom`. -/
def LpMsg.merge (d u : LpMsg) : LpMsg where
  solverType := over d.solverType u.solverType
  solveFromScratch := over d.solveFromScratch u.solveFromScratch
  scaling := over d.scaling u.scaling
  usePresolve := over d.usePresolve u.usePresolve
  pricing := over d.pricing u.pricing
  feasibilityTolerance := over d.feasibilityTolerance u.feasibilityTolerance
  optimalityTolerance := over d.optimalityTolerance u.optimalityTolerance
  minMarkowitz := over d.minMarkowitz u.minMarkowitz
  refactorization := over d.refactorization u.refactorization
  objectiveLower := over d.objectiveLower u.objectiveLower
  objectiveUpper := over d.objectiveUpper u.objectiveUpper
  timing := over d.timing u.timing
  timeLimit := over d.timeLimit u.timeLimit
  iterationLimit := over d.iterationLimit u.iterationLimit
  numThreads := over d.numThreads u.numThreads
  randomSeed := over d.randomSeed u.randomSeed
  output := over d.output u.output

/-- `DefaultRunnerParameters::MergeFrom`. -/
def DefaultRunnerMsg.merge (d u : DefaultRunnerMsg) : DefaultRunnerMsg where
  maxIterations := over d.maxIterations u.maxIterations
  maxNumCutsTotal := over d.maxNumCutsTotal u.maxNumCutsTotal
  maxNumCutsAtRoot := over d.maxNumCutsAtRoot u.maxNumCutsAtRoot
  maxNumCutsPerNode := over d.maxNumCutsPerNode u.maxNumCutsPerNode

/-- `CutRunnerParameters::MergeFrom`. -/
def RunnerMsg.merge (d u : RunnerMsg) : RunnerMsg where
  generators := d.generators ++ u.generators
  selectors := d.selectors ++ u.selectors
  defaultRunner := mergeSub DefaultRunnerMsg.merge d.defaultRunner u.defaultRunner

/-- Merging the oneof of `BranchingParameters`. -/
def RuleMsg.merge (d u : RuleMsg) : RuleMsg :=
  match d, u with
  | .random s, .random t => .random (over s t)
  | _, u => u

/-- `BranchingParameters::MergeFrom`. -/
def BranchingMsg.merge (d u : BranchingMsg) : BranchingMsg where
  rule := mergeSub RuleMsg.merge d.rule u.rule
  direction := over d.direction u.direction

/-- `MiniMipParameters::MergeFrom`. -/
def ParamsMsg.merge (d u : ParamsMsg) : ParamsMsg where
  integralityTolerance := over d.integralityTolerance u.integralityTolerance
  numericalTolerance := over d.numericalTolerance u.numericalTolerance
  lp := mergeSub LpMsg.merge d.lp u.lp
  cutRunner := mergeSub RunnerMsg.merge d.cutRunner u.cutRunner
  cutGenerators := d.cutGenerators ++ u.cutGenerators
  cutSelectors := d.cutSelectors ++ u.cutSelectors
  backtrackLimit := over d.backtrackLimit u.backtrackLimit
  branching := mergeSub BranchingMsg.merge d.branching u.branching

/-! ## parameters_factory.h -/

/-- `DefaultCutGeneratorParameters` (parameters_factory.h:24-29). -/
def defaultGenerator : GeneratorMsg := { tableau := some {} }

/-- `DefaultCutSelectorParameters` (parameters_factory.h:33-38). -/
def defaultSelector : SelectorMsg := { hybrid := some {} }

/-- `DefaultCutRunnerParameters` (parameters_factory.h:42-53). -/
def defaultRunner : RunnerMsg where
  generators := [defaultGenerator]
  selectors := [defaultSelector]
  defaultRunner := some {}

/-- `DefaultBranchingParameters` (parameters_factory.h:57-61). -/
def defaultBranching : BranchingMsg := { rule := some .maxFractional }

/-- `DefaultMiniMipParameters` (parameters_factory.h:64-78). -/
def defaultParameters : ParamsMsg where
  lp := some {}
  branching := some defaultBranching
  cutRunner := some defaultRunner

/-- `UserCustomizedParameters` (parameters_factory.h:83-92). -/
def userCustomized (user : ParamsMsg) : ParamsMsg := defaultParameters.merge user

/-! ## Reading a message: the getters return the default of the proto file for a field not set -/

/-- The values the getters of `LpParameters` return. -/
def LpMsg.read (m : LpMsg) : LpParameters where
  solverType := m.solverType.getD .glop
  solveFromScratch := m.solveFromScratch.getD false
  scaling := m.scaling.getD .default
  usePresolve := m.usePresolve.getD true
  pricing := m.pricing.getD .default
  feasibilityTolerance := m.feasibilityTolerance.getD (.fin (-1))
  optimalityTolerance := m.optimalityTolerance.getD (.fin (-1))
  minMarkowitz := m.minMarkowitz.getD (.fin (-1))
  refactorization := m.refactorization.getD 0
  objectiveLower := m.objectiveLower.getD .ninf
  objectiveUpper := m.objectiveUpper.getD .pinf
  timing := m.timing.getD .off
  timeLimit := m.timeLimit.getD .pinf
  iterationLimit := m.iterationLimit.getD 0
  numThreads := m.numThreads.getD 0
  randomSeed := m.randomSeed.getD 0
  output := m.output.getD false

/-- The values the getters of `HybridSelectorParameters` return. -/
noncomputable def HybridMsg.read (m : HybridMsg) : HybridParams where
  efficacyWeight := m.efficacyWeight.getD 1
  objectiveParallelismWeight := m.objectiveParallelismWeight.getD (1 / 10)
  integerSupportWeight := m.integerSupportWeight.getD (1 / 10)
  minimumOrthogonality := m.minimumOrthogonality.getD (9 / 10)
  minimumOrthogonalityAtRoot := m.minimumOrthogonalityAtRoot.getD (9 / 10)
  signedOrthogonality := m.signedOrthogonality.getD false
  scoreThreshold := m.scoreThreshold.getD (1 / 1000000)
  maximumTreeDepth := m.maximumTreeDepth.getD (-1)
  maxNumCuts := m.maxNumCuts.getD (-1)

/-- The values the getters of `DefaultRunnerParameters` return. -/
def DefaultRunnerMsg.read (m : DefaultRunnerMsg) : RunnerParams where
  maxIterations := m.maxIterations.getD 100
  maxNumCutsTotal := m.maxNumCutsTotal.getD 100
  maxNumCutsAtRoot := m.maxNumCutsAtRoot.getD 100
  maxNumCutsPerNode := m.maxNumCutsPerNode.getD 100

/-! ## Factories -/

/-- A tableau rounding generator: limit and the two switches. -/
structure GeneratorConfig where
  maxNumCuts : Int
  useMir : Bool
  useStrongCg : Bool
  deriving Repr, DecidableEq

/-- `CreateCutGenerator` (generator_factory.h:23-31). -/
def createGenerator (m : GeneratorMsg) : Outcome GeneratorConfig :=
  match m.tableau with
  | some t => .ok ⟨m.maxNumCuts.getD 100, t.useMir.getD true, t.useStrongCg.getD true⟩
  | none => .error "No generator-specific parameters set."

/-- `CreateCutSelector` (selector_factory.h:23-31). -/
noncomputable def createSelector (m : SelectorMsg) : Outcome HybridParams :=
  match m.hybrid with
  | some h => .ok h.read
  | none => .error "No cut-selector-specific parameters set."

/-- The runner with its plug-ins. -/
structure RunnerConfig where
  params : RunnerParams
  generators : List GeneratorConfig
  selector : HybridParams

/-- The loop creating the generators (default_runner.h:38-46): a message that gives no generator is
logged and left out. -/
def createGenerators : List GeneratorMsg → List GeneratorConfig
  | [] => []
  | m :: r =>
    match createGenerator m with
    | .ok g => g :: createGenerators r
    | _ => createGenerators r

/-- The constructor of `DefaultRunner` (default_runner.h:34-55): `Get(0)` of an empty repeated field is
undefined, `value()` of an error aborts. -/
noncomputable def newDefaultRunner (m : RunnerMsg) (d : DefaultRunnerMsg) : Outcome RunnerConfig :=
  match m.selectors with
  | [] => .ub
  | s :: _ =>
    match createSelector s with
    | .ok h => .ok ⟨d.read, createGenerators m.generators, h⟩
    | _ => .abort

/-- `CreateCutRunner` (runner_factory.h:24-31). -/
noncomputable def createRunner (m : RunnerMsg) : Outcome RunnerConfig :=
  match m.defaultRunner with
  | some d => newDefaultRunner m d
  | none => .error "No cut runner implementation was chosen."

/-- A branching rule with the direction it is given. -/
inductive RuleConfig where
  | random (seed : Int) (direction : Direction)
  | maxFractional (direction : Direction)
  deriving Repr, DecidableEq

/-- `CreateBranchingRule` (branching_factory.h:25-34). -/
def createBranchingRule (m : BranchingMsg) : Outcome RuleConfig :=
  match m.rule with
  | some (.random seed) => .ok (.random (seed.getD 0) (m.direction.getD .unspecified))
  | some .maxFractional => .ok (.maxFractional (m.direction.getD .unspecified))
  | none => .error "No branching-specific parameters set."

/-- An LP interface behind the pointer `CreateLpSolver` returns. -/
inductive Lpi where
  | glop (settings : Glop.Settings) (g : Glop.Interface)
  | soplex (g : Soplex.Interface)
  deriving Repr, DecidableEq

/-- What the code does not fix: the global time flag, what a new Glop and a new SoPlex hold before the
first `SetLpParameters` (external), what SoPlex accepts, and the iteration order of the hash set of the
integer variables. -/
structure External where
  order : MipData.HashOrder := .id
  usertime : Bool
  glop : Glop.Settings
  soplex : Soplex.Settings
  accepts : Soplex.Accepts

/-- The constructor of `LpGlopInterface` (lpi_glop.cc:139-153). -/
def newGlop (e : External) : Outcome (Bool × Glop.Settings) :=
  let r := Glop.setLpParameters e.usertime e.glop { solverType := .glop }
  if r.2.2 then .ok (r.1, r.2.1) else .abort

/-- The constructor of `LpSoplexInterface` (lpi_soplex.cc:50-64). -/
def newSoplex (e : External) : Outcome Soplex.Settings := do
  let r ← Soplex.setLpParameters e.accepts 2 { e.soplex with solveFromScratch := false }
    { solverType := .soplex }
  Outcome.check r.2
  return r.1

/-- `CreateLpSolver` (lpi_factory.cc:26-44).  The default branch of the switch is not reached by a named
value.  Glop's `use_scaling` is also a field of the interface, used by the basis inverse functions. -/
def createLpSolver (e : External) (p : LpParameters) : Outcome Lpi :=
  match p.solverType with
  | .glop => do
    let n ← newGlop e
    let r := Glop.setLpParameters n.1 n.2 p
    if r.2.2 then return .glop r.2.1 { useScaling := r.2.1.useScaling }
    else .error "LP parameters"
  | .soplex => do
    let s ← newSoplex e
    let r ← Soplex.setLpParameters e.accepts 2 s p
    if r.2 then return .soplex { settings := r.1 }
    else .error "LP parameters"

/-- `LpInterface::PopulateFromMipData`, dispatched. -/
def Lpi.populate (l : Lpi) (d : MipData) : Outcome Lpi :=
  match l with
  | .glop s g => do return .glop s (← Glop.populateFromMipData g d)
  | .soplex g => do return .soplex (← Soplex.populateFromMipData g d)

/-- The solver `Create` returns; tree, registry and result are new (see `Solver.initial`). -/
structure Created where
  integralityTolerance : ℚ
  numericalTolerance : ℚ
  backtrackLimit : Int
  data : MipData
  lpi : Lpi
  runner : RunnerConfig
  rule : RuleConfig

/-- `Solver::Create` (solver.h:38-72). -/
noncomputable def create (e : External) (problem : Problem) (user : ParamsMsg) : Outcome Created :=
  let msg := problem.findError
  if msg ≠ "" then .error ("Error found in problem: " ++ msg)
  else do
    let params := userCustomized user
    let data ← MipData.ofProblem e.order problem
    let lpi ← createLpSolver e (params.lp.getD {}).read
    let runner ← createRunner (params.cutRunner.getD {})
    let rule ← createBranchingRule (params.branching.getD {})
    let lpi ← (lpi.populate data).orAbort
    return ⟨params.integralityTolerance.getD (1 / 10 ^ 6), params.numericalTolerance.getD (1 / 10 ^ 9),
      params.backtrackLimit.getD 2, data, lpi, runner, rule⟩

end Setup
end MiniMip
