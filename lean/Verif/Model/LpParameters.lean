import Verif.Model.Dbl
import Verif.Model.Outcome

/-!
# LP parameters: validation and the getters and setters of the two interfaces

`minimip/parameters.proto:116-207`, `lpi.cc`, `lpi_glop.cc:1136-1353`, `lpi_soplex.cc:1664-1934`.
Decimal constants (1e-8, ...) are the exact rationals.  Integers are unbounded except where
`INT_MAX` is named.
-/

namespace MiniMip

/-- `LpParameters::SolverType` (parameters.proto:119-122). -/
inductive SolverType where
  | glop | soplex
  deriving Repr, DecidableEq

/-- `LpParameters::ScalingStrategy` (parameters.proto:131-137). -/
inductive Scaling where
  | off | default | equilibration | leastSquares | linearProgram
  deriving Repr, DecidableEq

/-- `LpParameters::PricingStrategy` (parameters.proto:144-151). -/
inductive Pricing where
  | default | steepestEdge | steepestEdgeQuickStart | dantzig | partialDantzig | devex
  deriving Repr, DecidableEq

/-- `LpParameters::TimingMode` (parameters.proto:184-189). -/
inductive Timing where
  | off | wallclock | cpu | deterministic
  deriving Repr, DecidableEq

/-- `LpParameters` (parameters.proto:116-207) with the default values.  Whether a field is set
explicitly is not modelled: no modelled function asks.  The enumerations are closed (proto2), so a
field never holds another value. -/
structure LpParameters where
  solverType : SolverType := .glop
  solveFromScratch : Bool := false
  scaling : Scaling := .default
  usePresolve : Bool := true
  pricing : Pricing := .default
  feasibilityTolerance : Dbl := .fin (-1)
  optimalityTolerance : Dbl := .fin (-1)
  minMarkowitz : Dbl := .fin (-1)
  refactorization : Int := 0
  objectiveLower : Dbl := .ninf
  objectiveUpper : Dbl := .pinf
  timing : Timing := .off
  timeLimit : Dbl := .pinf
  iterationLimit : Int := 0
  numThreads : Int := 0
  randomSeed : Int := 0
  output : Bool := false
  deriving Repr, DecidableEq

/-- `tolerance < 0.0 && tolerance != -1.0` (lpi.cc:7-21). -/
def badTolerance (x : Dbl) : Bool := Dbl.lt x (.fin 0) && Dbl.ne x (.fin (-1))

/-- `LpParametersAreValid` (lpi.cc:5-44); `true` is the OK status. -/
def lpParametersAreValid (p : LpParameters) : Bool :=
  if badTolerance p.feasibilityTolerance then false
  else if badTolerance p.optimalityTolerance then false
  else if badTolerance p.minMarkowitz then false
  else if p.refactorization < 0 then false
  else if p.timing ≠ .off ∧ Dbl.le p.timeLimit (.fin 0) = true then false
  else if p.iterationLimit < 0 then false
  else if p.numThreads < 0 then false
  else if p.randomSeed < 0 then false
  else true

/-! ## Glop -/

namespace Glop

/-- `GlopParameters::ScalingAlgorithm`. -/
inductive ScalingMethod where
  | default | equilibration | linearProgram
  deriving Repr, DecidableEq

/-- `GlopParameters::PricingRule`. -/
inductive Rule where
  | dantzig | steepestEdge | devex
  deriving Repr, DecidableEq

/-- The parameters `solver_` holds (the fields of `GlopParameters` the interface touches) and
`solve_from_scratch_`. -/
structure Settings where
  solveFromScratch : Bool
  useScaling : Bool
  scalingMethod : ScalingMethod
  usePreprocessing : Bool
  feasibilityRule : Rule
  optimizationRule : Rule
  primalTolerance : Dbl
  dualTolerance : Dbl
  objectiveLower : Dbl
  objectiveUpper : Dbl
  maxTime : Dbl
  maxDeterministicTime : Dbl
  maxIterations : Int
  numThreads : Int
  randomSeed : Int
  logSearchProgress : Bool
  deriving Repr, DecidableEq

/-- The scaling strategy read back (lpi_glop.cc:1145-1155). -/
def scalingMethodBack : ScalingMethod → Scaling
  | .default => .default
  | .equilibration => .equilibration
  | .linearProgram => .linearProgram

/-- The pricing strategy read back (lpi_glop.cc:1163-1173). -/
def ruleBack : Rule → Pricing
  | .dantzig => .dantzig
  | .steepestEdge => .steepestEdge
  | .devex => .devex

/-- `LpGlopInterface::GetLpParameters` (lpi_glop.cc:1136-1216).  `usertime` is the global flag
`FLAGS_time_limit_use_usertime`.  `min_markowitz_threshold` is not set. -/
def getLpParameters (usertime : Bool) (s : Settings) : LpParameters :=
  let p : LpParameters :=
    { solverType := .glop
      solveFromScratch := s.solveFromScratch
      scaling := if s.useScaling then scalingMethodBack s.scalingMethod else .off
      usePresolve := s.usePreprocessing
      pricing := ruleBack s.feasibilityRule
      feasibilityTolerance := s.primalTolerance
      optimalityTolerance := s.dualTolerance
      refactorization := 0
      objectiveLower := s.objectiveLower
      objectiveUpper := s.objectiveUpper
      timing := .off }
  let p := if Dbl.lt s.maxDeterministicTime .pinf then
      { p with timing := .deterministic, timeLimit := s.maxDeterministicTime } else p
  let p := if Dbl.lt s.maxTime .pinf then
      { p with timing := if usertime then .wallclock else .cpu, timeLimit := s.maxTime } else p
  { p with
    iterationLimit := if s.maxIterations = -1 then 0 else s.maxIterations
    numThreads := s.numThreads
    randomSeed := s.randomSeed
    output := s.logSearchProgress }

/-- `LpParametersAreSupportedByGlop` (lpi_glop.cc:1220-1244). -/
def supported (p : LpParameters) : Bool :=
  if !lpParametersAreValid p then false
  else if p.solverType ≠ .glop then false
  else if p.scaling = .leastSquares then false
  else if p.pricing = .steepestEdgeQuickStart ∨ p.pricing = .partialDantzig then false
  else if Dbl.ne p.minMarkowitz (.fin (-1)) then false
  else if p.refactorization ≠ 0 then false
  else true

/-- `tolerance == -1 ? 1e-8 : tolerance` (lpi_glop.cc:1303-1309). -/
def glopTolerance (x : Dbl) : Dbl := if Dbl.eq x (.fin (-1)) then .fin (1 / 10 ^ 8) else x

/-- The scaling parameters (lpi_glop.cc:1255-1273); `none` for the unsupported value.  When scaling
is switched off the method keeps the value of a new `GlopParameters`. -/
def scalingOf : Scaling → Option (Bool × ScalingMethod)
  | .off => some (false, .equilibration)
  | .default => some (true, .equilibration)
  | .equilibration => some (true, .equilibration)
  | .linearProgram => some (true, .linearProgram)
  | .leastSquares => none

/-- The pricing rule (lpi_glop.cc:1277-1301). -/
def ruleOf : Pricing → Option Rule
  | .default => some .steepestEdge
  | .steepestEdge => some .steepestEdge
  | .dantzig => some .dantzig
  | .devex => some .devex
  | .steepestEdgeQuickStart => none
  | .partialDantzig => none

/-- The two time limits and the global flag (lpi_glop.cc:1314-1341). -/
def timesOf (usertime : Bool) (t : Timing) (limit : Dbl) : Dbl × Dbl × Bool :=
  match t with
  | .off => (.pinf, .pinf, usertime)
  | .deterministic => (.pinf, limit, usertime)
  | .wallclock => (limit, .pinf, true)
  | .cpu => (limit, .pinf, false)

/-- `LpGlopInterface::SetLpParameters` (lpi_glop.cc:1248-1353).  The result is the global flag, the
settings and whether the status is OK.  `solve_from_scratch_` is assigned before the switches. -/
def setLpParameters (usertime : Bool) (s : Settings) (p : LpParameters) : Bool × Settings × Bool :=
  if !supported p then (usertime, s, false)
  else
    let s := { s with solveFromScratch := p.solveFromScratch }
    match scalingOf p.scaling with
    | none => (usertime, s, false)
    | some (useScaling, method) =>
      match ruleOf p.pricing with
      | none => (usertime, s, false)
      | some rule =>
        let times := timesOf usertime p.timing p.timeLimit
        (times.2.2,
          { solveFromScratch := s.solveFromScratch
            useScaling := useScaling
            scalingMethod := method
            usePreprocessing := p.usePresolve
            feasibilityRule := rule
            optimizationRule := rule
            primalTolerance := glopTolerance p.feasibilityTolerance
            dualTolerance := glopTolerance p.optimalityTolerance
            objectiveLower := p.objectiveLower
            objectiveUpper := p.objectiveUpper
            maxTime := times.1
            maxDeterministicTime := times.2.1
            maxIterations := if p.iterationLimit = 0 then -1 else p.iterationLimit
            numThreads := if p.numThreads = 0 then 1 else p.numThreads
            randomSeed := p.randomSeed
            logSearchProgress := p.output },
          true)

end Glop

/-! ## SoPlex -/

namespace Soplex

/-- `SoPlex::SCALER` values the interface uses. -/
inductive Scaler where
  | off | biequi | leastsq
  deriving Repr, DecidableEq

/-- `SoPlex::PRICER` values. -/
inductive Pricer where
  | auto | steep | quicksteep | dantzig | parmult | devex
  deriving Repr, DecidableEq

/-- `SoPlex::TIMER` values. -/
inductive Timer where
  | off | wallclock | cpu
  deriving Repr, DecidableEq

/-- The real parameters of SoPlex the interface sets. -/
inductive RealParam where
  | feastol | opttol | minMarkowitz | objlimitLower | objlimitUpper | timelimit
  deriving Repr, DecidableEq

/-- The integer parameters of SoPlex whose value comes from the message. -/
inductive IntParam where
  | factorUpdateMax | iterlimit
  deriving Repr, DecidableEq

/-- The parameters of `spx_` the interface touches and `solve_from_scratch_`.  `simplifier` is
whether SIMPLIFIER is not SIMPLIFIER_OFF, `debug` whether the verbosity is DEBUG. -/
structure Settings where
  solveFromScratch : Bool
  scaler : Scaler
  simplifier : Bool
  pricer : Pricer
  feastol : Dbl
  opttol : Dbl
  minMarkowitz : Dbl
  factorUpdateMax : Int
  objlimitLower : Dbl
  objlimitUpper : Dbl
  timer : Timer
  timelimit : Dbl
  iterlimit : Int
  seed : Int
  debug : Bool
  deriving Repr, DecidableEq

/-- `Infinity()` (lpi_soplex.cc:1940-1944), the default value 1e100 of `SoPlex::INFTY`. -/
def infinity : Dbl := .fin (10 ^ 100)

/-- `LpSoplexInterface::GetLpParameters` (lpi_soplex.cc:1664-1751).  `num_threads` is not set; the
time limit is set only if the timer is on. -/
def getLpParameters (s : Settings) : LpParameters :=
  let timing : Timing := match s.timer with
    | .off => .off
    | .wallclock => .wallclock
    | .cpu => .cpu
  { solverType := .soplex
    solveFromScratch := s.solveFromScratch
    scaling := match s.scaler with
      | .off => .off
      | .biequi => .equilibration
      | .leastsq => .leastSquares
    usePresolve := s.simplifier
    pricing := match s.pricer with
      | .auto => .default
      | .steep => .steepestEdge
      | .quicksteep => .steepestEdgeQuickStart
      | .dantzig => .dantzig
      | .parmult => .partialDantzig
      | .devex => .devex
    feasibilityTolerance := s.feastol
    optimalityTolerance := s.opttol
    minMarkowitz := s.minMarkowitz
    refactorization := s.factorUpdateMax
    objectiveLower := s.objlimitLower
    objectiveUpper := s.objlimitUpper
    timing := timing
    timeLimit := if timing ≠ .off then s.timelimit else .pinf
    iterationLimit := if s.iterlimit = -1 then 0 else s.iterlimit
    randomSeed := s.seed
    output := s.debug }

/-- `LpParametersAreSupportedBySoPlex` (lpi_soplex.cc:1755-1781). -/
def supported (p : LpParameters) : Bool :=
  if !lpParametersAreValid p then false
  else if p.solverType ≠ .soplex then false
  else if p.scaling = .linearProgram then false
  else if Dbl.ne p.minMarkowitz (.fin (-1)) = true ∧
      (Dbl.lt p.minMarkowitz (.fin (1 / 10 ^ 4)) = true ∨
        Dbl.lt (.fin (1 - 1 / 10 ^ 4)) p.minMarkowitz = true) then false
  else if p.timing = .deterministic then false
  else if p.numThreads ≠ 0 ∧ p.numThreads ≠ 1 then false
  else true

/-- SoPlex's `setRealParam` and `setIntParam` (external): whether the value is accepted.  An
accepted value is stored as it is; a rejected one leaves the parameter alone.  (SoPlex raises
tolerances below its pivot tolerance to it; that adjustment is not modelled.) -/
structure Accepts where
  real : RealParam → Dbl → Bool
  int : IntParam → Int → Bool

/-- `INT_MAX`. -/
def intMax : Int := 2147483647

/-- The time limit passed on (lpi_soplex.cc:1907-1910). -/
def timeLimitOf (x : Dbl) : Dbl :=
  if Dbl.eq x (.fin 0) || Dbl.le infinity x then .fin (10 ^ 100 / 2) else x

/-- The iteration limit passed on (lpi_soplex.cc:1915-1918). -/
def iterationLimitOf (x : Int) : Int := if x = 0 ∨ x ≥ intMax then -1 else x

/-- A tolerance with its default. -/
def orDefault (x : Dbl) (d : ℚ) : Dbl := if Dbl.eq x (.fin (-1)) then .fin d else x

/-- The scaler (lpi_soplex.cc:1793-1809); the unsupported value leaves SCALER_OFF and an error. -/
def scalerOf : Scaling → Scaler × Bool
  | .off => (.off, true)
  | .default => (.biequi, true)
  | .equilibration => (.biequi, true)
  | .leastSquares => (.leastsq, true)
  | .linearProgram => (.off, false)

/-- The pricer (lpi_soplex.cc:1822-1845). -/
def pricerOf : Pricing → Pricer
  | .default => .auto
  | .steepestEdge => .steep
  | .steepestEdgeQuickStart => .quicksteep
  | .dantzig => .dantzig
  | .partialDantzig => .parmult
  | .devex => .devex

/-- The timer (lpi_soplex.cc:1884-1899). -/
def timerOf : Timing → Timer × Bool
  | .off => (.off, true)
  | .wallclock => (.wallclock, true)
  | .cpu => (.cpu, true)
  | .deterministic => (.off, false)

/-- The assignments of `SetLpParameters` (lpi_soplex.cc:1790-1928): the new settings and whether
`error` stays empty.  SCALER, SIMPLIFIER, PRICER and TIMER accept the values passed.
`solve_from_scratch_` is not assigned. -/
def assign (a : Accepts) (s : Settings) (p : LpParameters) : Settings × Bool :=
  let feastol := orDefault p.feasibilityTolerance (1 / 10 ^ 6)
  let opttol := orDefault p.optimalityTolerance (1 / 10 ^ 6)
  let markowitz := orDefault p.minMarkowitz (1 / 10 ^ 4)
  let lower := Dbl.max (Dbl.neg infinity) p.objectiveLower
  let upper := Dbl.min infinity p.objectiveUpper
  let timelimit := timeLimitOf p.timeLimit
  let iterlimit := iterationLimitOf p.iterationLimit
  ({ solveFromScratch := s.solveFromScratch
     scaler := (scalerOf p.scaling).1
     simplifier := p.usePresolve
     pricer := pricerOf p.pricing
     feastol := if a.real .feastol feastol then feastol else s.feastol
     opttol := if a.real .opttol opttol then opttol else s.opttol
     minMarkowitz := if a.real .minMarkowitz markowitz then markowitz else s.minMarkowitz
     factorUpdateMax :=
       if a.int .factorUpdateMax p.refactorization then p.refactorization else s.factorUpdateMax
     objlimitLower := if a.real .objlimitLower lower then lower else s.objlimitLower
     objlimitUpper := if a.real .objlimitUpper upper then upper else s.objlimitUpper
     timer := (timerOf p.timing).1
     timelimit := if a.real .timelimit timelimit then timelimit else s.timelimit
     iterlimit := if a.int .iterlimit iterlimit then iterlimit else s.iterlimit
     seed := p.randomSeed
     debug := p.output },
   (scalerOf p.scaling).2 && a.real .feastol feastol && a.real .opttol opttol &&
     a.real .minMarkowitz markowitz && a.int .factorUpdateMax p.refactorization &&
     a.real .objlimitLower lower && a.real .objlimitUpper upper && (timerOf p.timing).2 &&
     a.real .timelimit timelimit && a.int .iterlimit iterlimit)

/-- `LpSoplexInterface::SetLpParameters` (lpi_soplex.cc:1785-1934): the settings and whether the
status is OK; `abort` if the `CHECK_OK` on restoring the old parameters fails or, for lack of
`fuel`, if the restoring calls itself for ever. -/
def setLpParameters (a : Accepts) : (fuel : Nat) → Settings → LpParameters →
    Outcome (Settings × Bool)
  | 0, _, _ => .abort
  | fuel + 1, s, p =>
    if !supported p then .ok (s, false)
    else
      let r := assign a s p
      if r.2 then .ok (r.1, true)
      else do
        let (s', ok) ← setLpParameters a fuel r.1 (getLpParameters s)
        Outcome.check ok
        return (s', false)

end Soplex

end MiniMip
