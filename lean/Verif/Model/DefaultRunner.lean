import Verif.Model.CutRegistry
import Verif.Model.Dbl

/-!
# The cut runner (minimip/cutting_interface/default_runner.{h,cc}, cuts_runner.h)

The LP solver, the generators and the selector are plug-ins: the model is parametrised over
what they do.  `W` is the type of their joint state (the LP inside the solver, the internal
state of generators and selector).
-/

namespace MiniMip

/-- `DefaultRunnerParameters` (parameters.proto:73-78).  `max_num_cuts_at_root` is never read
by the code. -/
structure RunnerParams where
  maxIterations : Int := 100
  maxNumCutsTotal : Int := 100
  maxNumCutsAtRoot : Int := 100
  maxNumCutsPerNode : Int := 100

/-- A row as handed to `LpInterface::AddRow`. -/
structure LpRow where
  row : SparseVector
  lhs : Dbl
  rhs : Dbl
  name : String

/-- The plug-ins.  The queries used at default_runner.cc:43-58 are `stop` (the disjunction
of the seven infeasible/unbounded/limit queries) and `isSolved`; `infinity` is `Infinity()` of the LP
interface, which for SoPlex is a finite number. -/
structure Plugins (W : Type) where
  infinity : Dbl := .pinf
  stop : W → Bool
  isSolved : W → Bool
  generators : List (W → CutRegistry → Outcome (W × List CutData))
  select : W → CutRegistry → List CutData → Outcome (W × List CutData)
  addRow : W → LpRow → Outcome W
  solve : W → Outcome W

/-- The runner with everything it touches: the joint state, the registry, `num_cutrounds_`,
`num_of_cuts_added_since_last_run_` (cuts_runner.h:73-74) and, for the specification only,
the list of rows successfully handed to the LP, in order. -/
structure Runner (W : Type) where
  world : W
  registry : CutRegistry := {}
  numCutrounds : Int := 0
  numCutsAdded : Int := 0
  lpRows : List LpRow := []

namespace Runner
variable {W : Type}

/-- `int → size_t` (64 bits). -/
def toSizeT (n : Int) : Nat := (n % 2 ^ 64).toNat

/-- `MayRunOneMoreSeperationRound` (default_runner.cc:22-72).  The last comparison is between
a `size_t` and an `int32_t`. -/
def mayRun (p : RunnerParams) (pl : Plugins W) (r : Runner W) : Bool :=
  if pl.stop r.world then false
  else if !pl.isSolved r.world then false
  else if r.numCutrounds ≥ p.maxIterations then false
  else if r.numCutsAdded ≥ p.maxNumCutsPerNode then false
  else if r.registry.activeIndices.length ≥ toSizeT p.maxNumCutsTotal then false
  else true

/-- The loop at default_runner.cc:96-99. -/
def addAll (r : Runner W) : List CutData → Outcome (Runner W × List Int)
  | [] => .ok (r, [])
  | c :: cs => do
    let (reg, i) ← r.registry.addCut c
    let (r, is) ← addAll { r with registry := reg } cs
    return (r, i :: is)

/-- The loop over the generators (default_runner.cc:82-100); returns `new_cut_indices`. -/
def generate (pl : Plugins W) (r : Runner W) :
    List (W → CutRegistry → Outcome (W × List CutData)) → Outcome (Runner W × List Int)
  | [] => .ok (r, [])
  | g :: gs => do
    let (w, cuts) ← g r.world r.registry
    let r := { r with world := w }
    if cuts.isEmpty then generate pl r gs
    else do
      let (w, filtered) ← pl.select r.world r.registry cuts
      -- an empty selection continues with the next generator: `addAll` does nothing then
      let (r, is) ← addAll { r with world := w } filtered
      let (r, is') ← generate pl r gs
      return (r, is ++ is')

/-- The loop at default_runner.cc:107-111. -/
def addRows (pl : Plugins W) (r : Runner W) : List Int → Outcome (Runner W)
  | [] => .ok r
  | i :: is => do
    let c ← r.registry.getCut i
    let row : LpRow := { row := c.row, lhs := pl.infinity.neg, rhs := .fin c.rhs, name := c.name }
    let w ← pl.addRow r.world row
    addRows pl { r with world := w, lpRows := r.lpRows ++ [row] } is

/-- One iteration of the loop at default_runner.cc:79-115; `false` is the `break`. -/
def round (pl : Plugins W) (r : Runner W) : Outcome (Runner W × Bool) := do
  let (r, is) ← generate pl r pl.generators
  if is.isEmpty then return (r, false)
  else do
    let r ← addRows pl r is
    let w ← pl.solve r.world
    return ({ r with world := w, numCutrounds := r.numCutrounds + 1 }, true)

/-- `SeparateCurrentLPSolution` (default_runner.cc:74-117) with at most `fuel` evaluations of
the loop condition; more are reported as `none`. -/
def separateFuel (p : RunnerParams) (pl : Plugins W) : Nat → Runner W → Option (Outcome (Runner W))
  | 0, _ => none
  | n + 1, r =>
    if mayRun p pl r then
      match round pl r with
      | .ok (r, true) => separateFuel p pl n r
      | .ok (r, false) => some (.ok r)
      | .error m => some (.error m)
      | .abort => some .abort
      | .ub => some .ub
    else some (.ok r)

end Runner

end MiniMip
