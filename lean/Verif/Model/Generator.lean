import Verif.Model.CutRegistry
import Verif.Model.Dbl

/-!
# The tableau rounding cut generator (minimip/cutting_interface/aggregating_generator.{h,cc})

Coefficients are exact rationals.  Two kinds of non-finite numbers can arise in the code,
and both are modelled as "no cut is generated from this row":

* The right-hand side of the aggregated row becomes infinite or NaN when an infinite side or
  bound is used (`rhs = none`).  Then `f0` is NaN, and so is every coefficient of an integer
  variable.  The basic variable of a tableau row is such a variable, with coefficient 1 and a
  fractional value, so the activity of the rounded row is NaN and `RemovesLPOptimum` is false.
* Strong CG rounding with `f0 = 0` has `k = +inf` and yields NaN for every fractional
  coefficient, hence a NaN activity whenever the variable's LP value is not 0, and a NaN
  right-hand side when it is a slack.  (If only variables with LP value 0 are affected, the
  code can emit a cut with NaN coefficients after the right-hand side was rounded down by the
  tolerance; that case is not modelled.)
-/

namespace MiniMip

/-- Unchecked vector access. -/
def listAt {α : Type} (l : List α) (i : Int) : Outcome α :=
  if i < 0 then .ub
  else match l[i.toNat]? with
    | some a => .ok a
    | none => .ub

/-- What the generator reads from the LP: rows, sides, bounds and the solver's infinity. -/
structure LpView where
  rows : List SparseVector
  lhs : List Dbl
  rhs : List Dbl
  lower : List Dbl
  upper : List Dbl
  infinity : Dbl := .pinf

/-- `IsInfinity` (lpi_glop.cc:1368-1371, lpi_soplex.cc:1946-1949). -/
def LpView.isInfinity (lp : LpView) (v : Dbl) : Bool := Dbl.le lp.infinity v

/-- What the generator reads besides the LP: `integer_variables()`,
`is_integral_constraint()`, the objective, and the integrality tolerance. -/
structure GenContext where
  lp : LpView
  isInteger : Int → Bool
  integralRow : List Bool
  objective : SparseVector
  tol : ℚ

/-- `AggregatedRow` (aggregating_generator.h:68-74). -/
structure AggRow where
  vars : SparseVector := {}
  slackCoefs : SparseVector := {}
  slackSigns : SparseVector := {}
  sideValues : SparseVector := {}
  rhs : Option ℚ := some 0

namespace Generator

/-- `IsIntegerWithinTolerance` (solver.h:100-102). -/
def isIntegerWithinTolerance (tol v : ℚ) : Bool := |v - roundAway v| ≤ tol

/-- `FloorWithTolerance` (solver.h:108-110). -/
def floorWithTolerance (tol v : ℚ) : ℚ :=
  if isIntegerWithinTolerance tol v then roundAway v else ⌊v⌋

/-- `Fractionality` (aggregating_generator.cc:27-30). -/
def fractionality (tol v : ℚ) : ℚ := if isIntegerWithinTolerance tol v then 0 else v - ⌊v⌋

/-- `HasIntegralSlackVariable` (aggregating_generator.cc:33-37): unchecked access. -/
def hasIntegralSlack (c : GenContext) (row : Int) : Outcome Bool := listAt c.integralRow row

/-- `MIRRoundInteger` (aggregating_generator.cc:41-48). -/
def mirRoundInteger (tol coefficient f0 : ℚ) : ℚ :=
  let fj := fractionality tol coefficient
  if fj ≤ f0 then floorWithTolerance tol coefficient
  else floorWithTolerance tol coefficient + (fj - f0) / (1 - f0)

/-- `MIRRoundContinuous` (aggregating_generator.cc:52-55). -/
def mirRoundContinuous (coefficient f0 : ℚ) : ℚ :=
  if 0 ≤ coefficient then 0 else coefficient / (1 - f0)

/-- `CGRoundInteger` (aggregating_generator.cc:59-79) for a finite `k`. -/
def cgRoundInteger (tol coefficient k f0 : ℚ) : ℚ :=
  let fj := fractionality tol coefficient
  let p : ℚ := if fj ≤ f0 then 0 else ⌈k * (fj - f0) / (1 - f0)⌉
  floorWithTolerance tol coefficient + p / (k + 1)

/-- The side of a row chosen for its slack, and the sign of the slack
(aggregating_generator.cc:89-92). -/
def chosenSide (lp : LpView) (useRhs : List Bool) (row : Int) : Outcome (Dbl × ℚ) := do
  let u ← listAt useRhs row
  let side ← listAt (if u then lp.rhs else lp.lhs) row
  return (side, if u then 1 else -1)

/-- `right_hand_side += weight * side_value`; `none` is a non-finite value. -/
def addSide (rhs : Option ℚ) (weight : ℚ) : Dbl → Option ℚ
  | .fin s => rhs.map (· + weight * s)
  | _ => none

/-- The value stored in `side_values`; a non-finite one is not used (see above). -/
def finPart : Dbl → ℚ
  | .fin s => s
  | _ => 0

/-- One iteration of the loop of `AggregateByWeight` (aggregating_generator.cc:88-101). -/
def aggregateStep (lp : LpView) (useRhs : List Bool) (a : AggRow) (row : Int) (weight : ℚ) :
    Outcome AggRow := do
  let (side, sign) ← chosenSide lp useRhs row
  let r ← listAt lp.rows row
  let vars ← a.vars.addMultiple weight (some r)
  return { vars := vars
           slackCoefs := a.slackCoefs.addEntry row (sign * weight)
           slackSigns := a.slackSigns.addEntry row sign
           sideValues := a.sideValues.addEntry row (finPart side)
           rhs := addSide a.rhs weight side }

/-- The loop of `AggregateByWeight` (aggregating_generator.cc:88-101). -/
def aggregateLoop (lp : LpView) (useRhs : List Bool) (a : AggRow) : List Entry → Outcome AggRow
  | [] => .ok a
  | e :: r => do
    let a ← aggregateStep lp useRhs a e.index e.value
    aggregateLoop lp useRhs a r

/-- `AggregateByWeight` (aggregating_generator.cc:83-107). -/
def aggregateByWeight (lp : LpView) (weights : SparseVector) (useRhs : List Bool) :
    Outcome AggRow := do
  let a ← aggregateLoop lp useRhs {} weights.entries
  return { a with
    slackCoefs := a.slackCoefs.cleanUpIfNeeded
    slackSigns := a.slackSigns.cleanUpIfNeeded
    sideValues := a.sideValues.cleanUpIfNeeded }

/-- How a variable is made non-negative (aggregating_generator.cc:123-161). -/
inductive Shift where
  /-- already non-negative -/
  | keep
  /-- `x' = x - lb` -/
  | lower (lb : ℚ)
  /-- `x' = ub - x` -/
  | upper (ub : ℚ)
  /-- the bound used is not finite -/
  | bad
  /-- unbounded in both directions -/
  | free

/-- The case distinction at aggregating_generator.cc:123-165 and 182-210. -/
def shiftOf (lp : LpView) (col : Int) : Outcome Shift := do
  let lb ← listAt lp.lower col
  let ub ← listAt lp.upper col
  return if Dbl.le (.fin 0) lb then .keep
    else if !lp.isInfinity lb.neg then
      match lb with
      | .fin q => .lower q
      | _ => .bad
    else if !lp.isInfinity ub then
      match ub with
      | .fin q => .upper q
      | _ => .bad
    else .free

/-- The coefficient of the shifted variable; the same formula is used in both directions. -/
def Shift.coef : Shift → ℚ → ℚ
  | .upper _, c => -c
  | _, c => c

/-- The change of the right-hand side when going to non-negative variables. -/
def Shift.toRhs (c : ℚ) : Shift → Option ℚ → Option ℚ
  | .keep, r => r
  | .lower lb, r => r.map (· - c * lb)
  | .upper ub, r => r.map (· - c * ub)
  | .bad, _ => none
  | .free, r => r

/-- The change of the right-hand side when going back. -/
def Shift.backRhs (c : ℚ) : Shift → Option ℚ → Option ℚ
  | .keep, r => r
  | .lower lb, r => r.map (· + c * lb)
  | .upper ub, r => r.map (· - c * ub)
  | .bad, _ => none
  | .free, r => r

/-- `success` stays true. -/
def Shift.isFree : Shift → Bool
  | .free => true
  | _ => false

/-- The calls `Transform` makes, entry by entry (strong_sparse_vector.h:293-302), with the
two captured variables `right_hand_side` and `success`. -/
def shiftEntries (lp : LpView) (rhsChange : ℚ → Shift → Option ℚ → Option ℚ) :
    List Entry → Option ℚ → Outcome (List Entry × Option ℚ × Bool)
  | [], rhs => .ok ([], rhs, true)
  | e :: r, rhs => do
    let s ← shiftOf lp e.index
    let (l, rhs, ok) ← shiftEntries lp rhsChange r (rhsChange e.value s rhs)
    return (⟨e.index, s.coef e.value⟩ :: l, rhs, !s.isFree && ok)

/-- `TransformToNonNegativeVariables` (aggregating_generator.cc:115-171) and
`TransformBackToOriginalVariables` (174-214), which differ in the change of the
right-hand side only. -/
def shiftRow (lp : LpView) (rhsChange : ℚ → Shift → Option ℚ → Option ℚ) (a : AggRow) :
    Outcome (AggRow × Bool) := do
  let (l, rhs, ok) ← shiftEntries lp rhsChange a.vars.entries a.rhs
  return ({ a with
    vars := ⟨l.filter (fun e => decide (e.value ≠ 0)), a.vars.dirty⟩
    rhs := rhs }, ok)

/-- `TransformToNonNegativeVariables` (aggregating_generator.cc:115-171). -/
def toNonNegative (lp : LpView) (a : AggRow) : Outcome (AggRow × Bool) := shiftRow lp Shift.toRhs a

/-- `TransformBackToOriginalVariables` (aggregating_generator.cc:174-214). -/
def toOriginal (lp : LpView) (a : AggRow) : Outcome (AggRow × Bool) := shiftRow lp Shift.backRhs a

/-- The loop of `SubstituteSlackVariables` (aggregating_generator.cc:221-234) over the
entries of `slack_coefficients`. -/
def substituteLoop (lp : LpView) (signs sides : SparseVector) :
    List Entry → SparseVector → Option ℚ → Outcome (SparseVector × Option ℚ)
  | [], v, rhs => .ok (v, rhs)
  | e :: r, v, rhs => do
    let row ← listAt lp.rows e.index
    let v ← v.addMultiple (-1) (some (row.scale (signs.value e.index * e.value)))
    substituteLoop lp signs sides r v
      (rhs.map (· - signs.value e.index * e.value * sides.value e.index))

/-- `SubstituteSlackVariables` (aggregating_generator.cc:218-238). -/
def substituteSlacks (lp : LpView) (a : AggRow) : Outcome AggRow := do
  let (v, rhs) ← substituteLoop lp a.slackSigns a.sideValues a.slackCoefs.entries a.vars a.rhs
  return { vars := v, rhs := rhs }

/-- The decision for one row in `ChooseActiveSidesByBasis` (aggregating_generator.cc:251-273).
The comparison in the last line is only reached with finite sides (or a NaN side, for which
it is false). -/
def chooseSide (lp : LpView) (activity : ℚ) (lhs rhs : Dbl) : Bool :=
  if lp.isInfinity rhs then false
  else if lp.isInfinity lhs.neg then true
  else if Dbl.eq lhs rhs then true
  else match lhs, rhs with
    | .fin l, .fin r => (activity - l) / (r - l) ≥ 1 / 2
    | _, _ => false

/-- `ChooseActiveSidesByBasis` (aggregating_generator.cc:243-276), from row `k` on; the
argument is the vector of row activities. -/
def chooseSides (lp : LpView) (k : Nat) : List ℚ → Outcome (List Bool)
  | [] => .ok []
  | a :: r => do
    let rhs ← listAt lp.rhs k
    let lhs ← listAt lp.lhs k
    let us ← chooseSides lp (k + 1) r
    return chooseSide lp a lhs rhs :: us

/-- `Transform` with a function that may end abnormally. -/
def transformM (f : Int → ℚ → Outcome ℚ) : List Entry → Outcome (List Entry)
  | [] => .ok []
  | e :: r => do
    let x ← f e.index e.value
    let l ← transformM f r
    return if x ≠ 0 then ⟨e.index, x⟩ :: l else l

/-- The calls of `HasIntegralSlackVariable` in `Transform` (aggregating_generator.cc:296-301), for their effect only. -/
def readFlags (c : GenContext) : List Entry → Outcome Unit
  | [] => .ok ()
  | e :: r => do
    let _ ← hasIntegralSlack c e.index
    readFlags c r

/-- `MIRRounder::RoundAggregatedRow` (aggregating_generator.cc:287-307).  With an infinite or NaN right-hand side the
coefficients are NaN: no cut, but the flags of the rows are read. -/
def mirRound (c : GenContext) (a : AggRow) : Outcome (Option AggRow) :=
  match a.rhs with
  | none => do
    readFlags c a.slackCoefs.entries
    return none
  | some b => do
    let f0 := fractionality c.tol b
    let vars := a.vars.transform fun col x =>
      if c.isInteger col then mirRoundInteger c.tol x f0 else mirRoundContinuous x f0
    let slacks ← transformM (fun row x => do
      let i ← hasIntegralSlack c row
      return if i then mirRoundInteger c.tol x f0 else mirRoundContinuous x f0) a.slackCoefs.entries
    return some { a with
      vars := vars
      slackCoefs := ⟨slacks, a.slackCoefs.dirty⟩
      rhs := some (floorWithTolerance c.tol b) }

/-- The check of the slack coefficients at aggregating_generator.cc:314-324; `std::all_of`
stops at the first failure. -/
def slacksAllowCG (c : GenContext) : List Entry → Outcome Bool
  | [] => .ok true
  | e :: r => do
    let i ← hasIntegralSlack c e.index
    if i && decide (0 ≤ e.value) then slacksAllowCG c r else return false

/-- The check of the variable coefficients at aggregating_generator.cc:325-335, as written:
it rejects *integer* variables with a negative coefficient. -/
def varsAllowCG (c : GenContext) (l : List Entry) : Bool :=
  l.all fun e => !c.isInteger e.index || decide (0 ≤ e.value)

/-- With `f0 = 0`, `k` is infinite: coefficients with a fraction become NaN. -/
def nanFree (tol : ℚ) (l : List Entry) : Bool := l.all fun e => decide (fractionality tol e.value = 0)

/-- `StrongCGRounder::RoundAggregatedRow` (aggregating_generator.cc:309-363).  For `f0 = 0`
the quotient `p / (k + 1)` is `0 / inf = 0`. -/
def strongCGRound (c : GenContext) (a : AggRow) : Outcome (Option AggRow) := do
  let ok ← slacksAllowCG c a.slackCoefs.entries
  if !ok then return none
  else if !varsAllowCG c a.vars.entries then return none
  else match a.rhs with
    | none => return none
    | some b => do
      let f0 := fractionality c.tol b
      if f0 = 0 && !(nanFree c.tol (a.vars.entries.filter fun e => c.isInteger e.index) &&
          nanFree c.tol a.slackCoefs.entries) then return none
      else do
        let k : ℚ := ⌈1 / f0⌉ - 1
        let round := fun x =>
          if f0 = 0 then floorWithTolerance c.tol x else cgRoundInteger c.tol x k f0
        let slacks ← transformM (fun row x => do
          let i ← hasIntegralSlack c row
          return if i then round x else 0) a.slackCoefs.entries
        return some { a with
          vars := a.vars.transform fun col x => if c.isInteger col then round x else 0
          slackCoefs := ⟨slacks, a.slackCoefs.dirty⟩
          rhs := some (floorWithTolerance c.tol b) }

/-- The rounders (aggregating_generator.h:88-125). -/
inductive Rounder where
  | mir
  | strongCG

/-- The virtual function `RoundAggregatedRow`. -/
def Rounder.round (c : GenContext) : Rounder → AggRow → Outcome (Option AggRow)
  | .mir => mirRound c
  | .strongCG => strongCGRound c

/-- `GetName` (aggregating_generator.h:106, 121). -/
def Rounder.name : Rounder → String
  | .mir => "MIR"
  | .strongCG => "SCG"

/-- `RemovesLPOptimum` (aggregating_generator.cc:279-283). -/
def removesLPOptimum (row : SparseVector) (rhs : ℚ) (lpOptimum : SparseVector) : Bool :=
  decide (rhs < row.dotProduct lpOptimum)

/-- One rounder applied to the transformed row (aggregating_generator.cc:442-455): rounding,
back-transformation, slack substitution.  Result: row and right-hand side, if any. -/
def roundOne (c : GenContext) (a : AggRow) (rounder : Rounder) :
    Outcome (Option (SparseVector × ℚ)) := do
  let rounded ← rounder.round c a
  match rounded with
  | none => return none
  | some r => do
    let (r, ok) ← toOriginal c.lp r
    if !ok then .error "Failed to transform back to original variables"
    else do
      let r ← substituteSlacks c.lp r
      return r.rhs.map fun b => (r.vars, b)

/-- The loop over the rounders for one tableau row (aggregating_generator.cc:439-469);
`total` is `total_cuts`. -/
noncomputable def roundAll (c : GenContext) (lpOptimum : SparseVector) (a : AggRow) (total : Nat) :
    List Rounder → Outcome (List CutData)
  | [] => .ok []
  | rounder :: rs => do
    let res ← roundOne c a rounder
    match res with
    | none => roundAll c lpOptimum a total rs
    | some (row, rhs) =>
      if removesLPOptimum row rhs lpOptimum then do
        let cut := createCut c.objective c.isInteger lpOptimum row rhs
          (rounder.name ++ toString total) false
        let cuts ← roundAll c lpOptimum a (total + 1) rs
        return cut :: cuts
      else roundAll c lpOptimum a total rs

/-- What the generator gets from the LP solver (an oracle): the status, the row activities,
the primal values, the basis head (`none`: a slack is basic), and the rows of the inverse of
the basis matrix. -/
structure SolverView where
  isSolved : Bool
  isOptimal : Bool
  activities : Outcome (List ℚ)
  basis : List (Option Int)
  primal : Outcome (List ℚ)
  bInverted : Nat → Outcome SparseVector

/-- Copy of the basis row (aggregating_generator.cc:424-428). -/
def rowWeights (v : SparseVector) : SparseVector :=
  v.entries.foldl (fun w e => w.addEntry e.index e.value) {}

/-- One iteration of the loop over the tableau rows (aggregating_generator.cc:395-470). -/
noncomputable def tableauRow (c : GenContext) (s : SolverView) (rounders : List Rounder)
    (useRhs : List Bool) (lpOptimum : SparseVector) (k : Nat) : Outcome (List CutData) := do
  let basic ← listAt s.basis k
  match basic with
  | none => return []
  | some col =>
    if !c.isInteger col then return []
    else if isIntegerWithinTolerance c.tol (lpOptimum.value col) then return []
    else do
      let b ← s.bInverted k
      let a ← aggregateByWeight c.lp (rowWeights b) useRhs
      let (a, ok) ← toNonNegative c.lp a
      if !ok then return []
      else roundAll c lpOptimum a 0 rounders

/-- The loop over the tableau rows (aggregating_generator.cc:392-470): `n` rows are left,
`k` is the next one. -/
noncomputable def tableauLoop (c : GenContext) (s : SolverView) (rounders : List Rounder)
    (maxNumCuts : Int) (useRhs : List Bool) (lpOptimum : SparseVector) :
    Nat → Nat → List CutData → Outcome (List CutData)
  | 0, _, cuts => .ok cuts
  | n + 1, k, cuts =>
    if (cuts.length : Int) < maxNumCuts then do
      let new ← tableauRow c s rounders useRhs lpOptimum k
      tableauLoop c s rounders maxNumCuts useRhs lpOptimum n (k + 1) (cuts ++ new)
    else .ok cuts

/-- `GenerateCuttingPlanes` (aggregating_generator.cc:365-473).  `reserve` with a negative
limit asks for more than `max_size()` elements and throws; the exception is not caught
anywhere. -/
noncomputable def generateCuttingPlanes (c : GenContext) (s : SolverView) (rounders : List Rounder)
    (maxNumCuts : Int) : Outcome (List CutData) :=
  if !s.isSolved then .error "CutGenerator called without solving LP."
  else if !s.isOptimal then .error "CutGenerator called on non-optimal LP."
  else do
    let activities ← s.activities
    let useRhs ← chooseSides c.lp 0 activities
    let primal ← s.primal
    let lpOptimum := SparseVector.ofDense primal
    if maxNumCuts < 0 then .abort
    else tableauLoop c s rounders maxNumCuts useRhs lpOptimum c.lp.rows.length 0 []

end Generator

end MiniMip
