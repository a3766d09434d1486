import Verif.Model.ArithVector
import Verif.Model.IeeeBranching
import Verif.Model.Generator

/-!
# The tableau rounding cut generator in floating-point arithmetic

`Verif.Model.Generator` computes with exact rationals and leaves out cuts with NaN.  This is the same code
(minimip/cutting_interface/aggregating_generator.cc) with the arithmetic of `double`: every operation rounds, overflows
to an infinity, or yields NaN, and nothing is left out but signed zeros and fused multiply-add (see
`Verif.Model.ArithVector`).  In particular non-finite sides and bounds are used as they are.  DCHECKs are left out, as
everywhere.  Cuts are the triples handed to `CreateCut`: row, right-hand side, name.
-/

namespace MiniMip
namespace Ieee

/-- A sparse vector of doubles. -/
abbrev Vec := AVector Dbl

/-- What the generator reads from the LP: rows, sides, bounds and the solver's infinity. -/
structure LpView where
  rows : List Vec
  lhs : List Dbl
  rhs : List Dbl
  lower : List Dbl
  upper : List Dbl
  infinity : Dbl := .pinf

/-- `IsInfinity` (lpi_glop.cc:1368-1371, lpi_soplex.cc:1946-1949). -/
def LpView.isInfinity (lp : LpView) (v : Dbl) : Bool := Dbl.le lp.infinity v

/-- What the generator reads besides the LP: `integer_variables()`, `is_integral_constraint()` and the integrality
tolerance. -/
structure GenContext where
  lp : LpView
  isInteger : Int → Bool
  integralRow : List Bool
  tol : Dbl

/-- `AggregatedRow` (aggregating_generator.h:68-74). -/
structure AggRow where
  vars : Vec := {}
  slackCoefs : Vec := {}
  slackSigns : Vec := {}
  sideValues : Vec := {}
  rhs : Dbl := .fin 0
  deriving DecidableEq

/-- `Fractionality` (aggregating_generator.cc:27-30). -/
def fractionality (tol v : Dbl) : Dbl := if isIntegerWithinTolerance tol v then .fin 0 else sub v v.floor

/-- `HasIntegralSlackVariable` (aggregating_generator.cc:33-37): unchecked access. -/
def hasIntegralSlack (c : GenContext) (row : Int) : Outcome Bool := listAt c.integralRow row

/-- `MIRRoundInteger` (aggregating_generator.cc:41-48). -/
def mirRoundInteger (tol coefficient f0 : Dbl) : Dbl :=
  let fj := fractionality tol coefficient
  if Dbl.le fj f0 then floorWithTolerance tol coefficient
  else add (floorWithTolerance tol coefficient) (div (sub fj f0) (sub (.fin 1) f0))

/-- `MIRRoundContinuous` (aggregating_generator.cc:52-55). -/
def mirRoundContinuous (coefficient f0 : Dbl) : Dbl :=
  if Dbl.le (.fin 0) coefficient then .fin 0 else div coefficient (sub (.fin 1) f0)

/-- `CGRoundInteger` (aggregating_generator.cc:59-79). -/
def cgRoundInteger (tol coefficient k f0 : Dbl) : Dbl :=
  let fj := fractionality tol coefficient
  let p := if Dbl.le fj f0 then .fin 0 else (div (mul k (sub fj f0)) (sub (.fin 1) f0)).ceil
  add (floorWithTolerance tol coefficient) (div p (add k (.fin 1)))

/-- One iteration of the loop of `AggregateByWeight` (aggregating_generator.cc:88-101). -/
def aggregateStep (lp : LpView) (useRhs : List Bool) (a : AggRow) (row : Int) (weight : Dbl) : Outcome AggRow := do
  let u ← listAt useRhs row
  let side ← listAt (if u then lp.rhs else lp.lhs) row
  let sign : Dbl := .fin (if u then 1 else -1)
  let r ← listAt lp.rows row
  let vars ← a.vars.addMultiple .ieee weight r
  return { vars := vars
           slackCoefs := a.slackCoefs.addEntry .ieee row (mul sign weight)
           slackSigns := a.slackSigns.addEntry .ieee row sign
           sideValues := a.sideValues.addEntry .ieee row side
           rhs := add a.rhs (mul weight side) }

/-- The loop of `AggregateByWeight` (aggregating_generator.cc:88-101). -/
def aggregateLoop (lp : LpView) (useRhs : List Bool) (a : AggRow) : List (AEntry Dbl) → Outcome AggRow
  | [] => .ok a
  | e :: r => do
    let a ← aggregateStep lp useRhs a e.index e.value
    aggregateLoop lp useRhs a r

/-- `AggregateByWeight` (aggregating_generator.cc:83-107). -/
def aggregateByWeight (lp : LpView) (weights : Vec) (useRhs : List Bool) : Outcome AggRow := do
  let a ← aggregateLoop lp useRhs {} weights.entries
  return { a with
    slackCoefs := a.slackCoefs.cleanUpIfNeeded .ieee
    slackSigns := a.slackSigns.cleanUpIfNeeded .ieee
    sideValues := a.sideValues.cleanUpIfNeeded .ieee }

/-- How a variable is made non-negative (aggregating_generator.cc:123-161). -/
inductive Shift where
  /-- already non-negative -/
  | keep
  /-- `x' = x - lb` -/
  | lower (lb : Dbl)
  /-- `x' = ub - x` -/
  | upper (ub : Dbl)
  /-- unbounded in both directions -/
  | free

/-- The case distinction at aggregating_generator.cc:123-165 and 182-210. -/
def shiftOf (lp : LpView) (col : Int) : Outcome Shift := do
  let lb ← listAt lp.lower col
  let ub ← listAt lp.upper col
  return if Dbl.le (.fin 0) lb then .keep
    else if !lp.isInfinity lb.neg then .lower lb
    else if !lp.isInfinity ub then .upper ub
    else .free

/-- The coefficient of the shifted variable; the same formula is used in both directions. -/
def Shift.coef : Shift → Dbl → Dbl
  | .upper _, c => c.neg
  | _, c => c

/-- The change of the right-hand side when going to non-negative variables. -/
def Shift.toRhs (c : Dbl) : Shift → Dbl → Dbl
  | .lower lb, r => sub r (mul c lb)
  | .upper ub, r => sub r (mul c ub)
  | _, r => r

/-- The change of the right-hand side when going back. -/
def Shift.backRhs (c : Dbl) : Shift → Dbl → Dbl
  | .lower lb, r => add r (mul c lb)
  | .upper ub, r => sub r (mul c ub)
  | _, r => r

/-- `success` becomes false. -/
def Shift.isFree : Shift → Bool
  | .free => true
  | _ => false

/-- The calls `Transform` makes, entry by entry (strong_sparse_vector.h:293-302), with the two captured variables
`right_hand_side` and `success`. -/
def shiftEntries (lp : LpView) (rhsChange : Dbl → Shift → Dbl → Dbl) :
    List (AEntry Dbl) → Dbl → Outcome (List (AEntry Dbl) × Dbl × Bool)
  | [], rhs => .ok ([], rhs, true)
  | e :: r, rhs => do
    let s ← shiftOf lp e.index
    let (l, rhs, ok) ← shiftEntries lp rhsChange r (rhsChange e.value s rhs)
    return (⟨e.index, s.coef e.value⟩ :: l, rhs, !s.isFree && ok)

/-- `TransformToNonNegativeVariables` (aggregating_generator.cc:115-171) and `TransformBackToOriginalVariables`
(174-214), which differ in the change of the right-hand side only. -/
def shiftRow (lp : LpView) (rhsChange : Dbl → Shift → Dbl → Dbl) (a : AggRow) : Outcome (AggRow × Bool) := do
  let (l, rhs, ok) ← shiftEntries lp rhsChange a.vars.entries a.rhs
  return ({ a with
    vars := ⟨l.filter (fun e => !Arith.ieee.isZero e.value), a.vars.dirty⟩
    rhs := rhs }, ok)

/-- `TransformToNonNegativeVariables` (aggregating_generator.cc:115-171). -/
def toNonNegative (lp : LpView) (a : AggRow) : Outcome (AggRow × Bool) := shiftRow lp Shift.toRhs a

/-- `TransformBackToOriginalVariables` (aggregating_generator.cc:174-214). -/
def toOriginal (lp : LpView) (a : AggRow) : Outcome (AggRow × Bool) := shiftRow lp Shift.backRhs a

/-- The loop of `SubstituteSlackVariables` (aggregating_generator.cc:221-234) over the entries of
`slack_coefficients`. -/
def substituteLoop (lp : LpView) (signs sides : Vec) : List (AEntry Dbl) → Vec → Dbl → Outcome (Vec × Dbl)
  | [], v, rhs => .ok (v, rhs)
  | e :: r, v, rhs => do
    let row ← listAt lp.rows e.index
    let factor := mul (signs.value .ieee e.index) e.value
    let v ← v.addMultiple .ieee (.fin (-1)) (row.scale .ieee factor)
    substituteLoop lp signs sides r v (sub rhs (mul factor (sides.value .ieee e.index)))

/-- `SubstituteSlackVariables` (aggregating_generator.cc:218-238). -/
def substituteSlacks (lp : LpView) (a : AggRow) : Outcome AggRow := do
  let (v, rhs) ← substituteLoop lp a.slackSigns a.sideValues a.slackCoefs.entries a.vars a.rhs
  return { vars := v, rhs := rhs }

/-- The decision for one row in `ChooseActiveSidesByBasis` (aggregating_generator.cc:251-273). -/
def chooseSide (lp : LpView) (activity lhs rhs : Dbl) : Bool :=
  if lp.isInfinity rhs then false
  else if lp.isInfinity lhs.neg then true
  else if Dbl.eq lhs rhs then true
  else Dbl.le (.fin (1 / 2)) (div (sub activity lhs) (sub rhs lhs))

/-- `ChooseActiveSidesByBasis` (aggregating_generator.cc:243-276), from row `k` on; the argument is the vector of row
activities. -/
def chooseSides (lp : LpView) (k : Nat) : List Dbl → Outcome (List Bool)
  | [] => .ok []
  | a :: r => do
    let rhs ← listAt lp.rhs k
    let lhs ← listAt lp.lhs k
    let us ← chooseSides lp (k + 1) r
    return chooseSide lp a lhs rhs :: us

/-- `Transform` with a function that may end abnormally. -/
def transformM (f : Int → Dbl → Outcome Dbl) : List (AEntry Dbl) → Outcome (List (AEntry Dbl))
  | [] => .ok []
  | e :: r => do
    let x ← f e.index e.value
    let l ← transformM f r
    return if !Arith.ieee.isZero x then ⟨e.index, x⟩ :: l else l

/-- `MIRRounder::RoundAggregatedRow` (aggregating_generator.cc:287-307). -/
def mirRound (c : GenContext) (a : AggRow) : Outcome (Option AggRow) := do
  let f0 := fractionality c.tol a.rhs
  let vars := a.vars.transform .ieee fun col x =>
    if c.isInteger col then mirRoundInteger c.tol x f0 else mirRoundContinuous x f0
  let slacks ← transformM (fun row x => do
    let i ← hasIntegralSlack c row
    return if i then mirRoundInteger c.tol x f0 else mirRoundContinuous x f0) a.slackCoefs.entries
  return some { a with
    vars := vars
    slackCoefs := ⟨slacks, a.slackCoefs.dirty⟩
    rhs := floorWithTolerance c.tol a.rhs }

/-- The check of the slack coefficients at aggregating_generator.cc:314-324; `std::all_of` stops at the first
failure. -/
def slacksAllowCG (c : GenContext) : List (AEntry Dbl) → Outcome Bool
  | [] => .ok true
  | e :: r => do
    let i ← hasIntegralSlack c e.index
    if i && Dbl.le (.fin 0) e.value then slacksAllowCG c r else return false

/-- The check of the variable coefficients at aggregating_generator.cc:325-335, as written: it rejects *integer*
variables with a negative coefficient. -/
def varsAllowCG (c : GenContext) (l : List (AEntry Dbl)) : Bool :=
  l.all fun e => !c.isInteger e.index || Dbl.le (.fin 0) e.value

/-- `StrongCGRounder::RoundAggregatedRow` (aggregating_generator.cc:309-363).  For `f0 = 0` the quotient `1 / f0` is
infinite, and so is `k`. -/
def strongCGRound (c : GenContext) (a : AggRow) : Outcome (Option AggRow) := do
  let ok ← slacksAllowCG c a.slackCoefs.entries
  if !ok then return none
  else if !varsAllowCG c a.vars.entries then return none
  else do
    let f0 := fractionality c.tol a.rhs
    let k := sub (div (.fin 1) f0).ceil (.fin 1)
    let slacks ← transformM (fun row x => do
      let i ← hasIntegralSlack c row
      return if i then cgRoundInteger c.tol x k f0 else .fin 0) a.slackCoefs.entries
    return some { a with
      vars := a.vars.transform .ieee fun col x => if c.isInteger col then cgRoundInteger c.tol x k f0 else .fin 0
      slackCoefs := ⟨slacks, a.slackCoefs.dirty⟩
      rhs := floorWithTolerance c.tol a.rhs }

/-- The virtual function `RoundAggregatedRow`. -/
def roundBy (c : GenContext) : Generator.Rounder → AggRow → Outcome (Option AggRow)
  | .mir => mirRound c
  | .strongCG => strongCGRound c

/-- `RemovesLPOptimum` (aggregating_generator.cc:279-283). -/
def removesLPOptimum (row : Vec) (rhs : Dbl) (lpOptimum : Vec) : Bool := Dbl.lt rhs (row.dotProduct .ieee lpOptimum)

/-- A cut as handed to `CreateCut` (aggregating_generator.cc:464-467). -/
structure Cut where
  row : Vec
  rhs : Dbl
  name : String
  deriving DecidableEq

/-- One rounder applied to the transformed row (aggregating_generator.cc:442-455): rounding, back-transformation,
slack substitution.  Result: row and right-hand side, if any. -/
def roundOne (c : GenContext) (a : AggRow) (rounder : Generator.Rounder) : Outcome (Option (Vec × Dbl)) := do
  let rounded ← roundBy c rounder a
  match rounded with
  | none => return none
  | some r => do
    let (r, ok) ← toOriginal c.lp r
    if !ok then .error "Failed to transform back to original variables"
    else do
      let r ← substituteSlacks c.lp r
      return some (r.vars, r.rhs)

/-- The loop over the rounders for one tableau row (aggregating_generator.cc:439-469); `total` is `total_cuts`. -/
def roundAll (c : GenContext) (lpOptimum : Vec) (a : AggRow) (total : Nat) :
    List Generator.Rounder → Outcome (List Cut)
  | [] => .ok []
  | rounder :: rs => do
    let res ← roundOne c a rounder
    match res with
    | none => roundAll c lpOptimum a total rs
    | some (row, rhs) =>
      if removesLPOptimum row rhs lpOptimum then do
        let cuts ← roundAll c lpOptimum a (total + 1) rs
        return ⟨row, rhs, rounder.name ++ toString total⟩ :: cuts
      else roundAll c lpOptimum a total rs

/-- What the generator gets from the LP solver (an oracle): the status, the row activities, the primal values, the
basis head (`none`: a slack is basic), and the rows of the inverse of the basis matrix. -/
structure SolverView where
  isSolved : Bool
  isOptimal : Bool
  activities : Outcome (List Dbl)
  basis : List (Option Int)
  primal : Outcome (List Dbl)
  bInverted : Nat → Outcome Vec

/-- Copy of the basis row (aggregating_generator.cc:424-428). -/
def rowWeights (v : Vec) : Vec := v.entries.foldl (fun w e => w.addEntry .ieee e.index e.value) {}

/-- The loop of the constructor from a dense vector (strong_sparse_vector.h:126-134), from index `k` on. -/
def ofDenseFrom (k : Int) : List Dbl → List (AEntry Dbl)
  | [] => []
  | x :: r => if Dbl.ne x (.fin 0) then ⟨k, x⟩ :: ofDenseFrom (k + 1) r else ofDenseFrom (k + 1) r

/-- Constructor from a dense vector (strong_sparse_vector.h:126-134). -/
def ofDense (d : List Dbl) : Vec := ⟨ofDenseFrom 0 d, false⟩

/-- One iteration of the loop over the tableau rows (aggregating_generator.cc:395-470). -/
def tableauRow (c : GenContext) (s : SolverView) (rounders : List Generator.Rounder) (useRhs : List Bool)
    (lpOptimum : Vec) (k : Nat) : Outcome (List Cut) := do
  let basic ← listAt s.basis k
  match basic with
  | none => return []
  | some col =>
    if !c.isInteger col then return []
    else if isIntegerWithinTolerance c.tol (lpOptimum.value .ieee col) then return []
    else do
      let b ← s.bInverted k
      let a ← aggregateByWeight c.lp (rowWeights b) useRhs
      let (a, ok) ← toNonNegative c.lp a
      if !ok then return []
      else roundAll c lpOptimum a 0 rounders

/-- The loop over the tableau rows (aggregating_generator.cc:392-470): `n` rows are left, `k` is the next one. -/
def tableauLoop (c : GenContext) (s : SolverView) (rounders : List Generator.Rounder) (maxNumCuts : Int)
    (useRhs : List Bool) (lpOptimum : Vec) : Nat → Nat → List Cut → Outcome (List Cut)
  | 0, _, cuts => .ok cuts
  | n + 1, k, cuts =>
    if (cuts.length : Int) < maxNumCuts then do
      let new ← tableauRow c s rounders useRhs lpOptimum k
      tableauLoop c s rounders maxNumCuts useRhs lpOptimum n (k + 1) (cuts ++ new)
    else .ok cuts

/-- `GenerateCuttingPlanes` (aggregating_generator.cc:365-473).  `reserve` with a negative limit asks for more than
`max_size()` elements and throws; the exception is not caught anywhere. -/
def generateCuttingPlanes (c : GenContext) (s : SolverView) (rounders : List Generator.Rounder) (maxNumCuts : Int) :
    Outcome (List Cut) :=
  if !s.isSolved then .error "CutGenerator called without solving LP."
  else if !s.isOptimal then .error "CutGenerator called on non-optimal LP."
  else do
    let activities ← s.activities
    let useRhs ← chooseSides c.lp 0 activities
    let primal ← s.primal
    let lpOptimum := ofDense primal
    if maxNumCuts < 0 then .abort
    else tableauLoop c s rounders maxNumCuts useRhs lpOptimum c.lp.rows.length 0 []

end Ieee
end MiniMip
