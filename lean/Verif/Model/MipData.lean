import Verif.Model.Problem
import Verif.Model.SparseMatrix

/-!
# `MipData` (minimip/data_structures/mip_data.{h,cc})

Variable types other than fractional and integer are never assigned by the code.
-/

namespace MiniMip

/-- The data members (mip_data.h:114-131).  `integerVariables` is the hash set
`integer_variables_`, as a list without duplicates in its iteration order, see `HashOrder`;
`isIntegerType` is `variable_types_[col] == kInteger`. -/
structure MipData where
  name : String := ""
  wasMaximization : Bool := false
  offset : ℚ := 0
  objective : SparseVector := {}
  hints : List Hint := []
  variableNames : List String := []
  lower : List Dbl := []
  upper : List Dbl := []
  integerVariables : List Int := []
  isIntegerType : List Bool := []
  constraintNames : List String := []
  lhs : List Dbl := []
  rhs : List Dbl := []
  isIntegralConstraint : List Bool := []
  matrix : SparseMatrix := {}

namespace MipData

/-- The iteration order of an `absl::flat_hash_set`, which that library leaves open: any order of the elements. -/
structure HashOrder where
  apply : List Int → List Int
  perm : ∀ l, (apply l).Perm l

/-- The order of insertion. -/
def HashOrder.id : HashOrder := ⟨fun l => l, fun _ => .rfl⟩

/-- Insertion into `integer_variables_`. -/
def insertInt (l : List Int) (i : Int) : List Int := if i ∈ l then l else l ++ [i]

/-- `IsIntegralCoefficient` (mip_data.cc:20-22). -/
def isIntegralCoefficient (q : ℚ) : Bool := q = roundAway q

/-- One iteration of the loop over the variables (mip_data.cc:50-73).  The vectors the code
fills position by position are extended at the end here. -/
def addVariable (d : MipData) (col : Nat) (v : Variable) : Outcome MipData := do
  let d := { d with
    lower := d.lower ++ [v.lower]
    upper := d.upper ++ [v.upper]
    isIntegerType := d.isIntegerType ++ [v.isInteger]
    integerVariables := if v.isInteger then insertInt d.integerVariables col else d.integerVariables
    variableNames := d.variableNames ++ [v.name]
    objective := if v.objective ≠ 0 then d.objective.addEntry col v.objective else d.objective }
  -- line 62, for integer variables only
  let _ ← Outcome.check (!v.isInteger || Dbl.le v.lower v.upper)
  return d

/-- The loop over the variables (mip_data.cc:50-73), from column `col` on. -/
def addVariables (d : MipData) (col : Nat) : List Variable → Outcome MipData
  | [] => .ok d
  | v :: r => do
    let d ← addVariable d col v
    addVariables d (col + 1) r

/-- The loop building `sparse_constraint` (mip_data.cc:87-91): runs over the indices and
reads the coefficient at the same position. -/
def buildRow (v : SparseVector) : List Int → List ℚ → Outcome SparseVector
  | [], _ => .ok v
  | _ :: _, [] => .ub
  | i :: is, a :: as => buildRow (v.addEntry i a) is as

/-- One iteration of the loop over the constraints (mip_data.cc:81-99).  The flag is
computed before the row is cleaned. -/
def addConstraint (d : MipData) (row : Nat) (c : Constraint) : Outcome MipData := do
  let v ← buildRow {} c.varIndices c.coefficients
  let integral := v.entries.all fun e =>
    isIntegralCoefficient e.value && decide (e.index ∈ d.integerVariables)
  let matrix ← d.matrix.populateRow row v
  return { d with
    lhs := d.lhs ++ [c.lhs]
    rhs := d.rhs ++ [c.rhs]
    constraintNames := d.constraintNames ++ [c.name]
    isIntegralConstraint := d.isIntegralConstraint ++ [integral]
    matrix := matrix }

/-- The loop over the constraints (mip_data.cc:81-99), from row `row` on. -/
def addConstraints (d : MipData) (row : Nat) : List Constraint → Outcome MipData
  | [] => .ok d
  | c :: r => do
    let d ← addConstraint d row c
    addConstraints d (row + 1) r

/-- The second insertion loop (mip_data.cc:103-107), from column `col` on. -/
def reinsert (l : List Int) (col : Nat) : List Bool → List Int
  | [] => l
  | b :: r => reinsert (if b then insertInt l col else l) (col + 1) r

/-- The constructor (mip_data.cc:31-112).  `integer_variables_` is not iterated here; `order` is the order in which it
is iterated later, which stays the same since nothing is inserted any more. -/
def ofProblem (order : HashOrder) (p : Problem) : Outcome MipData := do
  let d : MipData :=
    { name := p.name
      wasMaximization := p.isMaximization
      offset := p.offset
      matrix := SparseMatrix.mk' p.vars.length p.constraints.length }
  let d ← addVariables d 0 p.vars
  let d := { d with objective := d.objective.cleanUpIfNeeded, hints := p.hints }
  let d ← addConstraints d 0 p.constraints
  let d := { d with integerVariables := order.apply (reinsert d.integerVariables 0 d.isIntegerType) }
  return if p.isMaximization then
    { d with offset := d.offset * (-1), objective := d.objective.transform (fun _ x => -x) }
  else d

/-- `SolutionIsIntegral` (mip_data.cc:114-124) over the listed integer variables:
`std::all_of` stops at the first failure; reading past the end of the values is undefined
behaviour. -/
def allIntegral (values : List ℚ) (tolerance : ℚ) : List Int → Outcome Bool
  | [] => .ok true
  | c :: r =>
    if c < 0 then .ub
    else match values[c.toNat]? with
      | none => .ub
      | some x =>
        if |x - roundAway x| ≤ tolerance then allIntegral values tolerance r else .ok false

/-- `SolutionIsIntegral` (mip_data.cc:114-124). -/
def solutionIsIntegral (d : MipData) (values : List ℚ) (tolerance : ℚ) : Outcome Bool :=
  allIntegral values tolerance d.integerVariables

end MipData

end MiniMip
