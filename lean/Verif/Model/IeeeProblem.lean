import Verif.Model.ArithVector
import Verif.Model.MipData

/-!
# The problem, the matrix and `MipData` with data of type `double`

`Verif.Model.Problem`, `Verif.Model.SparseMatrix` and `Verif.Model.MipData` take the coefficients for finite exact
numbers.  Here they are doubles as in the code, which can be infinite or NaN: the structures of a problem, its
validation, the part of the matrix class that `MipData` and the LP interfaces use, and the constructor of `MipData`.
-/

namespace MiniMip
namespace Input

/-- `MiniMipVariable` (problem.h:53-59). -/
structure Variable where
  name : String
  objective : Dbl := .fin 0
  lower : Dbl := .ninf
  upper : Dbl := .pinf
  isInteger : Bool := false
  deriving DecidableEq

/-- `MiniMipConstraint` (problem.h:61-67). -/
structure Constraint where
  name : String
  varIndices : List Int := []
  coefficients : List Dbl := []
  lhs : Dbl := .ninf
  rhs : Dbl := .pinf
  deriving DecidableEq

/-- `MiniMipSolutionHint` (problem.h:69-72). -/
structure Hint where
  varIndices : List Int := []
  values : List Dbl := []
  deriving DecidableEq

/-- `MiniMipProblem` (problem.h:44-51). -/
structure Problem where
  name : String := ""
  vars : List Variable := []
  constraints : List Constraint := []
  hints : List Hint := []
  isMaximization : Bool := false
  offset : Dbl := .fin 0
  deriving DecidableEq

namespace Problem

/-- The loop over the variables (problem.cc:22-32); the empty string means no error. -/
def variableError : List Variable → String
  | [] => ""
  | v :: r =>
    if v.name = "" then "No variable name given."
    else if Dbl.lt v.upper v.lower then
      "Variable " ++ v.name ++ "'s lower variable bound is less than its upper variable bound."
    else variableError r

/-- The body of the loop over the constraints (problem.cc:34-63); the loop over the indices is that of the exact model,
which has no numbers. -/
def constraintError (numVariables : Nat) (c : Constraint) : String :=
  if c.name = "" then "No constraint name given."
  else
    let e := MiniMip.Problem.indexError c.name numVariables [] c.varIndices
    if e ≠ "" then e
    else if c.varIndices.length ≠ c.coefficients.length then
      "Constraint " ++ c.name ++ " has unequal number of indices and coefficients."
    else if Dbl.lt c.rhs c.lhs then
      "Constraint " ++ c.name ++ " has lesser left- than right-hand side."
    else ""

/-- The loop over the constraints (problem.cc:34-63). -/
def constraintsError (numVariables : Nat) : List Constraint → String
  | [] => ""
  | c :: r =>
    let e := constraintError numVariables c
    if e ≠ "" then e else constraintsError numVariables r

/-- `FindErrorInMiniMipProblem` (problem.cc:21-65). -/
def findError (p : Problem) : String :=
  let e := variableError p.vars
  if e ≠ "" then e else constraintsError p.vars.length p.constraints

end Problem

/-! ## The matrix -/

/-- A sparse vector of doubles. -/
abbrev Vec := AVector Dbl

/-- The data members (strong_sparse_matrix.h:175-180). -/
structure Matrix where
  cols : List Vec := []
  rows : List Vec := []
  consistency : Consistency := .upToDate
  deriving DecidableEq

namespace Matrix

/-- Constructor with dimensions (strong_sparse_matrix.h:41-42). -/
def mk' (numCols numRows : Nat) : Matrix := ⟨List.replicate numCols {}, List.replicate numRows {}, .upToDate⟩

/-- `v[i]` for a `std::vector`: out of range is undefined behaviour. -/
def at? (l : List Vec) (i : Nat) : Outcome Vec :=
  match l[i]? with
  | some v => .ok v
  | none => .ub

/-- `target[e.index].AddEntry(i, e.value)` (strong_sparse_matrix.h:160). -/
def addAt (target : List Vec) (j : Int) (i : Nat) (x : Dbl) : Outcome (List Vec) :=
  if 0 ≤ j ∧ j.toNat < target.length then .ok (target.modify j.toNat (fun v => v.addEntry .ieee i x)) else .ub

/-- Inner loop of `PopulateFromTranspose` (strong_sparse_matrix.h:157-161). -/
def fillOne (i : Nat) (target : List Vec) : List (AEntry Dbl) → Outcome (List Vec)
  | [] => .ok target
  | e :: r => do fillOne i (← addAt target e.index i e.value) r

/-- Outer loop of `PopulateFromTranspose` (strong_sparse_matrix.h:155-162), from position `i` on. -/
def fill (i : Nat) (target : List Vec) : List Vec → Outcome (List Vec)
  | [] => .ok target
  | v :: r => do fill (i + 1) (← fillOne i target v.entries) r

/-- `PopulateFromTranspose` (strong_sparse_matrix.h:144-166), simplified as in the exact model. -/
def populateFromTranspose (target transpose : List Vec) : Outcome (List Vec × List Vec) := do
  let target := target.map fun _ => ({} : Vec)
  let transpose := transpose.map (AVector.cleanUpIfNeeded .ieee)
  let target ← fill 0 target transpose
  return (target, transpose)

/-- `RecomputeRowsFromColsIfNeeded` (strong_sparse_matrix.cc:193-198). -/
def recomputeRows (m : Matrix) : Outcome Matrix :=
  if m.consistency = .rowsNeedRecomputation then do
    let (rows, cols) ← populateFromTranspose m.rows m.cols
    return ⟨cols, rows, .upToDate⟩
  else .ok m

/-- `RecomputeColsFromRowsIfNeeded` (strong_sparse_matrix.cc:200-205). -/
def recomputeCols (m : Matrix) : Outcome Matrix :=
  if m.consistency = .colsNeedRecomputation then do
    let (cols, rows) ← populateFromTranspose m.cols m.rows
    return ⟨cols, rows, .upToDate⟩
  else .ok m

/-- `row(i)` (strong_sparse_matrix.cc:31-37). -/
def row (m : Matrix) (r : Nat) : Outcome (Matrix × Vec) := do
  let m ← m.recomputeRows
  let v ← at? m.rows r
  let v := v.cleanUpIfNeeded .ieee
  return ({ m with rows := m.rows.set r v }, v)

/-- `col(i)` (strong_sparse_matrix.cc:39-45). -/
def col (m : Matrix) (c : Nat) : Outcome (Matrix × Vec) := do
  let m ← m.recomputeCols
  let v ← at? m.cols c
  let v := v.cleanUpIfNeeded .ieee
  return ({ m with cols := m.cols.set c v }, v)

/-- `PopulateRow` (strong_sparse_matrix.cc:98-110). -/
def populateRow (m : Matrix) (r : Nat) (data : Vec) : Outcome Matrix := do
  let m ← m.recomputeRows
  let _ ← at? m.rows r
  return { m with rows := m.rows.set r (data.cleanUpIfNeeded .ieee), consistency := .colsNeedRecomputation }

end Matrix

/-! ## `MipData` -/

/-- The data members (mip_data.h:114-131), as in the exact model. -/
structure Data where
  name : String := ""
  wasMaximization : Bool := false
  offset : Dbl := .fin 0
  objective : Vec := {}
  hints : List Hint := []
  variableNames : List String := []
  lower : List Dbl := []
  upper : List Dbl := []
  integerVariables : List Int := []
  isIntegerType : List Bool := []
  constraintNames : List String := []
  lhs : List Dbl := []
  rhs : List Dbl := []
  isIntegralConstraint : List Bool := []
  matrix : Matrix := {}
  deriving DecidableEq

namespace Data

/-- `IsIntegralCoefficient` (mip_data.cc:20-22). -/
def isIntegralCoefficient (x : Dbl) : Bool := Dbl.eq x (Ieee.roundHalfAway x)

/-- One iteration of the loop over the variables (mip_data.cc:50-73). -/
def addVariable (d : Data) (col : Nat) (v : Variable) : Outcome Data := do
  let d := { d with
    lower := d.lower ++ [v.lower]
    upper := d.upper ++ [v.upper]
    isIntegerType := d.isIntegerType ++ [v.isInteger]
    integerVariables := if v.isInteger then MipData.insertInt d.integerVariables col else d.integerVariables
    variableNames := d.variableNames ++ [v.name]
    objective := if Dbl.ne v.objective (.fin 0) then d.objective.addEntry .ieee col v.objective else d.objective }
  let _ ← Outcome.check (!v.isInteger || Dbl.le v.lower v.upper)
  return d

/-- The loop over the variables (mip_data.cc:50-73), from column `col` on. -/
def addVariables (d : Data) (col : Nat) : List Variable → Outcome Data
  | [] => .ok d
  | v :: r => do
    let d ← addVariable d col v
    addVariables d (col + 1) r

/-- The loop building `sparse_constraint` (mip_data.cc:87-91). -/
def buildRow (v : Vec) : List Int → List Dbl → Outcome Vec
  | [], _ => .ok v
  | _ :: _, [] => .ub
  | i :: is, a :: as => buildRow (v.addEntry .ieee i a) is as

/-- One iteration of the loop over the constraints (mip_data.cc:81-99). -/
def addConstraint (d : Data) (row : Nat) (c : Constraint) : Outcome Data := do
  let v ← buildRow {} c.varIndices c.coefficients
  let integral := v.entries.all fun e =>
    isIntegralCoefficient e.value && decide (e.index ∈ d.integerVariables)
  let matrix ← d.matrix.populateRow row v
  return { d with
    lhs := d.lhs ++ [c.lhs]
    rhs := d.rhs ++ [c.rhs]
    constraintNames := d.constraintNames ++ [c.name]
    isIntegralConstraint := d.isIntegralConstraint ++ [integral]
    matrix := matrix }

/-- The loop over the constraints (mip_data.cc:81-99), from row `row` on. -/
def addConstraints (d : Data) (row : Nat) : List Constraint → Outcome Data
  | [] => .ok d
  | c :: r => do
    let d ← addConstraint d row c
    addConstraints d (row + 1) r

/-- The constructor (mip_data.cc:31-112). -/
def ofProblem (order : MipData.HashOrder) (p : Problem) : Outcome Data := do
  let d : Data :=
    { name := p.name
      wasMaximization := p.isMaximization
      offset := p.offset
      matrix := Matrix.mk' p.vars.length p.constraints.length }
  let d ← addVariables d 0 p.vars
  let d := { d with objective := d.objective.cleanUpIfNeeded .ieee, hints := p.hints }
  let d ← addConstraints d 0 p.constraints
  let d := { d with integerVariables := order.apply (MipData.reinsert d.integerVariables 0 d.isIntegerType) }
  return if p.isMaximization then
    { d with
      offset := Ieee.mul d.offset (.fin (-1))
      objective := d.objective.transform .ieee (fun _ x => x.neg) }
  else d

end Data
end Input
end MiniMip
