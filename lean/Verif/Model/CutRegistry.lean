import Verif.Model.SparseVector
import Verif.Model.RDbl

/-!
# `CutData` and `CutRegistry` (minimip/data_structures/cuts_data.{h,cc})

Rows and right-hand sides are exact rationals (`SparseVector`, `ℚ`); the quantities that
the code computes with `sqrt` are real numbers, infinite or NaN (`RDbl`).  `int` indices are `Int`.  Memory
management and logging are omitted.
-/

namespace MiniMip

/-- `CutData` (cuts_data.h:43-165).  `index` and `score` are the `std::optional`s
`cut_index_` and `score_`. -/
structure CutData where
  row : SparseVector
  rhs : ℚ
  numNonZeros : Int
  numIntegers : Int
  objectiveParallelism : RDbl
  name : String
  forced : Bool
  active : Bool := false
  efficacy : RDbl
  index : Option Int := none
  score : Option RDbl := none

namespace CutData

/-- `SetIndex` (cuts_data.h:69-72). -/
def setIndex (c : CutData) (i : Int) : CutData := { c with index := some i }

/-- `index()` (cuts_data.h:73-78); the exception thrown for an unset index is not caught
anywhere, so it ends the process. -/
def getIndex (c : CutData) : Outcome Int :=
  match c.index with
  | some i => .ok i
  | none => .abort

/-- `SetEfficacy` (cuts_data.h:49-52). -/
def setEfficacy (c : CutData) (e : RDbl) : CutData := { c with efficacy := e }

/-- `SetScore` (cuts_data.h:56-59). -/
def setScore (c : CutData) (e : RDbl) : CutData := { c with score := some e }

end CutData

/-- `ComputeEfficacy` (cuts_data.cc:65-71).  For a row without non-zeros the code divides by
zero. -/
noncomputable def computeEfficacy (row : SparseVector) (rhs : ℚ) (lpOptimum : SparseVector) : RDbl :=
  RDbl.div ((row.dotProduct lpOptimum - rhs : ℚ) : ℝ) (Real.sqrt ((row.dotProduct row : ℚ) : ℝ))

/-- `CreateCut` (cuts_data.cc:34-63).  `isInteger` is membership in
`mip_data.integer_variables()`.  The DCHECKs of the `CutData` constructor
(cuts_data.h:127-134) are not part of release builds.  The parallelism is `0 / 0` if the row
or the objective is zero.  The unqualified `abs` of the parallelism is taken to be the one for `double`. -/
noncomputable def createCut (objective : SparseVector) (isInteger : Int → Bool)
    (lpOptimum : SparseVector) (row : SparseVector) (rhs : ℚ) (name : String)
    (isForced : Bool) : CutData :=
  let integers : List Entry := row.entries.filter fun e => isInteger e.index
  { row := row
    rhs := rhs
    numNonZeros := row.entries.length
    numIntegers := integers.length
    objectiveParallelism := RDbl.div |((row.dotProduct objective : ℚ) : ℝ)|
      (Real.sqrt ((row.dotProduct row * objective.dotProduct objective : ℚ) : ℝ))
    name := name
    forced := isForced
    efficacy := computeEfficacy row rhs lpOptimum }

/-- `CutRegistry` (cuts_data.h:168-223): `cuts_` and `active_cut_indices_`; initially both
are empty (cuts_data.cc:24). -/
structure CutRegistry where
  cuts : List CutData := []
  activeIndices : List Int := []

namespace CutRegistry

/-- `AddCut` (cuts_data.cc:79-84).  The index is read from the moved-from argument; moving
a `std::optional<int>` leaves the source unchanged, so it is still the assigned index. -/
def addCut (r : CutRegistry) (c : CutData) : Outcome (CutRegistry × Int) :=
  let c := c.setIndex r.cuts.length
  do
    let i ← c.getIndex
    return ({ r with cuts := r.cuts ++ [c] }, i)

/-- `ActivateCut` (cuts_data.cc:87-92); the range checks are DCHECKs. -/
def activateCut (r : CutRegistry) (i : Int) : CutRegistry :=
  { r with activeIndices := r.activeIndices ++ [i] }

/-- `GetCut` (cuts_data.cc:124-128): unchecked vector access. -/
def getCut (r : CutRegistry) (i : Int) : Outcome CutData :=
  if i < 0 then .ub
  else match r.cuts[i.toNat]? with
    | some c => .ok c
    | none => .ub

/-- `UpdateCutEfficacy` (cuts_data.cc:130-136). -/
noncomputable def updateCutEfficacy (r : CutRegistry) (lpOptimum : SparseVector) : CutRegistry :=
  { r with cuts := r.cuts.map fun c => c.setEfficacy (computeEfficacy c.row c.rhs lpOptimum) }

/-- The argument of `RemoveCut`, a `const int&` (cuts_data.cc:94): either some other
integer, or a reference to position `k` of `active_cut_indices_` (as in
`registry.RemoveCut(registry.active_cuts()[k])`). -/
inductive Arg where
  | value (i : Int)
  | activeSlot (k : Nat)

/-- Reads the argument; past the end of the vector the reference dangles. -/
def Arg.read (active : List Int) : Arg → Outcome Int
  | .value i => .ok i
  | .activeSlot k => match active[k]? with
    | some i => .ok i
    | none => .ub

/-- One step of the loop at cuts_data.cc:111-113: the index of a cut is decremented. -/
def decrement (c : CutData) : Outcome CutData := do
  let i ← c.getIndex
  return c.setIndex (i - 1)

/-- The loop at cuts_data.cc:111-113: `decrement` on the cuts from position `from` on. -/
def decrementFrom (k : Nat) : List CutData → Outcome (List CutData)
  | [] => .ok []
  | c :: r => match k with
    | 0 => do
      let c ← decrement c
      let r ← decrementFrom 0 r
      return c :: r
    | k + 1 => do
      let r ← decrementFrom k r
      return c :: r

/-- `RemoveCut` (cuts_data.cc:94-121).  The referenced argument is read again after each
modification of `active_cut_indices_`. -/
def removeCut (r : CutRegistry) (arg : Arg) : Outcome CutRegistry := do
  -- lines 100-101
  let i ← arg.read r.activeIndices
  if i < 0 ∨ r.cuts.length ≤ i then .ub
  else
    let cuts := r.cuts.eraseIdx i.toNat
    -- lines 104-108: the first occurrence only
    let active := r.activeIndices.erase i
    -- lines 111-113
    let i ← arg.read active
    if i < 0 then .ub
    else
      let cuts ← decrementFrom i.toNat cuts
      -- lines 116-120: an aliased slot is not greater than itself, so it is stable here
      return { cuts := cuts, activeIndices := active.map fun j => if j > i then j - 1 else j }

end CutRegistry

end MiniMip
