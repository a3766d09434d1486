import Verif.Model.IeeeGenerator
import Verif.Model.HybridSelector

/-!
# The measures of a cut and the hybrid selector in floating-point arithmetic

`Verif.Model.CutRegistry` and `Verif.Model.HybridSelector` compute efficacy, parallelism, scores and angles exactly, in
`ℝ`.  This is the same code (minimip/data_structures/cuts_data.cc, minimip/cutting_interface/hybrid_selector.cc) with
the arithmetic of `double`, see `Verif.Model.Ieee`.  The square root is a parameter with the properties that IEEE 754
demands of it.
-/

namespace MiniMip
namespace Ieee

/-- `std::sqrt` (external) on non-negative doubles: the result is a double within half a unit in the last place, so that
it is exact if the root is a double.  Positive doubles have roots of at least `2 ^ -537`, far from underflow. -/
structure SqrtCode where
  root : ℚ → ℚ
  rep : ∀ x, Rep (root x)
  nonneg : ∀ x, 0 ≤ root x
  error : ∀ x, IsDouble x → 0 ≤ x → |(root x : ℝ) - Real.sqrt x| ≤ 1 / 2 ^ 53 * Real.sqrt x
  exact : ∀ y, Rep y → 0 ≤ y → root (y * y) = y

/-- `std::sqrt` on any double. -/
def SqrtCode.sqrt (s : SqrtCode) : Dbl → Dbl
  | .nan => .nan
  | .ninf => .nan
  | .fin x => if x < 0 then .nan else .fin (s.root x)
  | .pinf => .pinf

/-- `CutData` (cuts_data.h:43-165) with doubles. -/
structure CutF where
  row : Vec
  rhs : Dbl
  numNonZeros : Int
  numIntegers : Int
  objectiveParallelism : Dbl
  name : String
  forced : Bool
  efficacy : Dbl
  index : Option Int := none
  score : Option Dbl := none
  deriving DecidableEq

/-- `ComputeEfficacy` (cuts_data.cc:65-71). -/
def computeEfficacy (s : SqrtCode) (row : Vec) (rhs : Dbl) (lpOptimum : Vec) : Dbl :=
  div (sub (row.dotProduct .ieee lpOptimum) rhs) (s.sqrt (row.dotProduct .ieee row))

/-- `objective_parallelism` (cuts_data.cc:52-54). -/
def parallelism (s : SqrtCode) (row objective : Vec) : Dbl :=
  div (abs (row.dotProduct .ieee objective))
    (s.sqrt (mul (row.dotProduct .ieee row) (objective.dotProduct .ieee objective)))

/-- `CreateCut` (cuts_data.cc:34-63). -/
def createCut (s : SqrtCode) (objective : Vec) (isInteger : Int → Bool) (lpOptimum row : Vec) (rhs : Dbl)
    (name : String) (forced : Bool) : CutF where
  row := row
  rhs := rhs
  numNonZeros := row.entries.length
  numIntegers := (row.entries.filter fun e => isInteger e.index).length
  objectiveParallelism := parallelism s row objective
  name := name
  forced := forced
  efficacy := computeEfficacy s row rhs lpOptimum

namespace Selector

/-- `HybridSelectorParameters` (parameters.proto:40-63), the fields that are read, as doubles. -/
structure Params where
  efficacyWeight : Dbl := .fin 1
  objectiveParallelismWeight : Dbl := round (1 / 10)
  integerSupportWeight : Dbl := round (1 / 10)
  minimumOrthogonality : Dbl := round (9 / 10)
  signedOrthogonality : Bool := false
  scoreThreshold : Dbl := round (1 / 1000000)
  maxNumCuts : Int := -1

/-- `ComputeCutScore` (hybrid_selector.cc:26-44).  The integer support is an `int` division, converted to `double`. -/
def computeCutScore (p : Params) (c : CutF) : Outcome Dbl :=
  let efficacy := if Dbl.lt (.fin 0) p.efficacyWeight then mul p.efficacyWeight c.efficacy else .fin 0
  let parallelism :=
    if Dbl.lt (.fin 0) p.objectiveParallelismWeight then mul p.objectiveParallelismWeight c.objectiveParallelism
    else .fin 0
  if Dbl.lt (.fin 0) p.integerSupportWeight then
    if c.numNonZeros = 0 then .ub
    else .ok (add (add efficacy (mul p.integerSupportWeight (.fin (c.numIntegers.tdiv c.numNonZeros : Int)))) parallelism)
  else .ok (add (add efficacy (.fin 0)) parallelism)

/-- `std::inner_product` of the stored values with themselves (hybrid_selector.cc:54-62). -/
def squaredNorm (v : Vec) : Dbl := v.entries.foldl (fun acc e => add acc (mul e.value e.value)) (.fin 0)

/-- `cos_angle` (hybrid_selector.cc:64-66). -/
def cosAngle (s : SqrtCode) (reference cut : Vec) : Dbl :=
  div (reference.dotProduct .ieee cut) (mul (s.sqrt (squaredNorm reference)) (s.sqrt (squaredNorm cut)))

/-- `TwoCutsAreOrthogonal` (hybrid_selector.cc:46-70): `true` means "remove the cut". -/
def twoCutsAreOrthogonal (s : SqrtCode) (p : Params) (reference cut : CutF) : Bool :=
  if cut.forced then false
  else if p.signedOrthogonality then Dbl.lt (sub (.fin 1) p.minimumOrthogonality) (cosAngle s reference.row cut.row)
  else Dbl.lt (sub (.fin 1) p.minimumOrthogonality) (abs (cosAngle s reference.row cut.row))

/-- `score()` (cuts_data.h); when the selector reads it, it has been set. -/
def scoreOf (c : CutF) : Dbl := c.score.getD (.fin 0)

/-- The comparison by descending score is a strict weak ordering of the cuts, as `std::sort` requires: a NaN is
equivalent to everything, so next to one there must not be two cuts of which one scores better. -/
def StrictWeak (l : List CutF) : Prop :=
  (∀ c ∈ l, scoreOf c ≠ .nan) ∨ ∀ a ∈ l, ∀ b ∈ l, Dbl.lt (scoreOf a) (scoreOf b) = false

/-- `std::sort` by descending score (hybrid_selector.cc:87-90): some permutation of the vector in which no cut has a
larger score than an earlier one. -/
structure Sorter where
  sort : List CutF → List CutF
  perm : ∀ l, (sort l).Perm l
  sorted : ∀ l, StrictWeak l → (sort l).Pairwise fun a b => Dbl.lt (scoreOf a) (scoreOf b) = false

/-- The cuts that stay after `std::remove_if` (hybrid_selector.cc:108-116). -/
def keep (s : SqrtCode) (p : Params) (reference : CutF) (rest : List CutF) : List CutF :=
  rest.filter fun d => !twoCutsAreOrthogonal s p reference d

open Classical in
/-- The loop at hybrid_selector.cc:85-119; sorting by a comparison that is no strict weak ordering is undefined
behaviour. -/
noncomputable def selectLoop (s : SqrtCode) (t : Sorter) (p : Params) (cuts selected : List CutF) :
    Outcome (List CutF) :=
  if StrictWeak cuts then
    match h : t.sort cuts with
    | [] => .ok selected
    | c :: rest =>
      if Dbl.lt (scoreOf c) p.scoreThreshold then .ok selected
      else if ((selected ++ [c]).length : Int) = p.maxNumCuts then .ok (selected ++ [c])
      else selectLoop s t p (keep s p c rest) (selected ++ [c])
  else .ub
  termination_by cuts.length
  decreasing_by
    have := (t.perm cuts).length_eq
    have h2 : (keep s p c rest).length ≤ rest.length := List.length_filter_le ..
    rw [h] at this
    simp only [List.length_cons] at this
    omega

/-- The scoring loop (hybrid_selector.cc:78-80). -/
def scoreAll (p : Params) : List CutF → Outcome (List CutF)
  | [] => .ok []
  | c :: r => do
    let x ← computeCutScore p c
    let r ← scoreAll p r
    return { c with score := some x } :: r

/-- `SelectCuttingPlanes` (hybrid_selector.cc:74-122). -/
noncomputable def selectCuttingPlanes (s : SqrtCode) (t : Sorter) (p : Params) (cuts : List CutF) :
    Outcome (List CutF) := do
  let cuts ← scoreAll p cuts
  selectLoop s t p cuts []

end Selector
end Ieee
end MiniMip
