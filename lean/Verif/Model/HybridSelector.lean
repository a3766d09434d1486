import Verif.Model.CutRegistry

/-!
# The hybrid cut selector (minimip/cutting_interface/hybrid_selector.{h,cc})

Weights and thresholds are exact reals; scores can be infinite or NaN.
-/

namespace MiniMip

/-- `HybridSelectorParameters` (parameters.proto:40-63) with the defaults given there.
`minimum_orthogonality_at_root` and `maximum_tree_depth` are never read by the code. -/
structure HybridParams where
  efficacyWeight : ℝ := 1
  objectiveParallelismWeight : ℝ := 1 / 10
  integerSupportWeight : ℝ := 1 / 10
  minimumOrthogonality : ℝ := 9 / 10
  minimumOrthogonalityAtRoot : ℝ := 9 / 10
  signedOrthogonality : Bool := false
  scoreThreshold : ℝ := 1 / 1000000
  maximumTreeDepth : Int := -1
  maxNumCuts : Int := -1

namespace HybridSelector

/-- `ComputeCutScore` (hybrid_selector.cc:26-44).  The integer support is an `int` division
(`Int.tdiv`), undefined for a row without non-zeros. -/
noncomputable def computeCutScore (p : HybridParams) (c : CutData) : Outcome RDbl :=
  let efficacy := if 0 < p.efficacyWeight then c.efficacy.scale p.efficacyWeight else .fin 0
  let parallelism :=
    if 0 < p.objectiveParallelismWeight then c.objectiveParallelism.scale p.objectiveParallelismWeight
    else .fin 0
  if 0 < p.integerSupportWeight then
    if c.numNonZeros = 0 then .ub
    else .ok ((efficacy.add
      (.fin (p.integerSupportWeight * ((c.numIntegers.tdiv c.numNonZeros : Int) : ℝ)))).add parallelism)
  else .ok ((efficacy.add (.fin 0)).add parallelism)

/-- The sum of the squares of the stored values (hybrid_selector.cc:54-62). -/
def squaredNorm (v : SparseVector) : ℚ := (v.entries.map fun e => e.value * e.value).sum

/-- `cos_angle` (hybrid_selector.cc:64-66).  `none` stands for the NaN that results when one
of the norms is zero. -/
noncomputable def cosAngle (reference cut : CutData) : Option ℝ :=
  let d := Real.sqrt (squaredNorm reference.row : ℝ) * Real.sqrt (squaredNorm cut.row : ℝ)
  if d = 0 then none else some ((reference.row.dotProduct cut.row : ℝ) / d)

/-- `TwoCutsAreOrthogonal` (hybrid_selector.cc:46-70).  In spite of its name the code uses
`true` as "remove the cut". Comparisons with NaN are false. -/
noncomputable def twoCutsAreOrthogonal (reference cut : CutData) (minimumOrthogonality : ℝ)
    (signedOrthogonality : Bool) : Bool :=
  if cut.forced then false
  else match cosAngle reference cut with
    | none => false
    | some x =>
      if signedOrthogonality then decide (1 - minimumOrthogonality < x)
      else decide (1 - minimumOrthogonality < |x|)

/-- `score()` (cuts_data.h); when the selector reads it, it has been set. -/
noncomputable def scoreOf (c : CutData) : RDbl := c.score.getD (.fin 0)

/-- The comparison by descending score is a strict weak ordering of the cuts, as `std::sort`
requires: a NaN is equivalent to everything, so next to one there must not be two cuts of
which one scores better. -/
def StrictWeak (l : List CutData) : Prop :=
  (∀ c ∈ l, scoreOf c ≠ .nan) ∨ ∀ a ∈ l, ∀ b ∈ l, ¬ (scoreOf a).lt (scoreOf b)

/-- `std::sort` by descending score (hybrid_selector.cc:87-90): some permutation of the
vector in which no cut has a larger score than an earlier one; which one is not specified
when scores are equivalent. -/
structure Sorter where
  sort : List CutData → List CutData
  perm : ∀ l, (sort l).Perm l
  sorted : ∀ l, StrictWeak l → (sort l).Pairwise fun a b => ¬ (scoreOf a).lt (scoreOf b)

/-- The cuts that stay after `std::remove_if` (hybrid_selector.cc:108-116). -/
noncomputable def keep (p : HybridParams) (reference : CutData) (rest : List CutData) :
    List CutData :=
  rest.filter fun d =>
    !twoCutsAreOrthogonal reference d p.minimumOrthogonality p.signedOrthogonality

open Classical in
/-- The loop at hybrid_selector.cc:85-119.  The comparison of `size_t` and `int32_t` at line
103 converts a negative limit to a value no vector size reaches, so it is an equality of
integers.  Sorting by a comparison that is no strict weak ordering is undefined behaviour. -/
noncomputable def selectLoop (s : Sorter) (p : HybridParams) (cuts selected : List CutData) :
    Outcome (List CutData) :=
  if StrictWeak cuts then
    match h : s.sort cuts with
    | [] => .ok selected
    | c :: rest =>
      if (scoreOf c).lt (.fin p.scoreThreshold) then .ok selected
      else if ((selected ++ [c]).length : Int) = p.maxNumCuts then .ok (selected ++ [c])
      else selectLoop s p (keep p c rest) (selected ++ [c])
  else .ub
  termination_by cuts.length
  decreasing_by
    have := (s.perm cuts).length_eq
    have h2 : (keep p c rest).length ≤ rest.length := List.length_filter_le ..
    rw [h] at this
    simp only [List.length_cons] at this
    omega

/-- The scoring loop (hybrid_selector.cc:78-80). -/
noncomputable def scoreAll (p : HybridParams) : List CutData → Outcome (List CutData)
  | [] => .ok []
  | c :: r => do
    let x ← computeCutScore p c
    let r ← scoreAll p r
    return c.setScore x :: r

/-- `SelectCuttingPlanes` (hybrid_selector.cc:74-122). -/
noncomputable def selectCuttingPlanes (s : Sorter) (p : HybridParams) (cuts : List CutData) :
    Outcome (List CutData) := do
  let cuts ← scoreAll p cuts
  selectLoop s p cuts []

end HybridSelector

end MiniMip
