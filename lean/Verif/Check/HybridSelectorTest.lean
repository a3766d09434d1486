import Verif.Props.IeeeSelector
import Mathlib.NumberTheory.Real.Irrational

/-!
# The unit tests of the cuts and of the selector, run on the model

The measures of a cut in unit_tests/data_structures/cuts_data_test.cc and the tests in
unit_tests/cutting_interface/hybrid_selector_test.cc, on the model with doubles (see `Verif.Check.SparseVectorTest`).  The
first test of the selector needs a sort that keeps the order of equal cuts; `std::sort` does that for short vectors in the
usual libraries.
-/

namespace MiniMip
namespace Check
namespace HybridSelectorTest

open Ieee Ieee.Selector

/-- The double next to the root of `5/4`. -/
def rootFive : ℚ := 5035177455121576 / 2 ^ 52

theorem no_root (p : ℕ) (hp : p.Prime) (y : ℚ) (h : y * y = p) : False := by
  apply hp.irrational_sqrt
  refine ⟨|y|, ?_⟩
  have : (p : ℝ) = |(y : ℝ)| * |(y : ℝ)| := by rw [abs_mul_abs_self]; exact_mod_cast h.symm
  rw [this, Real.sqrt_mul_self (abs_nonneg _)]
  push_cast
  rfl

/-- A square root that can be evaluated on the norms of the tests. -/
noncomputable def sqrtCode : SqrtCode where
  root x := if x = 1 then 1 else if x = 4 then 2 else if x = 2 then 6369051672525773 / 2 ^ 52 else if x = 5 / 4 then rootFive else exSqrt.root x
  rep x := by
    split
    · exact ⟨1, 0, by norm_num, by norm_num, by norm_num⟩
    · split
      · exact ⟨1, 1, by norm_num, by norm_num, by norm_num⟩
      split
      · exact ⟨6369051672525773, -52, by norm_num, by norm_num, by norm_num⟩
      · split
        · exact ⟨5035177455121576, -52, by norm_num, by norm_num, by norm_num [rootFive]⟩
        · exact exSqrt.rep x
  nonneg x := by
    split
    · norm_num
    · split
      · norm_num
      split
      · norm_num
      · split
        · norm_num [rootFive]
        · exact exSqrt.nonneg x
  error x hx h0 := by
    split
    · rename_i h
      subst h
      norm_num
    · split
      · rename_i h
        subst h
        rw [show Real.sqrt ((4 : ℚ) : ℝ) = 2 by
          rw [show ((4 : ℚ) : ℝ) = 2 * 2 by norm_num]; exact Real.sqrt_mul_self (by norm_num)]
        norm_num
      split
      · rename_i h
        subst h
        have h1 : (6369051672525772 / 2 ^ 52 : ℝ) ≤ Real.sqrt 2 := Real.le_sqrt_of_sq_le (by norm_num)
        have h2 : Real.sqrt 2 ≤ (6369051672525773 / 2 ^ 52 : ℝ) := (Real.sqrt_le_left (by norm_num)).2 (by norm_num)
        have h3 : (12738103345051545 / 2 ^ 53 : ℝ) ≤ Real.sqrt 2 := Real.le_sqrt_of_sq_le (by norm_num)
        push_cast
        rw [abs_le]
        constructor <;> norm_num at * <;> linarith
      · split
        · rename_i h
          subst h
          have h1 : (5035177455121575 / 2 ^ 52 : ℝ) ≤ Real.sqrt (5 / 4) := Real.le_sqrt_of_sq_le (by norm_num)
          have h2 : Real.sqrt (5 / 4) ≤ (5035177455121576 / 2 ^ 52 : ℝ) := (Real.sqrt_le_left (by norm_num)).2 (by norm_num)
          have h3 : (10070354910243151 / 2 ^ 53 : ℝ) ≤ Real.sqrt (5 / 4) := Real.le_sqrt_of_sq_le (by norm_num)
          push_cast [rootFive]
          rw [abs_le]
          constructor <;> norm_num at * <;> linarith
        · exact exSqrt.error x hx h0
  exact y hy h0 := by
    split
    · rename_i h
      nlinarith
    · split
      · rename_i h
        nlinarith
      split
      · rename_i h
        exact (no_root 2 Nat.prime_two y (by push_cast; linarith)).elim
      · split
        · rename_i h
          exact (no_root 5 Nat.prime_five (2 * y) (by push_cast; linarith)).elim
        · exact exSqrt.exact y hy h0

/-- A sort that keeps the order of equal cuts. -/
def sorter : Sorter where
  sort l := exSorter.sort l.reverse
  perm l := (exSorter.perm _).trans l.reverse_perm
  sorted l h := exSorter.sorted _ (by
    rcases h with h | h
    · exact Or.inl fun c hc => h c (List.mem_reverse.1 hc)
    · exact Or.inr fun a ha b hb => h a (List.mem_reverse.1 ha) b (List.mem_reverse.1 hb))

/-- `selectLoop` by recursion on the number of cuts, which the kernel can evaluate; only for scores that are numbers. -/
noncomputable def run (p : Params) : Nat → List CutF → List CutF → Option (List CutF)
  | 0, _, _ => none
  | n + 1, cuts, selected =>
    if cuts.all fun c => decide (scoreOf c ≠ .nan) then
      match sortDesc cuts.reverse with
      | [] => some selected
      | c :: rest =>
        if Dbl.lt (scoreOf c) p.scoreThreshold then some selected
        else if ((selected ++ [c]).length : Int) = p.maxNumCuts then some (selected ++ [c])
        else run p n (keep sqrtCode p c rest) (selected ++ [c])
    else none

theorem run_eq {p : Params} {n : Nat} {cuts selected out : List CutF} (h : run p n cuts selected = some out) :
    selectLoop sqrtCode sorter p cuts selected = .ok out := by
  induction n generalizing cuts selected with
  | zero => simp [run] at h
  | succ n ih =>
    rw [run] at h
    split at h
    · rename_i hn
      have hw : StrictWeak cuts := Or.inl fun c hc => by simpa using (List.all_eq_true.1 hn) c hc
      rw [selectLoop, if_pos hw]
      have hs : sorter.sort cuts = sortDesc cuts.reverse := rfl
      split
      · rename_i h1
        rw [hs] at h1
        rw [h1] at h
        simpa using h
      · rename_i c rest h1
        rw [hs] at h1
        rw [h1] at h
        dsimp only at h
        split at h
        · rename_i h2
          rw [if_pos h2]
          simpa using h
        · rename_i h2
          rw [if_neg h2]
          split at h
          · rename_i h3
            rw [if_pos h3]
            simpa using h
          · rename_i h3
            rw [if_neg h3]
            exact ih h
    · simp at h

/-- A row of doubles (`CreateSparseRow`, unit_tests/utils.h:40-45); the rows of the tests are clean. -/
def vec (l : List (Int × ℚ)) : Vec := ⟨l.map fun t => ⟨t.1, .fin t.2⟩, false⟩

/-- `CreateCut` for a problem with objective `objective`. -/
noncomputable def cut (objective : List (Int × ℚ)) (isInteger : Int → Bool) (optimum row : List (Int × ℚ)) (rhs : Dbl)
    (name : String) (forced : Bool := false) : CutF :=
  Ieee.createCut sqrtCode (vec objective) isInteger (vec optimum) (vec row) rhs name forced

-- CreateCut (cuts_data_test.cc:25-65)
example : let c := cut [(0, 1)] (fun _ => true) [(1, 2)] [(1, 1)] (.fin 1) "cut"
    c.name = "cut" ∧ c.numNonZeros = 1 ∧ c.numIntegers = 1 ∧ c.rhs = .fin 1 ∧ c.efficacy = .fin 1 ∧
    c.objectiveParallelism = .fin 0 ∧ c.forced = false := by decide +kernel

-- CreateDifferentCut (cuts_data_test.cc:67-108); the tolerance is that of the test
example : let c := cut [(0, 1), (1, 1)] (fun j => j = 0) [(0, 2), (1, 2)] [(0, 1), (1, 1)] (.fin 2) "cut" true
    c.name = "cut" ∧ c.numNonZeros = 2 ∧ c.numIntegers = 1 ∧ c.rhs = .fin 2 ∧
    (c.efficacy = .fin (6369051672525772 / 2 ^ 52) ∨ c.efficacy = .fin (6369051672525773 / 2 ^ 52)) ∧
    c.objectiveParallelism = .fin 1 ∧ c.forced = true := by decide +kernel

-- UpdateCutEfficacy (cuts_data_test.cc:199-229)
example : Ieee.computeEfficacy sqrtCode (vec [(1, 1)]) (.fin 1.5) (vec [(0, 1), (1, 1)]) = .fin (-0.5) := by decide +kernel

/-- A cut for the problem of the selector tests (hybrid_selector_test.cc:75-113): maximise `x1`, which is integer. -/
noncomputable def sample (optimum row : List (Int × ℚ)) (rhs : ℚ) (name : String) (forced : Bool := false) : CutF :=
  cut [(0, -1)] (fun j => j = 0) optimum row (round rhs) name forced

/-- `hybrid_selector_parameters: { signed_orthogonality: b }` (hybrid_selector_test.cc:38-56). -/
def params (b : Bool) : Params := { signedOrthogonality := b }

/-- The names of the selected cuts. -/
noncomputable def select (b : Bool) (cuts : List CutF) : Outcome (List String) := do
  return (← selectCuttingPlanes sqrtCode sorter (params b) cuts).map CutF.name

/-- `select` in a form that the kernel can evaluate. -/
noncomputable def names (b : Bool) (cuts : List CutF) : Option (List String) :=
  match scoreAll (params b) cuts with
  | .ok l => (run (params b) (l.length + 1) l []).map (List.map CutF.name)
  | _ => none

theorem select_eq {b : Bool} {cuts : List CutF} {l : List String} (h : names b cuts = some l) : select b cuts = .ok l := by
  unfold names at h
  cases h1 : scoreAll (params b) cuts with
  | ok c =>
    rw [h1] at h
    dsimp only at h
    cases h2 : run (params b) (c.length + 1) c [] with
    | none => rw [h2] at h; simp at h
    | some out =>
      rw [h2] at h
      simp only [select, selectCuttingPlanes, h1, Outcome.bind_ok, run_eq h2]
      simp at h
      simp [h]
  | error m => rw [h1] at h; simp at h
  | abort => rw [h1] at h; simp at h
  | ub => rw [h1] at h; simp at h

/-- The LP optimum of most tests. -/
abbrev opt1 : List (Int × ℚ) := [(0, 1), (1, 1.5)]

-- SelectsFirstCutIfAllAreIdentical (hybrid_selector_test.cc:123-141)
example (b : Bool) : select b [sample opt1 [(1, 1)] 1 "cut_1", sample opt1 [(1, 1)] 1 "cut_2"] = .ok ["cut_1"] :=
  select_eq (by cases b <;> decide +kernel)

-- SelectsIdenticalCutIfItIsForced (hybrid_selector_test.cc:143-161)
example (b : Bool) : select b [sample opt1 [(1, 1)] 1 "cut_1", sample opt1 [(1, 1)] 1 "cut_2" true] =
    .ok ["cut_1", "cut_2"] := select_eq (by cases b <;> decide +kernel)

-- SelectsParallelCutWithHigherScore (hybrid_selector_test.cc:163-179)
example (b : Bool) : select b [sample opt1 [(1, 1)] 1 "cut_1", sample opt1 [(1, 1)] 0.9 "cut_2"] = .ok ["cut_2"] :=
  select_eq (by cases b <;> decide +kernel)

-- SelectsForcedParallelCutWithLowerScoreLast (hybrid_selector_test.cc:181-199)
example (b : Bool) : select b [sample opt1 [(1, 1)] 1 "cut_1" true, sample opt1 [(1, 1)] 0.9 "cut_2"] =
    .ok ["cut_2", "cut_1"] := select_eq (by cases b <;> decide +kernel)

-- SelectsAllOrthgonalCuts (hybrid_selector_test.cc:201-234)
example (b : Bool) : select b [sample opt1 [(1, 1)] 1 "cut_1", sample opt1 [(0, 1)] 0.9 "cut_2"] =
    .ok ["cut_1", "cut_2"] := select_eq (by cases b <;> decide +kernel)
example (b : Bool) : select b [sample opt1 [(0, 1)] 1 "cut_2", sample opt1 [(1, 1)] 0.9 "cut_1"] =
    .ok ["cut_1", "cut_2"] := select_eq (by cases b <;> decide +kernel)

/-- The LP optimum of the next tests. -/
abbrev opt2 : List (Int × ℚ) := [(0, 1.5), (1, 1)]

-- FiltersOrthogonalCutBelowScoreThreshold (hybrid_selector_test.cc:236-253)
example (b : Bool) : select b [sample opt2 [(0, 1)] 1 "cut_1", sample opt2 [(1, 1)] 1 "cut_2"] = .ok ["cut_1"] :=
  select_eq (by cases b <;> decide +kernel)

-- SelectsNoCutsIfNoneAreAboveScoreThreshold (hybrid_selector_test.cc:255-270)
example (b : Bool) : select b [sample opt2 [(1, 1)] 1 "cut_1", sample opt2 [(1, 1)] 1 "cut_2"] = .ok [] :=
  select_eq (by cases b <;> decide +kernel)

/-- The LP optimum of the next tests. -/
abbrev opt3 : List (Int × ℚ) := [(0, 1.5), (1, 1.5)]

-- SelectBetterOrthogonalCut (hybrid_selector_test.cc:272-292)
example (b : Bool) : select b [sample opt3 [(0, 1)] 0.4 "cut_1", sample opt3 [(1, 1)] 0.5 "cut_2",
    sample opt3 [(1, 1)] 1 "cut_3"] = .ok ["cut_1", "cut_2"] := select_eq (by cases b <;> decide +kernel)

-- SelectBestCutsFirstAndForcedCutsInPosition (hybrid_selector_test.cc:294-316)
example (b : Bool) : select b [sample opt3 [(0, 1)] 1 "cut_1", sample opt3 [(1, 1)] 0.5 "cut_2",
    sample opt3 [(1, 1)] 0.9 "cut_3" true] = .ok ["cut_2", "cut_1", "cut_3"] := select_eq (by cases b <;> decide +kernel)

-- SelectInvertedCutIfSignedOrthogonalityIsUsed (hybrid_selector_test.cc:318-343); the name `kHybridSelectorUnsigned` of the
-- test stands for `signed_orthogonality: true`
example : select true [sample opt2 [(1, 1)] 0.4 "cut_1", sample opt2 [(0, 1), (1, -0.5)] 0.5 "cut_2"] =
    .ok ["cut_1", "cut_2"] := select_eq (by decide +kernel)
example : select false [sample opt2 [(1, 1)] 0.4 "cut_1", sample opt2 [(0, 1), (1, -0.5)] 0.5 "cut_2"] = .ok ["cut_1"] :=
  select_eq (by decide +kernel)

end HybridSelectorTest
end Check
end MiniMip
