import Verif.Model.SparseVector

/-!
# The unit tests of the sparse vectors, run on the model

unit_tests/data_structures/strong_sparse_vector_test.cc, test by test.  These are no proofs of properties: they compare the
hand-written model with what the project's authors expect of the code (and saw it do) on the inputs of their tests.  Decimal
literals stand for rationals.  The death tests are about DCHECKs, which are not modelled.
-/

namespace MiniMip
namespace Check
namespace SparseVectorTest

open SparseVector (ofEntries ofDense)

/-- `CreateSparseRow` (unit_tests/utils.h:40-52). -/
def row (l : List (Int × ℚ)) : SparseVector := ofEntries (l.map fun t => ⟨t.1, t.2⟩)

/-- What the matcher `EntriesAre` compares. -/
def pairs (v : SparseVector) : List (Int × ℚ) := v.entries.map fun e => (e.index, e.value)

-- InitializeAndGetValue (strong_sparse_vector_test.cc:33-50)
example : let v := row [(4, 40), (3, 0), (1, 10)]
    v.mayNeedCleaning = false ∧ v.isClean = true ∧ pairs v = [(1, 10), (4, 40)] ∧
    [1, 2, 3, 4, 5].map v.value = [10, 0, 0, 40, 0] := by decide +kernel

-- InitializeFromDenseVector (strong_sparse_vector_test.cc:52-69)
example : let v := ofDense [0, 10, 0, 0, 40, 0]
    v.mayNeedCleaning = false ∧ v.isClean = true ∧ pairs v = [(1, 10), (4, 40)] ∧
    [1, 2, 3, 4, 5].map v.value = [10, 0, 0, 40, 0] := by decide +kernel

-- MakeCopy, MakeReference (strong_sparse_vector_test.cc:71-88)
example : pairs (row [(1, 10)]).clear = [] ∧ pairs (row [(1, 10)]) = [(1, 10)] := by decide +kernel

-- AndEntryAndvalue (strong_sparse_vector_test.cc:90-102)
example : let v := ((({} : SparseVector).addEntry 1 1).addEntry 2 2).addEntry 3 3
    pairs v = [(1, 1), (2, 2), (3, 3)] ∧
    pairs (((v.addEntry 3 30).addEntry 2 0).addEntry 1 10).cleanUpIfNeeded = [(1, 10), (3, 30)] := by decide +kernel

-- IsNotCleanWhen..., IsCleanWhen... (strong_sparse_vector_test.cc:104-139)
example : ((row [(1, 1)]).addEntry 1 2).mayNeedCleaning = true ∧ ((row [(1, 1)]).addEntry 1 0).mayNeedCleaning = true ∧
    ((row [(1, 1)]).addEntry 2 0).mayNeedCleaning = false ∧ ((row [(1, 1)]).addEntry 2 1).mayNeedCleaning = false ∧
    (({} : SparseVector).addEntry 1 0).mayNeedCleaning = false ∧ pairs (({} : SparseVector).addEntry 1 0) = [] := by
  decide +kernel

-- MutateValuesWithCleanUpNeeded, MutateIndicesWithCleanUpNeeded (strong_sparse_vector_test.cc:141-159)
example : let v := row [(1, 10), (2, 20)]
    let w := v.mutateEntries (v.entries.map fun e => ⟨e.index, e.value / 10⟩)
    let u := v.mutateEntries (v.entries.map fun e => ⟨10 - e.index, e.value⟩)
    w.mayNeedCleaning = true ∧ pairs w.cleanUpIfNeeded = [(1, 1), (2, 2)] ∧
    u.mayNeedCleaning = true ∧ pairs u.cleanUpIfNeeded = [(8, 20), (9, 10)] := by decide +kernel

-- Transform (strong_sparse_vector_test.cc:208-231)
example : let v := row [(1, 1), (2, 1), (7, 2.5)]
    pairs (v.transform fun i x => x * i) = [(1, 1), (2, 2), (7, 17.5)] ∧
    pairs (v.transform fun i x => x * (i - 1)) = [(2, 1), (7, 15)] ∧ pairs (v.transform fun _ _ => 0) = [] := by
  decide +kernel

-- Negation (strong_sparse_vector_test.cc:233-236)
example : pairs (row [(2, 3), (3, -2)]).neg = [(2, -3), (3, 2)] := by decide +kernel

-- ScalarMultiplication (strong_sparse_vector_test.cc:238-272)
example : let v := row [(2, 3), (3, -2)]
    pairs (v.scale 1.5) = [(2, 4.5), (3, -3)] ∧ pairs (v.scale (-1.5)) = [(2, -4.5), (3, 3)] ∧ pairs (v.scale 0) = [] := by
  decide +kernel

-- ScalarDivision (strong_sparse_vector_test.cc:274-296)
example : let v := row [(2, 6.25), (3, -5)]
    pairs (v.divide 2.5) = [(2, 2.5), (3, -2)] ∧ pairs (v.divide (-2.5)) = [(2, -2.5), (3, 2)] := by decide +kernel

/-- `List.merge` by recursion on the number of steps, which the kernel can evaluate. -/
def mergeFuel : Nat → List Entry → List Entry → List Entry
  | 0, _, _ => []
  | _ + 1, [], l => l
  | _ + 1, l, [] => l
  | n + 1, a :: as, b :: bs =>
    if a.index ≤ b.index then a :: mergeFuel n as (b :: bs) else b :: mergeFuel n (a :: as) bs

theorem merge_fuel (n : Nat) (l1 l2 : List Entry) (h : l1.length + l2.length < n) :
    List.merge l1 l2 (fun a b => decide (a.index ≤ b.index)) = mergeFuel n l1 l2 := by
  induction n generalizing l1 l2 with
  | zero => omega
  | succ n ih =>
    match l1, l2 with
    | [], l => simp [mergeFuel]
    | a :: as, [] => simp [mergeFuel]
    | a :: as, b :: bs =>
      rw [List.merge, mergeFuel]
      simp only [decide_eq_true_eq]
      simp only [List.length_cons] at h
      rw [ih as (b :: bs) (by simp only [List.length_cons]; omega), ih (a :: as) bs (by simp only [List.length_cons]; omega)]

/-- `addMultiple` with the merge evaluated by `mergeFuel`. -/
theorem addMultiple_fuel (v : SparseVector) (factor : ℚ) (other : Option SparseVector) : v.addMultiple factor other = (do
    let otherSize := match other with | none => v.entries.length | some w => w.entries.length
    let originalSize := v.entries.length
    let buf := v.entries ++ List.replicate otherSize Entry.default
    let src := match other with | none => buf | some w => w.entries
    let buf ← SparseVector.writeAt buf originalSize (src.map fun e => ⟨e.index, e.value * factor⟩)
    let l1 := buf.take originalSize
    let l2 := buf.drop originalSize
    if SparseVector.isSortedWeak l1 && SparseVector.isSortedWeak l2 then
      let merged := mergeFuel (l1.length + l2.length + 1) l1 l2
      let summed ← SparseVector.sumDuplicates (-1) none [] merged
      return ⟨summed.filter (fun e => decide (e.value ≠ 0)), v.dirty⟩
    else .ub) := by
  have h : ∀ l1 l2 : List Entry, List.merge l1 l2 (fun a b => decide (a.index ≤ b.index)) =
      mergeFuel (l1.length + l2.length + 1) l1 l2 := fun _ _ => merge_fuel _ _ _ (Nat.lt_succ_self _)
  unfold SparseVector.addMultiple
  simp only [h]
  cases other <;> rfl

/-- The entries after `AddMultipleOfVector`. -/
def plus (v : SparseVector) (factor : ℚ) (w : SparseVector) : Outcome (List (Int × ℚ)) :=
  match v.addMultiple factor (some w) with
  | .ok u => .ok (pairs u)
  | .error m => .error m
  | .abort => .abort
  | .ub => .ub

-- VectorAddition (strong_sparse_vector_test.cc:298-327)
example : let v := row [(2, 6.25), (3, -5)]
    let w := row [(1, 2.3), (3, 1), (5, 1.23)]
    plus v 1 w = .ok [(1, 2.3), (2, 6.25), (3, -4), (5, 1.23)] ∧
    plus w 1 v = .ok [(1, 2.3), (2, 6.25), (3, -4), (5, 1.23)] := by
  simp only [plus, addMultiple_fuel]
  decide +kernel

-- VectorSubtraction (strong_sparse_vector_test.cc:329-358)
example : let v := row [(2, 6.25), (3, -5)]
    let w := row [(1, 2.3), (3, 1), (5, 1.23)]
    plus v (-1) w = .ok [(1, -2.3), (2, 6.25), (3, -6), (5, -1.23)] ∧
    plus w (-1) v = .ok [(1, 2.3), (2, -6.25), (3, 6), (5, 1.23)] := by
  simp only [plus, addMultiple_fuel]
  decide +kernel

-- AddMultipleOfVector (strong_sparse_vector_test.cc:360-389)
example : let v := row [(1, 2.4), (4, -3.2)]
    let w := row [(0, -1.2), (4, 3.2), (5, 1)]
    plus v 1 w = .ok [(0, -1.2), (1, 2.4), (5, 1)] ∧ plus v 0 w = .ok (pairs v) ∧
    plus v (-100) w = .ok [(0, 120), (1, 2.4), (4, -323.2), (5, -100)] := by
  simp only [plus, addMultiple_fuel]
  decide +kernel

-- DotProduct (strong_sparse_vector_test.cc:391-420)
example : (row [(0, 1)]).dotProduct (row [(0, 1)]) = 1 ∧ (row [(0, 1), (2, 1)]).dotProduct (row [(1, 1), (3, 1)]) = 0 ∧
    (row [(0, 1), (2, 1)]).dotProduct (row [(0, 1), (2, 1)]) = 2 ∧
    (row [(0, 1), (1, -2), (2, 1)]).dotProduct (row [(0, 1), (1, 1), (2, 1)]) = 0 ∧
    (row [(0, 1), (1, -2), (2, 1)]).dotProduct (row [(0, 1), (1, 2), (2, 1)]) = -2 ∧
    (row [(0, 1), (2, 2.5)]).dotProduct (row [(2, 2.5)]) = 6.25 := by decide +kernel

end SparseVectorTest
end Check
end MiniMip
