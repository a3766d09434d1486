import Verif.Model.SparseVector
import Verif.Model.Ieee

/-!
# `StrongSparseVectorOfDoubles` over any arithmetic

`Verif.Model.SparseVector` computes with exact rationals.  This is the same class with the arithmetic as a parameter:
`exact` gives back that model (`Verif.Props.ArithVector`), `ieee` is the arithmetic of `double`, with rounding,
overflow, underflow, infinities and NaN.  Signed zeros are not modelled: `0.0` and `-0.0` compare equal, and nothing
here divides by a zero but `operator/=` with a zero scalar, which is excluded.  A product and a sum are rounded one
after the other (no fused multiply-add).
-/

namespace MiniMip

/-- The operations of a number type. -/
structure Arith (α : Type) where
  zero : α
  /-- `x == 0.0` -/
  isZero : α → Bool
  add : α → α → α
  mul : α → α → α
  div : α → α → α
  neg : α → α

/-- Exact arithmetic. -/
def Arith.exact : Arith ℚ where
  zero := 0
  isZero x := decide (x = 0)
  add x y := x + y
  mul x y := x * y
  div x y := x / y
  neg x := -x

/-- The arithmetic of `double`. -/
def Arith.ieee : Arith Dbl where
  zero := .fin 0
  isZero x := Dbl.eq x (.fin 0)
  add := Ieee.add
  mul := Ieee.mul
  div := Ieee.div
  neg := Dbl.neg

/-- `SparseEntry` (strong_sparse_vector.h:90-100). -/
structure AEntry (α : Type) where
  index : Int
  value : α
  deriving DecidableEq

/-- The data members of `StrongSparseVectorOfDoubles` (strong_sparse_vector.h:448-449). -/
structure AVector (α : Type) where
  entries : List (AEntry α) := []
  dirty : Bool := false
  deriving DecidableEq

namespace AVector
variable {α : Type}

/-- One insertion of `std::stable_sort` by index (strong_sparse_vector.h:229-233). -/
def insertStable (e : AEntry α) : List (AEntry α) → List (AEntry α)
  | [] => [e]
  | f :: r => if e.index ≤ f.index then e :: f :: r else f :: insertStable e r

/-- `std::stable_sort` by index (strong_sparse_vector.h:229-233). -/
def stableSort : List (AEntry α) → List (AEntry α)
  | [] => []
  | e :: r => insertStable e (stableSort r)

/-- The compaction loop of `CleanUpIfNeeded` (strong_sparse_vector.h:235-246). -/
def compact (A : Arith α) : List (AEntry α) → List (AEntry α)
  | [] => []
  | [e] => if A.isZero e.value then [] else [e]
  | e :: f :: r =>
    if e.index = f.index then compact A (f :: r)
    else if A.isZero e.value then compact A (f :: r)
    else e :: compact A (f :: r)

/-- `CleanUpIfNeeded` (strong_sparse_vector.h:226-248). -/
def cleanUpIfNeeded (A : Arith α) (v : AVector α) : AVector α :=
  if v.dirty then ⟨compact A (stableSort v.entries), false⟩ else v

/-- `last_index` (strong_sparse_vector.h:183-185, 260-264). -/
def lastIndex (v : AVector α) : Int :=
  match v.entries.getLast? with
  | none => -1
  | some e => e.index

/-- `AddEntry` (strong_sparse_vector.h:180-197). -/
def addEntry (A : Arith α) (v : AVector α) (index : Int) (value : α) : AVector α :=
  if v.dirty then ⟨v.entries ++ [⟨index, value⟩], true⟩
  else if index ≤ v.lastIndex then ⟨v.entries ++ [⟨index, value⟩], true⟩
  else if A.isZero value then v
  else ⟨v.entries ++ [⟨index, value⟩], false⟩

/-- `value` (strong_sparse_vector.h:201-214). -/
def value (A : Arith α) (v : AVector α) (i : Int) : α :=
  match v.entries.find? (fun e => decide (i ≤ e.index)) with
  | none => A.zero
  | some e => if e.index ≠ i then A.zero else e.value

/-- `std::is_sorted` with the comparison `lhs.index <= rhs.index` (strong_sparse_vector.h:278-281). -/
def isSortedStrict : List (AEntry α) → Bool
  | [] => true
  | [_] => true
  | e :: f :: r => !decide (f.index ≤ e.index) && isSortedStrict (f :: r)

/-- `IsClean` (strong_sparse_vector.h:274-289). -/
def isClean (A : Arith α) (v : AVector α) : Bool :=
  isSortedStrict v.entries && v.entries.all (fun e => !A.isZero e.value && decide (0 ≤ e.index))

/-- `Transform` (strong_sparse_vector.h:293-302). -/
def transform (A : Arith α) (v : AVector α) (f : Int → α → α) : AVector α :=
  ⟨(v.entries.map fun e => ⟨e.index, f e.index e.value⟩).filter (fun e => !A.isZero e.value), v.dirty⟩

/-- Unary `operator-` (strong_sparse_vector.h:304-309). -/
def neg (A : Arith α) (v : AVector α) : AVector α :=
  ⟨v.entries.map fun e => ⟨e.index, A.neg e.value⟩, v.dirty⟩

/-- `operator*=` and `operator*` (strong_sparse_vector.h:311-325, 453-457). -/
def scale (A : Arith α) (v : AVector α) (s : α) : AVector α :=
  if A.isZero s then ⟨[], v.dirty⟩
  else ⟨v.entries.map fun e => ⟨e.index, A.mul e.value s⟩, v.dirty⟩

/-- `operator/=` and `operator/` (strong_sparse_vector.h:327-338) for a non-zero scalar. -/
def divide (A : Arith α) (v : AVector α) (s : α) : AVector α :=
  ⟨v.entries.map fun e => ⟨e.index, A.div e.value s⟩, v.dirty⟩

/-- The ranges of `std::inplace_merge` must be sorted by index. -/
def isSortedWeak : List (AEntry α) → Bool
  | [] => true
  | [_] => true
  | e :: f :: r => decide (e.index ≤ f.index) && isSortedWeak (f :: r)

/-- The loop summing duplicates (strong_sparse_vector.h:392-404). -/
def sumDuplicates (A : Arith α) (cur : Int) (ptr : Option Nat) (done : List (AEntry α)) :
    List (AEntry α) → Outcome (List (AEntry α))
  | [] => .ok done
  | e :: r =>
    if e.index ≠ cur then sumDuplicates A e.index (some done.length) (done ++ [e]) r
    else match ptr with
      | none => .ub
      | some p =>
        sumDuplicates A cur (some p)
          (done.modify p (fun d => ⟨d.index, A.add d.value e.value⟩) ++ [⟨e.index, A.zero⟩]) r

/-- `AddMultipleOfVector(factor, other)` (strong_sparse_vector.h:366-412) for another object (for the object itself
see `SparseVector.addMultiple`): the entries of `other`, multiplied by the factor, are appended, the two ranges merged,
duplicates summed, and zeros removed. -/
def addMultiple (A : Arith α) (v : AVector α) (factor : α) (other : AVector α) : Outcome (AVector α) := do
  let l1 := v.entries
  let l2 := other.entries.map fun e => ⟨e.index, A.mul e.value factor⟩
  if isSortedWeak l1 && isSortedWeak l2 then
    let merged := List.merge l1 l2 (fun a b => decide (a.index ≤ b.index))
    let summed ← sumDuplicates A (-1) none [] merged
    return ⟨summed.filter (fun e => !A.isZero e.value), v.dirty⟩
  else .ub

/-- The merge walk of `DotProduct` (strong_sparse_vector.h:423-433). -/
def dotWalk (A : Arith α) : List (AEntry α) → List (AEntry α) → α → α
  | a :: as, b :: bs, product =>
    if a.index = b.index then dotWalk A as bs (A.add product (A.mul a.value b.value))
    else if a.index < b.index then dotWalk A as (b :: bs) product
    else dotWalk A (a :: as) bs product
  | [], _, product => product
  | _ :: _, [], product => product
  termination_by l1 l2 => l1.length + l2.length

/-- `DotProduct` (strong_sparse_vector.h:414-435). -/
def dotProduct (A : Arith α) (v w : AVector α) : α := dotWalk A v.entries w.entries A.zero

end AVector
end MiniMip
