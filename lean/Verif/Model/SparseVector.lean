import Verif.Model.Outcome
import Mathlib.Data.Rat.Defs
import Mathlib.Algebra.Order.Ring.Rat

/-!
# `StrongSparseVectorOfDoubles` (minimip/data_structures/strong_sparse_vector.h)

Simplifications: `double` is `ℚ` (exact arithmetic; rounding, underflow,
overflow, infinities and NaN are not modelled), the strong index type is `Int`
(unbounded).  Memory reservation and logging are omitted.
-/

namespace MiniMip

/-- `SparseEntry` (strong_sparse_vector.h:90-100). -/
structure Entry where
  index : Int
  value : ℚ
  deriving Repr, DecidableEq

/-- The default constructor of `SparseEntry` (strong_sparse_vector.h:93), used by
`resize`. -/
def Entry.default : Entry := ⟨-1, 0⟩

/-- The data members of `StrongSparseVectorOfDoubles`
(strong_sparse_vector.h:448-449): `entries_` and `may_need_cleaning_`.  The
default-constructed vector is `⟨[], false⟩` (strong_sparse_vector.h:117). -/
structure SparseVector where
  entries : List Entry := []
  dirty : Bool := false
  deriving Repr, DecidableEq

namespace SparseVector

/-- One insertion of `std::stable_sort` by index (strong_sparse_vector.h:229-233):
`e` comes before all entries of the (sorted) rest whose index is not smaller. -/
def insertStable (e : Entry) : List Entry → List Entry
  | [] => [e]
  | f :: r => if e.index ≤ f.index then e :: f :: r else f :: insertStable e r

/-- `std::stable_sort` by index (strong_sparse_vector.h:229-233).  The contract of
`std::stable_sort` determines its result; insertion sort meets it. -/
def stableSort : List Entry → List Entry
  | [] => []
  | e :: r => insertStable e (stableSort r)

/-- The compaction loop of `CleanUpIfNeeded` (strong_sparse_vector.h:235-246).  The
code writes to `new_pos ≤ pos` and reads `pos`, `pos + 1`, so compaction in place
equals building a new list. -/
def compact : List Entry → List Entry
  | [] => []
  | [e] => if e.value = 0 then [] else [e]
  | e :: f :: r =>
    if e.index = f.index then compact (f :: r)
    else if e.value = 0 then compact (f :: r)
    else e :: compact (f :: r)

/-- `CleanUpIfNeeded` (strong_sparse_vector.h:226-248). -/
def cleanUpIfNeeded (v : SparseVector) : SparseVector :=
  if v.dirty then ⟨compact (stableSort v.entries), false⟩ else v

/-- Constructor from entries (strong_sparse_vector.h:119-124). -/
def ofEntries (l : List Entry) : SparseVector := cleanUpIfNeeded ⟨l, true⟩

/-- Loop of the constructor from a dense vector (strong_sparse_vector.h:129-133),
starting at index `k`. -/
def ofDenseFrom (k : Int) : List ℚ → List Entry
  | [] => []
  | x :: r => if x ≠ 0 then ⟨k, x⟩ :: ofDenseFrom (k + 1) r else ofDenseFrom (k + 1) r

/-- Constructor from a dense vector (strong_sparse_vector.h:126-134). -/
def ofDense (d : List ℚ) : SparseVector := ⟨ofDenseFrom 0 d, false⟩

/-- `entries_.empty() ? kInvalidSparseIndex : entries_.back().index`
(strong_sparse_vector.h:183-185, 260-264). -/
def lastIndex (v : SparseVector) : Int :=
  match v.entries.getLast? with
  | none => -1
  | some e => e.index

/-- `first_index` (strong_sparse_vector.h:266-270). -/
def firstIndex (v : SparseVector) : Int :=
  match v.entries.head? with
  | none => -1
  | some e => e.index

/-- `AddEntry` (strong_sparse_vector.h:180-197). -/
def addEntry (v : SparseVector) (index : Int) (value : ℚ) : SparseVector :=
  if v.dirty then ⟨v.entries ++ [⟨index, value⟩], true⟩
  else if index ≤ v.lastIndex then ⟨v.entries ++ [⟨index, value⟩], true⟩
  else if value = 0 then v
  else ⟨v.entries ++ [⟨index, value⟩], false⟩

/-- `value` on the entry list (strong_sparse_vector.h:201-212).  `std::lower_bound`
is modelled by its contract on partitioned ranges: the first entry whose index is
not smaller. -/
def valueAt (l : List Entry) (i : Int) : ℚ :=
  match l.find? (fun e => decide (i ≤ e.index)) with
  | none => 0
  | some e => if e.index ≠ i then 0 else e.value

/-- `value` / `operator[]` (strong_sparse_vector.h:201-214). -/
def value (v : SparseVector) (i : Int) : ℚ := valueAt v.entries i

/-- `Clear` (strong_sparse_vector.h:218-222). -/
def clear (_ : SparseVector) : SparseVector := ⟨[], false⟩

/-- `mutable_entries` followed by arbitrary modifications that leave the entries
equal to `l` (strong_sparse_vector.h:147-155). -/
def mutateEntries (_ : SparseVector) (l : List Entry) : SparseVector := ⟨l, true⟩

/-- `MayNeedCleaning` (strong_sparse_vector.h:250-258). -/
def mayNeedCleaning (v : SparseVector) : Bool := v.dirty

/-- `std::is_sorted` with the comparison `lhs.index <= rhs.index`
(strong_sparse_vector.h:278-281): no element compares "less" than its
predecessor, i.e. indices strictly increase. -/
def isSortedStrict : List Entry → Bool
  | [] => true
  | [_] => true
  | e :: f :: r => !decide (f.index ≤ e.index) && isSortedStrict (f :: r)

/-- `IsClean` (strong_sparse_vector.h:274-289). -/
def isClean (v : SparseVector) : Bool :=
  isSortedStrict v.entries && v.entries.all (fun e => decide (e.value ≠ 0) && decide (0 ≤ e.index))

/-- `Transform` (strong_sparse_vector.h:293-302). -/
def transform (v : SparseVector) (f : Int → ℚ → ℚ) : SparseVector :=
  ⟨(v.entries.map fun e => ⟨e.index, f e.index e.value⟩).filter (fun e => decide (e.value ≠ 0)), v.dirty⟩

/-- Unary `operator-` (strong_sparse_vector.h:304-309). -/
def neg (v : SparseVector) : SparseVector :=
  ⟨v.entries.map fun e => ⟨e.index, -e.value⟩, v.dirty⟩

/-- `operator*=` and `operator*` (strong_sparse_vector.h:311-325, 453-457). -/
def scale (v : SparseVector) (s : ℚ) : SparseVector :=
  if s = 0 then ⟨[], v.dirty⟩
  else ⟨v.entries.map fun e => ⟨e.index, e.value * s⟩, v.dirty⟩

/-- `operator/=` and `operator/` (strong_sparse_vector.h:327-338) for a non-zero
scalar.  (A zero scalar violates the DCHECK at line 329 and gives infinities or
NaN, which `ℚ` cannot express; all theorems assume a non-zero scalar.) -/
def divide (v : SparseVector) (s : ℚ) : SparseVector :=
  ⟨v.entries.map fun e => ⟨e.index, e.value / s⟩, v.dirty⟩

/-- The two iterator ranges of `std::inplace_merge` must be sorted by index, else the
behaviour is undefined. -/
def isSortedWeak : List Entry → Bool
  | [] => true
  | [_] => true
  | e :: f :: r => decide (e.index ≤ f.index) && isSortedWeak (f :: r)

/-- `std::transform(src.begin(), src.end(), buf.begin() + start, ..)`
(strong_sparse_vector.h:383-386): overwrites `buf` from position `start`; writing
past the end of the buffer is undefined behaviour. -/
def writeAt (buf : List Entry) (start : Nat) (src : List Entry) : Outcome (List Entry) :=
  if start + src.length ≤ buf.length then
    .ok (buf.take start ++ src ++ buf.drop (start + src.length))
  else .ub

/-- The loop summing duplicates (strong_sparse_vector.h:392-404).  `cur` is
`current_unique_index`, `ptr` the position `value_at_current_unique_index` points to
(`none` is the null pointer), `done` the entries already visited. -/
def sumDuplicates (cur : Int) (ptr : Option Nat) (done : List Entry) :
    List Entry → Outcome (List Entry)
  | [] => .ok done
  | e :: r =>
    if e.index ≠ cur then sumDuplicates e.index (some done.length) (done ++ [e]) r
    else match ptr with
      | none => .ub
      | some p =>
        sumDuplicates cur (some p)
          (done.modify p (fun d => ⟨d.index, d.value + e.value⟩) ++ [⟨e.index, 0⟩]) r

/-- `AddMultipleOfVector(factor, other)` (strong_sparse_vector.h:366-412).
`other = none` means that the argument is the object itself (`v += v`): after the
`resize` at line 380, `other.entries_` is then the enlarged buffer. -/
def addMultiple (v : SparseVector) (factor : ℚ) (other : Option SparseVector) :
    Outcome SparseVector := do
  let otherSize := match other with | none => v.entries.length | some w => w.entries.length
  let originalSize := v.entries.length
  let buf := v.entries ++ List.replicate otherSize Entry.default
  let src := match other with | none => buf | some w => w.entries
  let buf ← writeAt buf originalSize (src.map fun e => ⟨e.index, e.value * factor⟩)
  let l1 := buf.take originalSize
  let l2 := buf.drop originalSize
  if isSortedWeak l1 && isSortedWeak l2 then
    let merged := List.merge l1 l2 (fun a b => decide (a.index ≤ b.index))
    let summed ← sumDuplicates (-1) none [] merged
    return ⟨summed.filter (fun e => decide (e.value ≠ 0)), v.dirty⟩
  else .ub

/-- The merge walk of `DotProduct` (strong_sparse_vector.h:423-433). -/
def dotWalk : List Entry → List Entry → ℚ → ℚ
  | a :: as, b :: bs, product =>
    if a.index = b.index then dotWalk as bs (product + a.value * b.value)
    else if a.index < b.index then dotWalk as (b :: bs) product
    else dotWalk (a :: as) bs product
  | [], _, product => product
  | _ :: _, [], product => product
  termination_by l1 l2 => l1.length + l2.length

/-- `DotProduct` (strong_sparse_vector.h:414-435). -/
def dotProduct (v w : SparseVector) : ℚ := dotWalk v.entries w.entries 0

end SparseVector

end MiniMip
