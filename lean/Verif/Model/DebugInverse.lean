import Verif.Model.BasisInverse

/-!
# The getters of the basis inverse in the build with assertions

Rows and columns are any integers here.  Where no assertion stops an index that the solver does not have, the code of the
solver runs with it: its behaviour is undefined.
-/

namespace MiniMip

/-- The four getters of vectors in the inverted basis matrix with their argument (lpi.h). -/
inductive InverseQuery where
  /-- `GetSparseRowOfBInverted`. -/
  | row (r : Int)
  /-- `GetSparseColumnOfBInverted`. -/
  | column (c : Int)
  /-- `GetSparseRowOfBInvertedTimesA`. -/
  | rowTimesA (r : Int)
  /-- `GetSparseColumnOfBInvertedTimesA`. -/
  | columnTimesA (c : Int)

namespace Soplex

/-- What the code of SoPlex computes for the getters (external), see `getSparseRowOfBInverted` and
`getSparseColumnOfBInvertedTimesA`. -/
structure InverseCode where
  order : List Entry → List Entry
  inverse : Nat → Option InverseRow
  timesVec : List ℚ → Option (List ℚ)
  eps : ℚ

/-- The four getters without assertions (lpi_soplex.cc:1490-1661). -/
def inverseQuery (k : InverseCode) (g : Interface) : InverseQuery → Outcome SparseVector
  | .row r => do
    Outcome.check (freed g)
    if 0 ≤ r ∧ r < g.lp.rows.length then getSparseRowOfBInverted g k.inverse r.toNat else .ub
  | .column c => getSparseColumnOfBInverted g k.inverse c
  | .rowTimesA r => do
    Outcome.check (freed g)
    if 0 ≤ r ∧ r < g.lp.rows.length then getSparseRowOfBInvertedTimesA k.order g k.inverse k.eps r.toNat else .ub
  | .columnTimesA c => do
    Outcome.check (freed g)
    if 0 ≤ c ∧ c < g.lp.cols.length then getSparseColumnOfBInvertedTimesA k.order g k.timesVec k.eps c.toNat else .ub

/-- The four getters with their assertions (lpi_soplex.cc:1494-1495, 1546-1547, 1638-1639); `GetSparseRowOfBInvertedTimesA`
(1582-1615) has none. -/
def debugInverseQuery (k : InverseCode) (g : Interface) : InverseQuery → Outcome SparseVector
  | .row r => do
    Outcome.check (freed g)
    Outcome.check (decide (0 ≤ r))
    Outcome.check (decide (r < g.lp.rows.length))
    inverseQuery k g (.row r)
  | .column c => do
    Outcome.check (freed g)
    Outcome.check (decide (0 ≤ c))
    Outcome.check (decide (c < g.lp.rows.length))
    inverseQuery k g (.column c)
  | .rowTimesA r => inverseQuery k g (.rowTimesA r)
  | .columnTimesA c => do
    Outcome.check (freed g)
    Outcome.check (decide (0 ≤ c))
    Outcome.check (decide (c < g.lp.cols.length))
    inverseQuery k g (.columnTimesA c)

end Soplex

namespace Glop

/-- What the code of Glop computes for the getters (external), see `getSparseRowOfBInverted` and
`getSparseColumnOfBInvertedTimesA`. -/
structure InverseCode where
  inverse : Nat → Scattered
  solved : Nat → Scattered
  eps : ℚ

/-- The four getters without assertions (lpi_glop.cc:1021-1135). -/
def inverseQuery (k : InverseCode) (g : Interface) : InverseQuery → Outcome SparseVector
  | .row r => if 0 ≤ r ∧ r < g.lp.rows.length then getSparseRowOfBInverted g k.inverse k.eps r.toNat else .ub
  | .column c => if 0 ≤ c ∧ c < g.lp.rows.length then getSparseColumnOfBInverted g k.inverse k.eps c.toNat
      else if g.lp.rows.length = 0 then .ok {} else .ub
  | .rowTimesA r => if 0 ≤ r ∧ r < g.lp.rows.length then getSparseRowOfBInvertedTimesA g k.inverse k.eps r.toNat else .ub
  | .columnTimesA c => if 0 ≤ c ∧ c < g.lp.cols.length then getSparseColumnOfBInvertedTimesA g k.solved k.eps c.toNat else .ub

/-- `Soplex.addIndexed` with the assertions of the loops over non-zeros (lpi_glop.cc:1038-1039, 1114-1115). -/
def debugAddIndexed (rows : Nat) (d : List ℚ) : SparseVector → List Int → Outcome SparseVector
  | v, [] => .ok v
  | v, i :: r => do
    Outcome.check (decide (0 ≤ i))
    Outcome.check (decide (i < rows))
    let x ← Soplex.denseAt d i
    debugAddIndexed rows d (v.addEntry i x) r

/-- The four getters with their assertions, which are on the positions Glop returns and not on the argument. -/
def debugInverseQuery (k : InverseCode) (g : Interface) : InverseQuery → Outcome SparseVector
  | .row r =>
    if 0 ≤ r ∧ r < g.lp.rows.length ∧ (k.inverse r.toNat).nonZeros ≠ [] then
      debugAddIndexed g.lp.rows.length (k.inverse r.toNat).values {} (k.inverse r.toNat).nonZeros
    else inverseQuery k g (.row r)
  | .columnTimesA c =>
    if 0 ≤ c ∧ c < g.lp.cols.length ∧ (k.solved c.toNat).nonZeros ≠ [] then
      debugAddIndexed g.lp.rows.length (k.solved c.toNat).values {} (k.solved c.toNat).nonZeros
    else inverseQuery k g (.columnTimesA c)
  | q => inverseQuery k g q

end Glop
end MiniMip
