import Verif.Model.SoplexLpi

/-!
# Getters of vectors in the inverted basis matrix (lpi_glop.cc:1017-1125, lpi_soplex.cc:1582-1660)

The basis factorisations are external: their results are arguments.  `GetSparseRowOfBInverted` and
`GetSparseColumnOfBInverted` of SoPlex are in `Verif.Model.SoplexLpi`.
-/

namespace MiniMip

/-- The loop `for (i = 0; i < n; ++i) { value = f(i); if (keep(value)) v.AddEntry(i, value); }` of the
getters below, with `n` iterations to go. -/
def collect (keep : ℚ → Bool) (f : Nat → Outcome ℚ) : (n i : Nat) → SparseVector → Outcome SparseVector
  | 0, _, v => .ok v
  | n + 1, i, v => do
    let x ← f i
    collect keep f n (i + 1) (if keep x then v.addEntry (i : Int) x else v)

/-- The product of a dense vector with a sparse column: `glop::ScalarProduct` and SoPlex's
`Vector * SVector` (external). -/
def scalarProduct (values : List ℚ) : List Entry → Outcome ℚ
  | [] => .ok 0
  | e :: r => do
    let x ← Soplex.denseAt values e.index
    return x * e.value + (← scalarProduct values r)

namespace Glop

/-- `glop::ScatteredRow` and `glop::ScatteredColumn` (external): a dense vector and the list of
positions of its non-zeros; an empty list means that the positions are not known. -/
structure Scattered where
  values : List ℚ
  nonZeros : List Int
  deriving Repr, DecidableEq

/-- `std::abs(value) >= eps`. -/
def atLeast (eps : ℚ) (x : ℚ) : Bool := decide (eps ≤ |x|)
/-- `std::abs(value) > eps`. -/
def above (eps : ℚ) (x : ℚ) : Bool := decide (eps < |x|)

/-- `GetSparseRowOfBInverted` (lpi_glop.cc:1021-1055).  `inverse r` is the vector `tmp_row_` after
`LeftSolveForUnitRow` and `UnscaleUnitRowLeftSolve`, `eps` the primal feasibility tolerance. -/
def getSparseRowOfBInverted (g : Interface) (inverse : Nat → Scattered) (eps : ℚ) (row : Nat) :
    Outcome SparseVector :=
  if (inverse row).nonZeros ≠ [] then
    Soplex.addIndexed (inverse row).values {} (inverse row).nonZeros
  else
    collect (atLeast eps) (fun i => Soplex.denseAt (inverse row).values i) g.lp.rows.length 0 {}

/-- `GetSparseColumnOfBInverted` (lpi_glop.cc:1057-1075). -/
def getSparseColumnOfBInverted (g : Interface) (inverse : Nat → Scattered) (eps : ℚ) (col : Nat) :
    Outcome SparseVector :=
  collect (atLeast eps) (fun r => Soplex.denseAt (inverse r).values col) g.lp.rows.length 0 {}

/-- `GetSparseRowOfBInvertedTimesA` (lpi_glop.cc:1077-1095). -/
def getSparseRowOfBInvertedTimesA (g : Interface) (inverse : Nat → Scattered) (eps : ℚ) (row : Nat) :
    Outcome SparseVector :=
  collect (atLeast eps)
    (fun c => match g.lp.cols[c]? with
      | some col => scalarProduct (inverse row).values col.entries
      | none => .ub)
    g.lp.cols.length 0 {}

/-- `GetSparseColumnOfBInvertedTimesA` (lpi_glop.cc:1097-1135).  `solved c` is `tmp_column_` after
`RightSolveForProblemColumn` and `UnscaleColumnRightSolve`. -/
def getSparseColumnOfBInvertedTimesA (g : Interface) (solved : Nat → Scattered) (eps : ℚ) (col : Nat) :
    Outcome SparseVector :=
  if (solved col).nonZeros ≠ [] then
    Soplex.addIndexed (solved col).values {} (solved col).nonZeros
  else
    collect (above eps) (fun i => Soplex.denseAt (solved col).values i) g.lp.rows.length 0 {}

end Glop

namespace Soplex

/-- `GetSparseRowOfBInvertedTimesA` (lpi_soplex.cc:1582-1615).  `inverse r` is what
`getBasisInverseRowReal` leaves behind, `none` if it returns false; SoPlex hands out the non-zeros of
a column in the order `order`. -/
def getSparseRowOfBInvertedTimesA (order : List Entry → List Entry) (g : Interface)
    (inverse : Nat → Option InverseRow) (eps : ℚ) (row : Nat) : Outcome SparseVector := do
  Outcome.check (freed g)
  match inverse row with
  | none => .error "Error"
  | some a =>
    collect (Glop.above eps)
      (fun c => match g.lp.cols[c]? with
        | some col => scalarProduct a.dense (order col.entries)
        | none => .ub)
      g.lp.cols.length 0 {}

/-- `GetSparseColumnOfBInvertedTimesA` (lpi_soplex.cc:1622-1661).  `timesVec` is
`getBasisInverseTimesVecReal`, applied to the dense column, `none` if it returns false. -/
def getSparseColumnOfBInvertedTimesA (order : List Entry → List Entry) (g : Interface)
    (timesVec : List ℚ → Option (List ℚ)) (eps : ℚ) (col : Nat) : Outcome SparseVector := do
  Outcome.check (freed g)
  match g.lp.cols[col]? with
  | none => .ub
  | some c =>
    let column ← objectiveVector (List.replicate g.lp.rows.length 0) (order c.entries)
    match timesVec column with
    | none => .error "Error"
    | some x => collect (Glop.above eps) (fun i => denseAt x i) g.lp.rows.length 0 {}

end Soplex
end MiniMip
