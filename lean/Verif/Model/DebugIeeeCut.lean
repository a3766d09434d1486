import Verif.Model.IeeeSelector

/-!
# Creating a cut in a debug build, in floating-point arithmetic

`Verif.Model.IeeeSelector` models `CreateCut` (minimip/data_structures/cuts_data.cc) as a release build runs it.  A debug
build checks the vectors of the scalar products and, in the constructor of `CutData` (minimip/data_structures/cuts_data.h),
the data of the cut.  A failed `DCHECK` ends the program.
-/

namespace MiniMip
namespace Ieee

/-- The assertions of the constructor of `CutData` (cuts_data.h:115-122).  Comparisons with NaN are false. -/
def cutDataChecks (c : CutF) : Bool :=
  c.row.isClean .ieee && Dbl.lt .ninf c.rhs && decide (0 < c.numNonZeros) && decide (0 ≤ c.numIntegers) &&
    Dbl.le (.fin (-1)) c.objectiveParallelism && Dbl.le c.objectiveParallelism (.fin 1) &&
    Dbl.le (.fin 0) c.efficacy && !c.name.isEmpty

/-- `CreateCut` (cuts_data.cc:34-63) in a debug build, with the assertions of `DotProduct` on its two vectors
(strong_sparse_vector.h:418-419) and those of the constructor of `CutData`. -/
def debugCreateCut (s : SqrtCode) (objective : Vec) (isInteger : Int → Bool) (lpOptimum row : Vec) (rhs : Dbl)
    (name : String) (forced : Bool) : Outcome CutF :=
  if row.dirty || objective.dirty || lpOptimum.dirty then .abort
  else
    let c := createCut s objective isInteger lpOptimum row rhs name forced
    if cutDataChecks c then .ok c else .abort

end Ieee
end MiniMip
