import Verif.Model.CutRegistry

/-!
# The cut registry in the build with assertions

The functions of `CutRegistry` with their assertions, including those of `DotProduct` (strong_sparse_vector.h:418-419).
-/

namespace MiniMip
namespace CutRegistry

/-- The assertions on an index (cuts_data.cc:89-90, 96-97, 125-126). -/
def checkIndex (r : CutRegistry) (i : Int) : Outcome Unit := do
  Outcome.check (decide (0 ≤ i))
  Outcome.check (decide (i < r.cuts.length))

/-- `ActivateCut` (cuts_data.cc:87-92). -/
def debugActivateCut (r : CutRegistry) (i : Int) : Outcome CutRegistry := do
  r.checkIndex i
  return r.activateCut i

/-- `RemoveCut` (cuts_data.cc:94-121). -/
def debugRemoveCut (r : CutRegistry) (arg : Arg) : Outcome CutRegistry := do
  let i ← arg.read r.activeIndices
  r.checkIndex i
  r.removeCut arg

/-- `GetCut` (cuts_data.cc:124-128). -/
def debugGetCut (r : CutRegistry) (i : Int) : Outcome CutData := do
  r.checkIndex i
  r.getCut i

/-- The loop of `UpdateCutEfficacy` (cuts_data.cc:132-135): the assertions of the two dot products of every cut. -/
def checkRows (x : SparseVector) : List CutData → Outcome Unit
  | [] => .ok ()
  | c :: r => do
    Outcome.check (!c.row.dirty)
    Outcome.check (!x.dirty)
    checkRows x r

/-- `UpdateCutEfficacy` (cuts_data.cc:130-136). -/
noncomputable def debugUpdateCutEfficacy (r : CutRegistry) (x : SparseVector) : Outcome CutRegistry := do
  checkRows x r.cuts
  return r.updateCutEfficacy x

/-- A caller's loop `for (int i : active_cuts()) GetCut(i)` over the active cuts (cuts_data.h:211-213, cuts_data.cc:124-128). -/
def debugReadAll (r : CutRegistry) : List Int → Outcome (List CutData)
  | [] => .ok []
  | i :: l => do
    let c ← r.debugGetCut i
    return c :: (← r.debugReadAll l)

end CutRegistry
end MiniMip
