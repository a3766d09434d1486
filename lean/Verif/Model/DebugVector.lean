import Verif.Model.ArithVector

/-!
# `StrongSparseVectorOfDoubles` in the build with assertions

The functions of `Model/ArithVector.lean`, over any arithmetic, with every assertion of strong_sparse_vector.h.
-/

namespace MiniMip
namespace AVector
variable {α : Type}

/-- The calls on a vector.  `mutate l` is `mutable_entries()` followed by changes that leave the entries `l`; `neg` assigns
the result of the unary `operator-` to the vector; `addMultiple` also stands for `+=` and `-=`, with another object as
argument. -/
inductive Call (α : Type) where
  | addEntry (i : Int) (x : α)
  | cleanUp
  | clear
  | mayNeedCleaning
  | mutate (l : List (AEntry α))
  | transform (f : Int → α → α)
  | neg
  | scale (s : α)
  | divide (s : α)
  | addMultiple (s : α) (w : AVector α)
  | entries
  | indices
  | values
  | value (i : Int)
  | firstIndex
  | lastIndex
  | dotProduct (w : AVector α)

/-- What a call returns. -/
inductive Answer (α : Type) where
  | nothing
  | entries (l : List (AEntry α))
  | indices (l : List Int)
  | values (l : List α)
  | number (x : α)
  | index (i : Int)
  | flag (b : Bool)
  deriving DecidableEq

/-- `first_index` (strong_sparse_vector.h:266-270). -/
def firstIndex (v : AVector α) : Int :=
  match v.entries.head? with
  | none => -1
  | some e => e.index

/-- One call in a build without assertions (strong_sparse_vector.h:135-435). -/
def release (A : Arith α) (v : AVector α) : Call α → Outcome (AVector α × Answer α)
  | .addEntry i x => .ok (v.addEntry A i x, .nothing)
  | .cleanUp => .ok (v.cleanUpIfNeeded A, .nothing)
  | .clear => .ok (⟨[], false⟩, .nothing)
  | .mayNeedCleaning => .ok (v, .flag v.dirty)
  | .mutate l => .ok (⟨l, true⟩, .nothing)
  | .transform f => .ok (v.transform A f, .nothing)
  | .neg => .ok (v.neg A, .nothing)
  | .scale s => .ok (v.scale A s, .nothing)
  | .divide s => .ok (v.divide A s, .nothing)
  | .addMultiple s w => do return (← v.addMultiple A s w, .nothing)
  | .entries => .ok (v, .entries v.entries)
  | .indices => .ok (v, .indices (v.entries.map (·.index)))
  | .values => .ok (v, .values (v.entries.map (·.value)))
  | .value i => .ok (v, .number (v.value A i))
  | .firstIndex => .ok (v, .index v.firstIndex)
  | .lastIndex => .ok (v, .index v.lastIndex)
  | .dotProduct w => .ok (v, .number (v.dotProduct A w))

/-- `MayNeedCleaning` (strong_sparse_vector.h:250-258). -/
def debugMayNeed (A : Arith α) (v : AVector α) : Outcome Bool := do
  Outcome.check (v.isClean A || v.dirty)
  return v.dirty

/-- The assertion `!MayNeedCleaning()` (strong_sparse_vector.h:138, 149, 158, 169). -/
def debugAssertClean (A : Arith α) (v : AVector α) : Outcome Unit := do
  Outcome.check (!(← v.debugMayNeed A))

/-- The assertions of one call: lines 138, 149, 158, 169, 202, 256, 261, 267, 295, 305, 312, 328-329, 369-370 and
418-419 of strong_sparse_vector.h. -/
def assertions (A : Arith α) (v : AVector α) : Call α → Outcome Unit
  | .addEntry _ _ => .ok ()
  | .clear => .ok ()
  | .cleanUp => do let _ ← v.debugMayNeed A
  | .mayNeedCleaning => do let _ ← v.debugMayNeed A
  | .mutate _ => v.debugAssertClean A
  | .entries => v.debugAssertClean A
  | .indices => v.debugAssertClean A
  | .values => v.debugAssertClean A
  | .divide s => do
    Outcome.check (!v.dirty)
    Outcome.check (!A.isZero s)
  | .addMultiple _ w => do
    Outcome.check (!v.dirty)
    Outcome.check (!w.dirty)
  | .dotProduct w => do
    Outcome.check (!v.dirty)
    Outcome.check (!w.dirty)
  | .transform _ => Outcome.check (!v.dirty)
  | .neg => Outcome.check (!v.dirty)
  | .scale _ => Outcome.check (!v.dirty)
  | .value _ => Outcome.check (!v.dirty)
  | .firstIndex => Outcome.check (!v.dirty)
  | .lastIndex => Outcome.check (!v.dirty)

/-- One call in a build with assertions.  All assertions come before any effect. -/
def debug (A : Arith α) (v : AVector α) (c : Call α) : Outcome (AVector α × Answer α) := do
  v.assertions A c
  v.release A c

/-- The constructor from entries (strong_sparse_vector.h:118-124) in a build with assertions: entries are cleaned, and
afterwards `IsClean` is asserted. -/
def debugOfEntries (A : Arith α) (l : List (AEntry α)) : Outcome (AVector α) := do
  let _ ← (⟨l, true⟩ : AVector α).debugMayNeed A
  let v := (⟨l, true⟩ : AVector α).cleanUpIfNeeded A
  Outcome.check (v.isClean A)
  return v

/-- A history of calls; `f` is `release` or `debug`. -/
def run (f : AVector α → Call α → Outcome (AVector α × Answer α)) (v : AVector α) :
    List (Call α) → Outcome (AVector α × List (Answer α))
  | [] => .ok (v, [])
  | c :: r => do
    let (v, a) ← f v c
    let (v, as) ← run f v r
    return (v, a :: as)

end AVector
end MiniMip
