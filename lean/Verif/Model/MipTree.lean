import Verif.Model.Outcome
import Verif.Model.Dbl

/-!
# `MipTree` (minimip/data_structures/mip_tree.{h,cc})

`NodeIndex` is a strong `int`: modelled by `Int`, so that the invalid index `-1` and
accesses at `-1` can be expressed.  Indexing a `StrongVector` outside its range is `ub`.
-/

namespace MiniMip

/-- `v[i]`: undefined behaviour outside the range. -/
def vecGet {α : Type} (l : List α) (i : Int) : Outcome α :=
  if 0 ≤ i then
    match l[i.toNat]? with
    | some x => .ok x
    | none => .ub
  else .ub

/-- `v[i] = x`: undefined behaviour outside the range. -/
def vecSet {α : Type} (l : List α) (i : Int) (x : α) : Outcome (List α) :=
  if 0 ≤ i ∧ i.toNat < l.length then .ok (l.set i.toNat x) else .ub

/-- `NodeData` (mip_tree.h:49-101). -/
structure NodeData where
  parent : Int := -1
  depth : Int := -1
  nCutsAdded : Int := 0
  nSeparationRounds : Int := 0
  branchVariable : Int := -1
  branchDown : Bool := false
  branchValue : Dbl := .fin 0
  lpObjective : Dbl := .ninf
  impliedLower : List (Int × Dbl) := []
  impliedUpper : List (Int × Dbl) := []
  deriving Repr, DecidableEq

/-- The data members of `MipTree` (mip_tree.h:196-219). -/
structure MipTree where
  nodes : List NodeData
  openChildren : List Int
  nextFree : Int
  numClosed : Int := 0
  deriving Repr, DecidableEq

namespace MipTree

/-- Constructor (mip_tree.cc:21-30). -/
def init : MipTree :=
  { nodes := [{ ({} : NodeData) with depth := 0 }, {}], openChildren := [0, 0], nextFree := 1 }

/-- The common prologue `CHECK_GE(n, kRootNode); CHECK_LT(n, size); CHECK(NodeIsActive(n))`
(e.g. mip_tree.cc:36-38); returns the node's data. -/
def checkedNode (t : MipTree) (n : Int) : Outcome NodeData := do
  Outcome.check (0 ≤ n)
  Outcome.check (n < t.nodes.length)
  let d ← vecGet t.nodes n
  Outcome.check (d.depth ≥ 0)
  return d

/-- `node(n)` (mip_tree.h:137-142). -/
def node (t : MipTree) (n : Int) : Outcome NodeData := t.checkedNode n

/-- Growth by one slot when the free list is empty (mip_tree.cc:40-44). -/
def grow (t : MipTree) : MipTree :=
  if t.nextFree = -1 then
    { t with
      nodes := t.nodes ++ [({} : NodeData)]
      openChildren := t.openChildren ++ [0]
      nextFree := t.nodes.length }
  else t

/-- `AddNodeByBranchingFromParent` (mip_tree.cc:32-60). -/
def addNode (t : MipTree) (parent : Int) (var : Int) (down : Bool) (value : Dbl) :
    Outcome (MipTree × Int) := do
  let _ ← t.checkedNode parent
  let t := t.grow
  let n := t.nextFree
  let slot ← vecGet t.nodes n
  let nextFree := slot.parent
  Outcome.check (!decide (slot.depth ≥ 0))
  -- lines 49-53: the assignments are made one by one; the depth is read from the parent
  -- after the parent link has been stored
  let nodes ← vecSet t.nodes n
    { slot with parent := parent, branchVariable := var, branchDown := down, branchValue := value }
  let p ← vecGet nodes parent
  let cur ← vecGet nodes n
  let nodes ← vecSet nodes n { cur with depth := p.depth + 1 }
  let c ← vecGet t.openChildren parent
  Outcome.check (0 ≤ c)
  Outcome.check (c ≤ 1)
  let oc ← vecSet t.openChildren parent (c + 1)
  let oc ← vecSet oc n 0
  return ({ t with nodes := nodes, openChildren := oc, nextFree := nextFree }, n)

/-- The `while (true)` loop of `CloseNodeAndReclaimNodesUpToRootIfPossible`
(mip_tree.cc:76-97).  `fuel` bounds the number of rounds; running out of it stands for a
loop that never ends and is reported as `ub` (the theorems show it does not happen). -/
def reclaim : Nat → MipTree → Int → Outcome MipTree
  | 0, _, _ => .ub
  | fuel + 1, t, n => do
    let c ← vecGet t.openChildren n
    if c > 0 then return t
    else
      let d ← vecGet t.nodes n
      let parent := d.parent
      let nodes ← vecSet t.nodes n { ({} : NodeData) with parent := t.nextFree }
      let oc ← if parent ≠ -1 then do
          let pc ← vecGet t.openChildren parent
          vecSet t.openChildren parent (pc - 1)
        else pure t.openChildren
      let t' : MipTree := ⟨nodes, oc, n, t.numClosed + 1⟩
      if parent = -1 then return t' else reclaim fuel t' parent

/-- `CloseNodeAndReclaimNodesUpToRootIfPossible` (mip_tree.cc:62-98).  Lines 73-74 read the
counter of the parent, whatever the parent is. -/
def close (t : MipTree) (n : Int) : Outcome MipTree := do
  let d ← t.checkedNode n
  let c ← vecGet t.openChildren n
  Outcome.check (c = 0 || c = 2)
  let pc ← vecGet t.openChildren d.parent
  Outcome.check (0 ≤ pc)
  Outcome.check (pc ≤ 2)
  reclaim (t.nodes.length + 1) t n

/-- `SetLpRelaxationDataInNode` (mip_tree.cc:100-110). -/
def setLpData (t : MipTree) (n : Int) (obj : Dbl) : Outcome MipTree := do
  let d ← t.checkedNode n
  let c ← vecGet t.openChildren n
  Outcome.check (c = 0)
  let nodes ← vecSet t.nodes n { d with lpObjective := obj }
  return { t with nodes := nodes }

/-- `SetImpliedVariableBoundsInNode` (mip_tree.cc:112-124). -/
def setImpliedBounds (t : MipTree) (n : Int) (lo up : List (Int × Dbl)) : Outcome MipTree := do
  let d ← t.checkedNode n
  let c ← vecGet t.openChildren n
  Outcome.check (c = 0)
  let nodes ← vecSet t.nodes n { d with impliedLower := lo, impliedUpper := up }
  return { t with nodes := nodes }

/-- `TreeIsEmpty` (mip_tree.h:124-129). -/
def isEmpty (t : MipTree) : Bool := t.nextFree = 0

/-- `num_closed_nodes` (mip_tree.h:177). -/
def numClosedNodes (t : MipTree) : Int := t.numClosed
/-- `num_added_nodes` (mip_tree.h:180). -/
def numAddedNodes (t : MipTree) : Int := t.nodes.length - 1
/-- `num_open_children` (mip_tree.h:183-186). -/
def numOpenChildren (t : MipTree) (n : Int) : Outcome Int := vecGet t.openChildren n

/-- Loop over the implied lower bounds of one node (mip_tree.cc:134-136). -/
def mergeLower (b : List Dbl) : List (Int × Dbl) → Outcome (List Dbl)
  | [] => .ok b
  | (c, v) :: r => do
    let old ← vecGet b c
    let b ← vecSet b c (Dbl.max old v)
    mergeLower b r

/-- Loop over the implied upper bounds of one node (mip_tree.cc:154-156). -/
def mergeUpper (b : List Dbl) : List (Int × Dbl) → Outcome (List Dbl)
  | [] => .ok b
  | (c, v) :: r => do
    let old ← vecGet b c
    let b ← vecSet b c (Dbl.min old v)
    mergeUpper b r

/-- The branching decision of one node, lower bounds (mip_tree.cc:137-141). -/
def branchLower (b : List Dbl) (d : NodeData) : Outcome (List Dbl) :=
  if !d.branchDown ∧ d.branchVariable ≥ 0 then do
    let old ← vecGet b d.branchVariable
    vecSet b d.branchVariable (Dbl.max old (Dbl.ceil d.branchValue))
  else .ok b

/-- The branching decision of one node, upper bounds (mip_tree.cc:157-161). -/
def branchUpper (b : List Dbl) (d : NodeData) : Outcome (List Dbl) :=
  if d.branchDown then do
    let old ← vecGet b d.branchVariable
    vecSet b d.branchVariable (Dbl.min old (Dbl.floor d.branchValue))
  else .ok b

/-- Loop of `RetrieveLowerBounds` (mip_tree.cc:133-142), with fuel as in `reclaim`. -/
def walkLower : Nat → MipTree → Int → List Dbl → Outcome (List Dbl)
  | 0, _, n, b => if n = -1 then .ok b else .ub
  | fuel + 1, t, n, b =>
    if n = -1 then .ok b
    else do
      let d ← vecGet t.nodes n
      let b ← mergeLower b d.impliedLower
      let b ← branchLower b d
      walkLower fuel t d.parent b

/-- `RetrieveLowerBounds` (mip_tree.cc:126-144). -/
def retrieveLower (t : MipTree) (n : Int) (root : List Dbl) : Outcome (List Dbl) := do
  let _ ← t.checkedNode n
  walkLower t.nodes.length t n root

/-- Loop of `RetrieveUpperBounds` (mip_tree.cc:153-162), with fuel as in `reclaim`. -/
def walkUpper : Nat → MipTree → Int → List Dbl → Outcome (List Dbl)
  | 0, _, n, b => if n = -1 then .ok b else .ub
  | fuel + 1, t, n, b =>
    if n = -1 then .ok b
    else do
      let d ← vecGet t.nodes n
      let b ← mergeUpper b d.impliedUpper
      let b ← branchUpper b d
      walkUpper fuel t d.parent b

/-- `RetrieveUpperBounds` (mip_tree.cc:146-164). -/
def retrieveUpper (t : MipTree) (n : Int) (root : List Dbl) : Outcome (List Dbl) := do
  let _ ← t.checkedNode n
  walkUpper t.nodes.length t n root

end MipTree

end MiniMip
