import Verif.Model.MipTree

/-!
# The unit tests of the search tree, run on the model

unit_tests/data_structures/mip_tree_test.cc, test by test (see `Verif.Check.SparseVectorTest`).  A death test expects a failed
`CHECK`, which is `Outcome.abort`.
-/

namespace MiniMip
namespace Check
namespace MipTreeTest

open MipTree (init)

-- Initialization (mip_tree_test.cc:25-33)
example : init.isEmpty = false ∧ (do let d ← init.node 0; return (d.depth, d.parent)) = .ok (0, -1) := by decide +kernel

-- BasicBranchingFromRoot (mip_tree_test.cc:35-54)
example : (do
    let (t, n) ← init.addNode 0 1 true (.fin 1.5)
    let d ← t.node n
    let r ← t.node 0
    let c ← t.numOpenChildren 0
    return d.parent = 0 && d.branchVariable = 1 && d.branchDown && d.branchValue = Dbl.fin 1.5 &&
      d.depth = r.depth + 1 && c = 1) = .ok true := by decide +kernel

-- EnforceBinarySearchTree (mip_tree_test.cc:56-70)
example : (do
    let (t, _) ← init.addNode 0 2 false (.fin 3)
    let (t, _) ← t.addNode 0 2 true (.fin 3)
    return t.numOpenChildren 0) = .ok (.ok 2) := by decide +kernel
example : (do
    let (t, _) ← init.addNode 0 2 false (.fin 3)
    let (t, _) ← t.addNode 0 2 true (.fin 3)
    t.addNode 0 2 true (.fin 2)) = .abort := by decide +kernel

-- BranchingWithInvalidParent (mip_tree_test.cc:72-80)
example : init.addNode 999 1 true (.fin 1) = .abort := by decide +kernel

-- CloseAndReclaimNodeAtRoot (mip_tree_test.cc:82-101)
example : (do
    let (t, child1) ← init.addNode 0 1 true (.fin 1.5)
    let (t, child2) ← t.addNode 0 1 false (.fin 1.5)
    let a := t.isEmpty
    let t ← t.close child2
    let b := t.isEmpty
    let n := t.numClosedNodes
    let t ← t.close child1
    return (a, b, n, t.isEmpty)) = .ok (false, false, 1, true) := by decide +kernel

-- CloseAndReclaimMultipleNodesUpToRoot (mip_tree_test.cc:107-151)
example : (do
    let (t, child) ← init.addNode 0 1 true (.fin 1.5)
    let (t, grandchild1) ← t.addNode child 2 true (.fin 2.5)
    let (t, grandchild2) ← t.addNode child 2 false (.fin 2.5)
    let (t, grandGrandchild) ← t.addNode grandchild1 3 true (.fin 3.5)
    let (t, last) ← t.addNode grandGrandchild 4 true (.fin 3.5)
    let d0 ← t.node 0
    let d1 ← t.node child
    let d2 ← t.node grandchild1
    let d3 ← t.node grandchild2
    let d4 ← t.node grandGrandchild
    let d5 ← t.node last
    let t ← t.close last
    let n := t.numClosedNodes
    let t ← t.close grandchild2
    return ([d0, d1, d2, d3, d4, d5].map NodeData.depth, n, t.isEmpty, t.numClosedNodes)) =
    .ok ([0, 1, 2, 2, 3, 4], 3, true, 6) := by decide +kernel

-- SetLpRelaxationData (mip_tree_test.cc:153-161)
example : (do
    let (t, n) ← init.addNode 0 1 true (.fin 1.5)
    let t ← t.setLpData n (.fin (-123.45))
    let d ← t.node n
    return d.lpObjective) = .ok (.fin (-123.45)) := by decide +kernel

-- ImpliedBoundsHandling (mip_tree_test.cc:163-188); `push_back((ColIndex(0), -kInf))` is a comma expression and adds `-kInf`
example : (do
    let (t, n) ← init.addNode 0 0 true (.fin 1.5)
    let l1 ← t.retrieveLower n [.ninf]
    let u1 ← t.retrieveUpper n [.pinf]
    let t ← t.setImpliedBounds n [(0, .fin 4)] [(0, .fin 5)]
    let l2 ← t.retrieveLower n [.ninf]
    let u2 ← t.retrieveUpper n [.pinf]
    return (l1, u1, l2, u2)) = .ok ([.ninf], [.fin 1], [.fin 4], [.fin 1]) := by decide +kernel

end MipTreeTest
end Check
end MiniMip
