import Verif.Props.SolverWitness
import Verif.Props.SolverEnds
import Verif.Lemmas.SolverGuard

/-!
# C84: calling `Solve` again

`Solve` starts from the root node of the tree it finds (solver.cc:30), not from a new tree.  After a run that
branched, that root has children or has been reclaimed.
-/

namespace MiniMip
namespace Solver

variable {W : Type}

/-- The root is not active or has open children. -/
def RootBusy (t : MipTree) : Prop :=
  ∀ d, t.nodes[0]? = some d → 0 ≤ d.depth → ∃ c, t.openChildren[0]? = some c ∧ 0 < c

theorem vecSet_eq_ok {α : Type} {l l' : List α} {i : Int} {x : α} (h : vecSet l i x = .ok l') :
    ∃ n : Nat, i = n ∧ n < l.length ∧ l' = l.set n x := by
  unfold vecSet at h
  split at h
  · rename_i h1
    exact ⟨i.toNat, by omega, h1.2, (Outcome.ok.inj h).symm⟩
  · cases h

theorem reclaim_busy : ∀ (fuel : Nat) (t t' : MipTree) (n : Int), (n ≠ 0 → RootBusy t) →
    MipTree.reclaim fuel t n = .ok t' → RootBusy t'
  | 0, _, _, _, _, h => by cases h
  | fuel + 1, t, t', n, hb, h => by
    unfold MipTree.reclaim at h
    simp only [Outcome.bind_eq_ok] at h
    obtain ⟨c, hc, h⟩ := h
    split at h
    · rename_i hpos
      have h := Outcome.ok.inj h
      subst h
      by_cases hn : n = 0
      · subst hn
        obtain ⟨k, hk, hk'⟩ := vecGet_eq_ok hc
        obtain rfl : k = 0 := by omega
        exact fun _ _ _ => ⟨c, hk', hpos⟩
      · exact hb hn
    · simp only [Outcome.bind_eq_ok] at h
      obtain ⟨d, -, nodes, hnodes, h⟩ := h
      obtain ⟨k, hk, hklt, rfl⟩ := vecSet_eq_ok hnodes
      -- the root keeps a child unless it is the parent
      have hbusy : ∀ oc : List Int, (∀ c, t.openChildren[0]? = some c → oc[0]? = some c) →
          RootBusy ⟨t.nodes.set k { ({} : NodeData) with parent := t.nextFree }, oc, n, t.numClosed + 1⟩ := by
        intro oc hoc d0 h0 hd0
        by_cases hk0 : k = 0
        · subst hk0
          rw [List.getElem?_set_self hklt] at h0
          cases h0
          simp at hd0
        · rw [List.getElem?_set_ne hk0] at h0
          obtain ⟨c0, hc0, hpos0⟩ := hb (by omega) d0 h0 hd0
          exact ⟨c0, hoc c0 hc0, hpos0⟩
      by_cases hp : d.parent = -1
      · simp only [hp, ne_eq, not_true_eq_false, if_false, if_true] at h
        rw [← Outcome.ok.inj h]
        exact hbusy _ fun _ h => h
      · simp only [hp, ne_eq, not_false_eq_true, if_true, if_false, Outcome.bind_eq_ok] at h
        obtain ⟨pc, hpc, oc, hoc, h⟩ := h
        obtain ⟨j, hj, hjlt, rfl⟩ := vecSet_eq_ok hoc
        refine reclaim_busy fuel _ t' d.parent (fun hp => hbusy _ fun c hc => ?_) h
        rw [List.getElem?_set_ne (by rintro rfl; omega)]
        exact hc

theorem close_busy {t t' : MipTree} {n : Int} (hb : RootBusy t) (h : t.close n = .ok t') :
    RootBusy t' := by
  unfold MipTree.close at h
  simp only [Outcome.bind_eq_ok] at h
  obtain ⟨d, -, c, -, -, -, pc, -, -, -, -, -, h⟩ := h
  exact reclaim_busy _ _ _ _ (fun _ => hb) h

theorem setLpData_children {t t' : MipTree} {n : Int} {obj : Dbl} (h : t.setLpData n obj = .ok t') :
    t'.openChildren = t.openChildren ∧ t'.nodes.length = t.nodes.length ∧
    (∀ (i : Nat) (d' : NodeData), t'.nodes[i]? = some d' → ∃ d, t.nodes[i]? = some d ∧ d.depth = d'.depth) ∧
    ∃ k : Nat, n = k ∧ (∃ d, t.nodes[k]? = some d ∧ 0 ≤ d.depth) ∧ t.openChildren[k]? = some 0 := by
  unfold MipTree.setLpData MipTree.checkedNode at h
  simp only [Outcome.bind_eq_ok] at h
  obtain ⟨d, ⟨_, -, _, -, d', hd', _, hdep, hd⟩, c, hc, _, hc0, nodes, hn, h⟩ := h
  obtain rfl := Outcome.ok.inj hd
  obtain ⟨k, hk, hlt, rfl⟩ := vecSet_eq_ok hn
  rw [← Outcome.ok.inj h]
  obtain ⟨k1, hk1, hd1⟩ := vecGet_eq_ok hd'
  obtain ⟨k2, hk2, hd2⟩ := vecGet_eq_ok hc
  obtain rfl : k1 = k := by omega
  obtain rfl : k2 = k1 := by omega
  refine ⟨rfl, by simp, ?_, k2, hk, ⟨d', hd1, ?_⟩, ?_⟩
  · intro i e hi
    simp only [List.getElem?_set] at hi
    split at hi
    · rename_i hki
      subst hki
      cases hi
      exact ⟨d', hd1, rfl⟩
    · exact ⟨e, hi, rfl⟩
  · simpa using Outcome.check_eq_ok.1 hdep
  · have h0 : c = 0 := by simpa using Outcome.check_eq_ok.1 hc0
    rw [← h0]; exact hd2

theorem setLpData_busy {t t' : MipTree} {n : Int} {obj : Dbl} (hb : RootBusy t) (h : t.setLpData n obj = .ok t') :
    RootBusy t' := by
  obtain ⟨h1, -, h2, -⟩ := setLpData_children h
  intro d' hd' hdep
  obtain ⟨d, hd, he⟩ := h2 0 d' hd'
  rw [h1]
  exact hb d hd (by omega)

/-- Storing the LP value of a busy root fails. -/
theorem setLpData_root {t t' : MipTree} {obj : Dbl} (hb : RootBusy t) : t.setLpData 0 obj ≠ .ok t' := by
  intro h
  obtain ⟨-, -, -, k, hk, ⟨d, hd, hdep⟩, hc⟩ := setLpData_children h
  obtain rfl : k = 0 := by omega
  obtain ⟨c, hc', hpos⟩ := hb d hd hdep
  rw [hc] at hc'
  cases hc'
  omega

/-- Adding a child while the root is active: the root is busy afterwards if it was before or is the parent. -/
theorem addNode_busy {t t' : MipTree} {p n var : Int} {down : Bool} {v : Dbl}
    (hroot : ∃ d, t.nodes[0]? = some d ∧ 0 ≤ d.depth) (hb : RootBusy t ∨ p = 0)
    (h : t.addNode p var down v = .ok (t', n)) :
    RootBusy t' ∧ ∃ d, t'.nodes[0]? = some d ∧ 0 ≤ d.depth := by
  obtain ⟨d0, hd0, hdep0⟩ := hroot
  have hlen0 : 0 < t.nodes.length := (List.getElem?_eq_some_iff.1 hd0).1
  have hg1 : t.grow.nodes[0]? = some d0 := by
    unfold MipTree.grow
    split
    · simp only; rw [List.getElem?_append_left hlen0]; exact hd0
    · exact hd0
  have hg2 : ∀ c, t.openChildren[0]? = some c → t.grow.openChildren[0]? = some c := by
    intro c hc
    unfold MipTree.grow
    split
    · simp only; rw [List.getElem?_append_left (List.getElem?_eq_some_iff.1 hc).1]; exact hc
    · exact hc
  unfold MipTree.addNode at h
  simp only [Outcome.bind_eq_ok] at h
  obtain ⟨_, -, slot, hslot, _, hfree, nodes, hnodes, dp, hdp, cur, hcur, nodes', hnodes', c, hc, _, hc0, _, hc1,
    oc, hoc, oc', hoc', h⟩ := h
  have h := Outcome.ok.inj h
  obtain ⟨k, hk, hklt, rfl⟩ := vecSet_eq_ok hnodes
  obtain ⟨k', hk', hklt', rfl⟩ := vecSet_eq_ok hnodes'
  obtain rfl : k' = k := by omega
  obtain ⟨j, hj, hjlt, rfl⟩ := vecSet_eq_ok hoc
  obtain ⟨j', hj', hjlt', rfl⟩ := vecSet_eq_ok hoc'
  obtain rfl : j' = k' := by omega
  obtain ⟨i, hi, hci⟩ := vecGet_eq_ok hc
  obtain rfl : i = j := by omega
  obtain ⟨i', hi', hsl⟩ := vecGet_eq_ok hslot
  obtain rfl : i' = j' := by omega
  have hne : i' ≠ 0 := by
    rintro rfl
    rw [hg1] at hsl
    cases hsl
    have := Outcome.check_eq_ok.1 hfree
    simp at this
    omega
  have ht1 := congrArg (fun x => MipTree.nodes (Prod.fst x)) h
  have ht2 := congrArg (fun x => MipTree.openChildren (Prod.fst x)) h
  simp only at ht1 ht2
  have hn0 : t'.nodes[0]? = some d0 := by
    rw [← ht1, List.getElem?_set_ne hne, List.getElem?_set_ne hne]
    exact hg1
  refine ⟨?_, d0, hn0, hdep0⟩
  intro d hd hdep
  rw [← ht2, List.getElem?_set_ne hne]
  have hc0' : 0 ≤ c := by simpa using Outcome.check_eq_ok.1 hc0
  by_cases hi0 : i = 0
  · subst hi0
    rw [List.getElem?_set_self hjlt]
    exact ⟨_, rfl, by omega⟩
  · rw [List.getElem?_set_ne hi0]
    rcases hb with hb | hb
    · obtain ⟨c', hc', hpos⟩ := hb d0 hd0 hdep0
      exact ⟨c', hg2 c' hc', hpos⟩
    · omega

/-- One iteration from a state with a busy root, or the branching of the root. -/
theorem iterate_busy {o : Oracle W} {d : MipData} {prm : Params} {s s' : State W} {bs : List Box}
    (hs : Sim d.lower.length s.queue s.tree bs) (hb : RootBusy s.tree ∨ s.queue = [0])
    (h : iterate o d prm s = .ok (.again s')) : RootBusy s'.tree := by
  obtain ⟨t, q, hinv, -⟩ := hs
  unfold iterate at h
  split at h
  · cases h
  · rename_i node queue hpop
    have hq0 : s.queue = [0] → node = 0 := by
      intro hq
      rw [hq] at hpop
      unfold pop at hpop
      split at hpop <;> simp at hpop <;> exact hpop.1.symm
    have hroot : ∃ d0, s.tree.nodes[0]? = some d0 ∧ 0 ≤ d0.depth := by
      rw [hinv.queue] at hpop
      rcases pop_spec s.backjump q with ⟨h1, rfl⟩ | ⟨n, q', h1, hps⟩
      · rw [h1] at hpop; cases hpop
      · obtain ⟨st, hex⟩ := hinv.exec
        obtain ⟨r0, hr0⟩ := hex.rel.pos (hinv.leaf n (hps.perm.mem_iff.2 (by simp))).1
        have hck := hex.rel.checkedNode hr0
        unfold MipTree.checkedNode at hck
        simp only [Outcome.bind_eq_ok] at hck
        obtain ⟨_, -, _, -, d0, hd0, _, hdep, -⟩ := hck
        obtain ⟨k, hk, hd0⟩ := vecGet_eq_ok hd0
        obtain rfl : k = 0 := by omega
        exact ⟨d0, hd0, by simpa using Outcome.check_eq_ok.1 hdep⟩
    simp only [Outcome.bind_eq_ok] at h
    obtain ⟨lb, -, ub, -, w, -, h⟩ := h
    split at h
    · unfold optimalNode at h
      simp only [Outcome.bind_eq_ok] at h
      obtain ⟨tree, htree, values, -, integral, -, h⟩ := h
      have hroot' : ∃ d0, tree.nodes[0]? = some d0 ∧ 0 ≤ d0.depth := by
        obtain ⟨d0, hd0, hdep⟩ := hroot
        obtain ⟨-, hlen, hdepth, -⟩ := setLpData_children htree
        have hlt : 0 < tree.nodes.length := by
          rw [hlen]; exact (List.getElem?_eq_some_iff.1 hd0).1
        obtain ⟨d1, hd1, he⟩ := hdepth 0 tree.nodes[0] (by simp [hlt])
        rw [hd0] at hd1
        cases hd1
        exact ⟨_, List.getElem?_eq_getElem hlt, by omega⟩
      split at h
      · -- an integral node
        split at h
        · cases h
        · rename_i hne
          have h := Outcome.ok.inj h
          simp only [Step.again.injEq] at h
          rw [← h]
          rcases hb with hb | hb
          · exact setLpData_busy hb htree
          · exact absurd (hq0 hb) hne
      · -- branching
        unfold branchNode at h
        simp only [Outcome.bind_eq_ok] at h
        obtain ⟨⟨w', col, up⟩, -, v, -, ⟨tree1, down⟩, h1, ⟨tree2, upn⟩, h2, h⟩ := h
        have h := Outcome.ok.inj h
        simp only [Step.again.injEq] at h
        rw [← h]
        have hb1 : RootBusy tree ∨ node = 0 := by
          rcases hb with hb | hb
          · exact Or.inl (setLpData_busy hb htree)
          · exact Or.inr (hq0 hb)
        obtain ⟨hb2, hroot2⟩ := addNode_busy hroot' hb1 h1
        exact (addNode_busy hroot2 (Or.inl hb2) h2).1
    · unfold infeasibleNode at h
      split at h
      · cases h
      · rename_i hne
        simp only [Outcome.bind_eq_ok] at h
        obtain ⟨tree, htree, h⟩ := h
        have hbusy : RootBusy tree := close_busy (hb.resolve_right fun hq => hne (hq0 hq)) htree
        split at h <;> (have h := Outcome.ok.inj h; simp only [Step.again.injEq] at h; rw [← h]; exact hbusy)

/-- After the first iteration the root is busy. -/
theorem reach_busy {o : Oracle W} {d : MipData} {prm : Params} {w : W} (hd : DataOk d)
    (hp : PrimalShape o d.lower.length) {s : State W} (h : Reach o d prm (initial w) s) :
    s = initial w ∨ RootBusy s.tree := by
  induction h with
  | refl => exact Or.inl rfl
  | step hr hi ih =>
    obtain ⟨bs, hsim⟩ := hr.sim hd hp
    right
    refine iterate_busy hsim ?_ hi
    rcases ih with rfl | ih
    · exact Or.inr rfl
    · exact Or.inl ih

/-- An iteration that looks at a busy root does not succeed. -/
theorem iterate_root_fails {o : Oracle W} {d : MipData} {prm : Params} {s : State W} (hq : s.queue = [0])
    (hb : RootBusy s.tree) (res : Step W) : iterate o d prm s ≠ .ok res := by
  intro h
  unfold iterate at h
  split at h
  · rename_i hpop
    rw [hq] at hpop
    unfold pop at hpop
    split at hpop <;> simp at hpop
  · rename_i node queue hpop
    have hn : node = 0 := by
      rw [hq] at hpop
      unfold pop at hpop
      split at hpop <;> simp at hpop <;> exact hpop.1.symm
    subst hn
    simp only [Outcome.bind_eq_ok] at h
    obtain ⟨lb, -, ub, -, w, -, h⟩ := h
    split at h
    · unfold optimalNode at h
      simp only [Outcome.bind_eq_ok] at h
      obtain ⟨tree, htree, -⟩ := h
      exact setLpData_root hb htree
    · simp [infeasibleNode] at h

/-- A run of more than one iteration ends with an empty queue and a busy root. -/
theorem ok_last {o : Oracle W} {d : MipData} {prm : Params} {w : W} (hd : DataOk d)
    (hp : PrimalShape o d.lower.length) {n : Nat} {s : State W}
    (h : solveFuel o d prm n (initial w) = some (.ok s))
    (hmore : ∀ s₁, iterate o d prm (initial w) ≠ .ok (.stop s₁)) :
    ∃ s₁, Reach o d prm (initial w) s₁ ∧ RootBusy s₁.tree ∧ s.tree = s₁.tree ∧ s.world = s₁.world := by
  obtain ⟨s₁, hr, h⟩ := solveFuel_some h
  rcases h with ⟨s₂, h1, h2⟩ | ⟨m, -, h2⟩ | ⟨-, h2⟩ | ⟨-, h2⟩
  · have h2 := Outcome.ok.inj h2
    subst h2
    rcases reach_busy hd hp hr with rfl | hb
    · exact absurd h1 (hmore s₂)
    · obtain ⟨bs, t, q, hinv, -⟩ := hr.sim hd hp
      -- the loop is left with an empty queue: the root is busy, hence not looked at again
      unfold iterate at h1
      split at h1
      · have h1 := Outcome.ok.inj h1
        simp only [Step.stop.injEq] at h1
        subst h1
        exact ⟨s₁, hr, hb, rfl, rfl⟩
      · rename_i node queue hpop
        simp only [Outcome.bind_eq_ok] at h1
        obtain ⟨lb, -, ub, -, w, -, h1⟩ := h1
        split at h1
        · unfold optimalNode at h1
          simp only [Outcome.bind_eq_ok] at h1
          obtain ⟨tree, htree, values, -, integral, -, h1⟩ := h1
          split at h1
          · split at h1
            · rename_i hn
              subst hn
              exact absurd htree (setLpData_root hb)
            · cases h1
          · unfold branchNode at h1
            simp only [Outcome.bind_eq_ok] at h1
            obtain ⟨x, -, v, -, y, -, z, -, h1⟩ := h1
            cases Outcome.ok.inj h1
        · unfold infeasibleNode at h1
          split at h1
          · cases h1
          · simp only [Outcome.bind_eq_ok] at h1
            obtain ⟨tree, -, h1⟩ := h1
            split at h1 <;> cases h1
  · cases h2
  · cases h2
  · cases h2

/-- The tree a run of more than one iteration leaves behind has a busy root. -/
theorem ok_busy {o : Oracle W} {d : MipData} {prm : Params} {w : W} (hd : DataOk d)
    (hp : PrimalShape o d.lower.length) {n : Nat} {s : State W}
    (h : solveFuel o d prm n (initial w) = some (.ok s))
    (hmore : ∀ s₁, iterate o d prm (initial w) ≠ .ok (.stop s₁)) : RootBusy s.tree := by
  obtain ⟨s₁, -, hb, ht, -⟩ := ok_last hd hp h hmore
  rw [ht]; exact hb

/-- **C84 fails.**  Whatever the LP solver, the cut runner and the branching rule answer: if `Solve` returned OK and
did not end in its first iteration (the LP optimum of the root was not integral), then `Solve` called again never
returns OK. -/
theorem C84_never_ok {o : Oracle W} {d : MipData} {prm : Params} {w : W} (hd : DataOk d)
    (hp : PrimalShape o d.lower.length) {n : Nat} {s : State W}
    (h : solveFuel o d prm n (initial w) = some (.ok s))
    (hmore : solveFuel o d prm 1 (initial w) = none) (m : Nat) (s' : State W) :
    solveFuel o d prm m (restart s) ≠ some (.ok s') := by
  have hb := ok_busy hd hp h (fun s₁ hs => by unfold solveFuel at hmore; rw [hs] at hmore; cases hmore)
  intro h2
  cases m with
  | zero => cases h2
  | succ m =>
    have hit := fun res => iterate_root_fails (o := o) (d := d) (prm := prm) (s := restart s) rfl (by exact hb) res
    unfold solveFuel at h2
    split at h2
    · rename_i hi; exact hit _ hi
    · rename_i hi; exact hit _ hi
    all_goals cases h2

/-- If moreover the calls of the LP solver, the cut runner and the branching rule return normally and the LP of the
root is optimal whenever it is solved, the process aborts in the first iteration of the second call. -/
theorem C84_aborts {o : Oracle W} {d : MipData} {prm : Params} {Good : W → Prop} {bounds : W → Int → Dbl × Dbl}
    {Answer : W → Prop} {w : W} (hd : DataOk d) (hp : PrimalShape o d.lower.length) (ho : Responsive o d prm)
    (hc : Contract o Good bounds Answer) (hg : Good w) (hs : StartsAt d bounds w)
    (hroot : ∀ w, Answer w → (∀ x, InBounds d bounds w x ↔ InRootBounds d x) → o.isOptimal w = true) {n : Nat}
    {s : State W} (h : solveFuel o d prm n (initial w) = some (.ok s))
    (hmore : solveFuel o d prm 1 (initial w) = none) (m : Nat) :
    solveFuel o d prm (m + 1) (restart s) = some .abort := by
  obtain ⟨s₁, hr, hb, ht, hw⟩ :=
    ok_last hd hp h (fun s₁ hs => by unfold solveFuel at hmore; rw [hs] at hmore; cases hmore)
  obtain ⟨bs, sols, hi, -⟩ := reach_trans hd hp hc hg hs hr
  obtain ⟨t, q, hinv, -⟩ := hi.sim
  obtain ⟨st, hex⟩ := hinv.exec
  suffices hit : iterate o d prm (restart s) = .abort by
    unfold solveFuel; rw [hit]
  unfold iterate
  show (s.tree.retrieveLower 0 d.lower >>= fun lb => s.tree.retrieveUpper 0 d.upper >>= fun ub =>
      solveNode o d lb ub s.world >>= fun w => if o.isOptimal w then optimalNode o d prm (restart s) 0 [] w
        else infeasibleNode prm (restart s) 0 [] w) = _
  rw [ht, hw]
  cases h0 : t 0 with
  | none =>
    -- the root has been reclaimed
    have : s₁.tree.checkedNode 0 = .abort := by
      unfold MipTree.checkedNode
      by_cases hlen : 0 < s₁.tree.nodes.length
      · have hdead := hex.rel.dead 0 _ (List.getElem?_eq_getElem hlen) h0
        rw [show vecGet s₁.tree.nodes 0 = .ok s₁.tree.nodes[0] from vecGet_some (i := 0) (List.getElem?_eq_getElem hlen),
          hdead]
        simp [Outcome.check, hlen]
      · simp [Outcome.check, hlen]
    simp [MipTree.retrieveLower, this]
  | some r =>
    have hlive : t.Live 0 := ⟨r, h0⟩
    have hlen := hex.rel.dom 0 hlive
    obtain ⟨lb, ub, e1, e2, e3, e4, e5⟩ := MipTree.C17_retrieved_column hex hlive d.lower d.upper hd.len
      (fun m rm _ hrm => hinv.recs.inRange hrm)
    obtain ⟨w', hw'⟩ := solveNode_ok hd ho e3 e4 s₁.world
    have hbs : BoundsSpec d (boxOf t 0) lb ub := by
      refine ⟨e3, e4, fun j y => ?_⟩
      rw [(e5 j y).1, (e5 j y).2]
      unfold boxOf
      constructor
      · rintro ⟨⟨a, b⟩, c, e⟩
        exact ⟨a, c, fun m rm hm hrm => ⟨b m rm hm hrm, e m rm hm hrm⟩⟩
      · rintro ⟨a, b, c⟩
        exact ⟨⟨a, fun m rm hm hrm => (c m rm hm hrm).1⟩, b, fun m rm hm hrm => (c m rm hm hrm).2⟩
    have hopt := hroot w' (solveNode_spec hc hi.good hw').2.1 fun x => by
      rw [inBounds_iff hd hc hbs hi.good hi.kept hw' x]
      exact ⟨fun hx => hx.1, fun hx => ⟨hx, fun n _ => boxOf_root hex hinv.recs hlive n _⟩⟩
    have e1 : s₁.tree.retrieveLower 0 d.lower = .ok lb := e1
    have e2 : s₁.tree.retrieveUpper 0 d.upper = .ok ub := e2
    simp only [e1, e2, hw', Outcome.bind_ok, hopt, if_true]
    unfold optimalNode
    have hnode := hex.rel.live 0 r h0
    have hdep : 0 ≤ r.toNode.depth := by simp [MipTree.Rec.toNode]
    obtain ⟨c, hc0, hpos⟩ := hb _ hnode hdep
    have hset : s₁.tree.setLpData 0 (o.objective w') = .abort := by
      unfold MipTree.setLpData MipTree.checkedNode
      rw [show vecGet s₁.tree.nodes 0 = .ok r.toNode from vecGet_some (i := 0) hnode,
        show vecGet s₁.tree.openChildren 0 = .ok c from vecGet_some (i := 0) hc0]
      simp [Outcome.check, hlen, hdep, show c ≠ 0 by omega]
    show (s.tree.setLpData 0 (o.objective w') >>= _) = _
    rw [ht, hset]
    rfl

/-! ### Calls that end in their first iteration -/

/-- Another `solve_status` in the stored result. -/
def setStatus (s : State W) (x : Option SolveStatus) : State W :=
  { s with result := { s.result with solveStatus := x } }

theorem addSolution_status (r : SolveResult) (x : Option SolveStatus) (sol : Solution) :
    ({ r with solveStatus := x } : SolveResult).addSolution sol = { r.addSolution sol with solveStatus := x } := by
  unfold SolveResult.addSolution
  split
  · split <;> rfl
  · rfl

/-- The status stored has no influence on an iteration. -/
theorem iterate_setStatus (o : Oracle W) (d : MipData) (prm : Params) (s : State W) (x : Option SolveStatus) :
    iterate o d prm (setStatus s x) = (iterate o d prm s >>= fun r => .ok (match r with
      | .again s => .again (setStatus s x)
      | .stop s => .stop (setStatus s x))) := by
  unfold iterate
  show (match pop s.backjump s.queue with | none => _ | some (node, queue) => _) = _
  cases pop s.backjump s.queue with
  | none => rfl
  | some y =>
    obtain ⟨node, queue⟩ := y
    simp only
    show (s.tree.retrieveLower node d.lower >>= fun lb => s.tree.retrieveUpper node d.upper >>= fun ub =>
      solveNode o d lb ub s.world >>= fun w => if o.isOptimal w then optimalNode o d prm (setStatus s x) node queue w
        else infeasibleNode prm (setStatus s x) node queue w) = _
    cases s.tree.retrieveLower node d.lower with
    | ok lb =>
      cases s.tree.retrieveUpper node d.upper with
      | ok ub =>
        simp only [Outcome.bind_ok]
        cases solveNode o d lb ub s.world with
        | ok w =>
          simp only [Outcome.bind_ok]
          split
          · unfold optimalNode
            show (s.tree.setLpData node (o.objective w) >>= _) = _
            cases s.tree.setLpData node (o.objective w) with
            | ok tree =>
              simp only [Outcome.bind_ok]
              cases (o.primal w).orAbort with
              | ok values =>
                simp only [Outcome.bind_ok]
                cases d.solutionIsIntegral values prm.tol with
                | ok b =>
                  simp only [Outcome.bind_ok]
                  cases b with
                  | true =>
                    simp only [if_true]
                    have e : (setStatus s x).result.addSolution ⟨values, o.objective w⟩ =
                      { s.result.addSolution ⟨values, o.objective w⟩ with solveStatus := x } :=
                      addSolution_status _ _ _
                    split
                    · simp only [Outcome.pure_eq, Outcome.bind_ok, e]; rfl
                    · simp only [Outcome.pure_eq, Outcome.bind_ok, e]; rfl
                  | false =>
                    simp only [Bool.false_eq_true, if_false]
                    unfold branchNode
                    cases (o.branch w).orAbort with
                    | ok y =>
                      obtain ⟨w', col, up⟩ := y
                      simp only [Outcome.bind_ok]
                      cases vecGet values col with
                      | ok v =>
                        simp only [Outcome.bind_ok]
                        cases tree.addNode node col true (.fin v) with
                        | ok y =>
                          obtain ⟨tree1, down⟩ := y
                          simp only [Outcome.bind_ok]
                          cases tree1.addNode node col false (.fin v) with
                          | ok y => rfl
                          | _ => rfl
                        | _ => rfl
                      | _ => rfl
                    | _ => rfl
                | _ => rfl
              | _ => rfl
            | _ => rfl
          · unfold infeasibleNode
            split
            · rfl
            · show (s.tree.close node >>= _) = _
              cases s.tree.close node with
              | ok tree =>
                simp only [Outcome.bind_ok]
                show (if s.infeasible + 1 > prm.backtrackLimit then _ else _) = _
                split <;> rfl
              | _ => rfl
        | _ => rfl
      | _ => rfl
    | _ => rfl

theorem solveFuel_setStatus (o : Oracle W) (d : MipData) (prm : Params) (x : Option SolveStatus) :
    ∀ (n : Nat) (s : State W), solveFuel o d prm n (setStatus s x) = solveFuel o d prm n s
  | 0, _ => rfl
  | n + 1, s => by
    unfold solveFuel
    rw [iterate_setStatus]
    cases iterate o d prm s with
    | ok r =>
      cases r with
      | again s' => exact solveFuel_setStatus o d prm x n s'
      | stop s' => rfl
    | _ => rfl

/-- The tree after an iteration that ends the loop at the root. -/
theorem stop_tree {o : Oracle W} {d : MipData} {prm : Params} {s s' : State W} (hq : s.queue = [0])
    (h : iterate o d prm s = .ok (.stop s')) : ∃ obj, s.tree.setLpData 0 obj = .ok s'.tree := by
  have hpop : pop s.backjump s.queue = some (0, []) := by rw [hq]; cases s.backjump <;> rfl
  unfold iterate at h
  rw [hpop] at h
  simp only [Outcome.bind_eq_ok] at h
  obtain ⟨lb, -, ub, -, w, -, h⟩ := h
  split at h
  · unfold optimalNode at h
    simp only [Outcome.bind_eq_ok] at h
    obtain ⟨tree, ht, values, -, b, -, h⟩ := h
    split at h
    · rw [if_pos trivial] at h
      cases h
      exact ⟨_, ht⟩
    · unfold branchNode at h
      simp only [Outcome.bind_eq_ok] at h
      obtain ⟨_, -, _, -, _, -, _, -, h⟩ := h
      cases h
  · unfold infeasibleNode at h
    rw [if_pos rfl] at h
    cases h

/-- If the loop goes on after the root, it has two nodes to look at. -/
theorem root_again {o : Oracle W} {d : MipData} {prm : Params} {s s' : State W} (hq : s.queue = [0])
    (h : iterate o d prm s = .ok (.again s')) : s'.queue.length = 2 := by
  have hpop : pop s.backjump s.queue = some (0, []) := by rw [hq]; cases s.backjump <;> rfl
  unfold iterate at h
  rw [hpop] at h
  simp only [Outcome.bind_eq_ok] at h
  obtain ⟨lb, -, ub, -, w, -, h⟩ := h
  split at h
  · unfold optimalNode at h
    simp only [Outcome.bind_eq_ok] at h
    obtain ⟨tree, ht, values, -, b, -, h⟩ := h
    split at h
    · rw [if_pos trivial] at h
      cases h
    · unfold branchNode at h
      simp only [Outcome.bind_eq_ok] at h
      obtain ⟨⟨_, _, up⟩, -, _, -, ⟨_, _⟩, -, ⟨_, _⟩, -, h⟩ := h
      cases h
      cases up <;> rfl
  · unfold infeasibleNode at h
    rw [if_pos rfl] at h
    cases h

/-- The states in which a call of `Solve` starts when every call before it returned OK out of its first iteration
(the LP optimum of the root was integral). -/
inductive Called (o : Oracle W) (d : MipData) (prm : Params) (w : W) : State W → Prop
  | first : Called o d prm w (initial w)
  | next {s s'} : Called o d prm w s → solveFuel o d prm 1 s = some (.ok s') → Called o d prm w (restart s')

/-- The invariant of the loop holds again at the start of such a call. -/
theorem Called.inv {o : Oracle W} {d : MipData} {prm : Params} {Good : W → Prop} {bounds : W → Int → Dbl × Dbl}
    {Answer : W → Prop} (hd : DataOk d) (hp : PrimalShape o d.lower.length) (hc : Contract o Good bounds Answer)
    {w : W} (hg : Good w) (hs : StartsAt d bounds w) {s : State W} (h : Called o d prm w s) :
    s.queue = [0] ∧ ∃ (b : Box) (sols : List Solution), (∀ j y, b j y) ∧ Inv d Good bounds (setStatus s none) [b] sols ∧
      ∀ bs : List Box, bs ≠ [] → (∀ x ∈ bs, x = b) → TransStar o d prm bounds Answer bs sols := by
  induction h with
  | first =>
    obtain ⟨b, hb, hi⟩ := inv_init (d := d) hg hs
    exact ⟨rfl, b, [], hb, hi, fun bs hne hbs => .init hne fun x hx => by rw [hbs x hx]; exact hb⟩
  | @next s s' _ h1 ih =>
    obtain ⟨hq, b, sols, hb, hi, ht⟩ := ih
    refine ⟨rfl, b, ?_⟩
    rw [← solveFuel_setStatus o d prm none] at h1
    unfold solveFuel at h1
    split at h1
    · cases h1
    · rename_i s2 h2
      have h1 := Outcome.ok.inj (Option.some.inj h1)
      subst h1
      obtain ⟨obj, htree⟩ := stop_tree (by exact hq) h2
      -- the tree still is a lone root
      have hsim : Sim d.lower.length [0] s2.tree [b] := by
        obtain ⟨t, q, hinv, hbq⟩ := hi.sim
        have hq0 : q = [0] := by
          have := hinv.queue
          rw [show (setStatus s none).queue = [0] from hq] at this
          match q with
          | [n] => simp at this; congr 1; omega
          | [] => simp at this
          | _ :: _ :: _ => simp at this
        subst hq0
        obtain ⟨hl, hch⟩ := hinv.leaf 0 (by simp)
        obtain ⟨st, hex⟩ := hinv.exec
        obtain ⟨tree', t', e1, e2, e3, e4, e5, e6⟩ := setLp_step obj hex hl hch hinv.recs
        have : s2.tree = tree' := Outcome.ok.inj (htree.symm.trans e1)
        subst this
        refine ⟨t', [0], ⟨e2, by simp, by simp, ?_, e3⟩, ?_⟩
        · intro n hn
          simp only [List.mem_singleton] at hn
          subst hn
          exact ⟨e4 0 hl, by rw [e5, hch]⟩
        · rw [hbq]; simp [e6 0 hl]
      cases iterate_spec hd hp hi.sim h2 with
      | empty h3 => cases h3
      | @integral b' bs' lb ub w' values s3 _ h3 h4 h5 h6 h7 h8 h9 h10 h11 h12 =>
        rcases h12 with h12 | ⟨h12, -⟩
        · cases h12
        cases h12
        obtain ⟨g, k⟩ := world_step hc hi.good hi.kept h5
        have hbb : b' = b := by simpa using (h3.perm.mem_iff (a := b')).2 (by simp)
        subst hbb
        refine ⟨sols ++ [⟨values, o.objective w'⟩], hb, ⟨hsim, ?_, ?_, ?_⟩, ?_⟩
        · show Good s2.world
          rw [h10]; exact g
        · show ContinuousKept d bounds s2.world
          rw [h10]; exact k
        · show ({ s2.result with solveStatus := none } : SolveResult) = _
          rw [addAll_snoc, ← hi.result, h11]
          exact (addSolution_status _ none _).symm.trans rfl
        · intro bs hne hbs
          exact (ht (b' :: bs) (by simp) (by simpa using hbs)).step (.record (.refl _)
            (solveNode_spec hc hi.good h5).2.1 (inBounds_iff hd hc h4 hi.good hi.kept h5) h6 h7 h8)
    all_goals cases h1

/-- **C84, what holds.**  If every call so far returned OK out of its first iteration, then the next call behaves as the
first: with an LP oracle that answers rightly, if it returns OK, the best solution stored is at least as good as every
feasible point; if it returns an error, there is no feasible point.

Missing for C84: calls after a search that branched; see `C84_never_ok`. -/
theorem C84_root_partial {p : Problem} {d : MipData} (hrep : d.Represents p) {o : Oracle W} {prm : Params}
    {Good : W → Prop} {bounds : W → Int → Dbl × Dbl} (hp : PrimalShape o p.vars.length)
    (hc : Contract o Good bounds (OptimalAnswer o d bounds)) {w : W} (hg : Good w) (hs : StartsAt d bounds w)
    {s₀ : State W} (h : Called o d prm w s₀) {fuel : Nat} :
    (∀ s, solveFuel o d prm fuel s₀ = some (.ok s) → ∀ y, p.Feasible y →
      s.result.best ≠ {} ∧
      if p.isMaximization then p.userObjective y ≤ p.userObjective (point s.result.best.values)
      else p.userObjective (point s.result.best.values) ≤ p.userObjective y) ∧
    ∀ m, solveFuel o d prm fuel s₀ = some (.error m) → ∀ y, ¬ p.Feasible y := by
  have hlen : p.vars.length = d.lower.length := by rw [hrep.lower]; simp
  obtain ⟨-, b, sols, -, hi, ht⟩ := h.inv (dataOk_of_represents hrep) (by rw [← hlen]; exact hp) hc hg hs
  have := optimal_from (fuel := fuel) hrep hp hc hi (ht [b] (by simp) (by simp))
  simpa only [solveFuel_setStatus] using this

/-- The solutions stored are feasible. -/
theorem Called.feasible {p : Problem} {d : MipData} (hrep : d.Represents p)
    {o : Oracle W} {prm : Params} {Good : W → Prop} {bounds : W → Int → Dbl × Dbl}
    (hp : PrimalShape o p.vars.length) (hc : Contract o Good bounds (FeasibleAnswer o d bounds))
    {w : W} (hg : Good w) (hs : StartsAt d bounds w) {s₀ : State W} (h : Called o d prm w s₀) {fuel : Nat} {s : State W}
    (hok : solveFuel o d prm fuel s₀ = some (.ok s)) :
    (s.result.best = {} ∨ p.FeasibleUpTo prm.tol (point s.result.best.values)) ∧
      ∀ sol ∈ s.result.additional, p.FeasibleUpTo prm.tol (point sol.values) := by
  have hlen : p.vars.length = d.lower.length := by rw [hrep.lower]; simp
  obtain ⟨-, b, sols, -, hi, ht⟩ := h.inv (dataOk_of_represents hrep) (by rw [← hlen]; exact hp) hc hg hs
  exact (feasible_from hrep hp hc hi (ht [b] (by simp) (by simp))).2 fuel s (by rwa [solveFuel_setStatus])

/-- The call ends. -/
theorem Called.ends {o : Oracle W} {d : MipData} {prm : Params} (hd : DataOk d)
    (hf : FiniteIntegerBounds d) (hp : PrimalShape o d.lower.length) {Good : W → Prop}
    {bounds : W → Int → Dbl × Dbl} (hc : Contract o Good bounds (BoundedAnswer o d bounds))
    (hbr : BranchesOnFractional o d prm) {w : W} (hg : Good w) (hs : StartsAt d bounds w) {s₀ : State W}
    (h : Called o d prm w s₀) : solveFuel o d prm (iterationBound d) s₀ ≠ none := by
  obtain ⟨-, b, sols, hb, hi, ht⟩ := h.inv hd hp hc hg hs
  rw [← solveFuel_setStatus o d prm none]
  exact solveFuel_ends hd hf hp hc hbr _ _ _ _ hi (potential_lt hd hf b)

/-- The call does not abort. -/
theorem Called.never_aborts {o : Oracle W} {d : MipData} {prm : Params} (hd : DataOk d)
    (hp : PrimalShape o d.lower.length) (ho : Responsive o d prm) {Good : W → Prop}
    {bounds : W → Int → Dbl × Dbl} {Answer : W → Prop} (hc : Contract o Good bounds Answer)
    {w : W} (hg : Good w) (hs : StartsAt d bounds w) {s₀ : State W} (h : Called o d prm w s₀) (fuel : Nat) :
    solveFuel o d prm fuel s₀ = none ∨ (∃ s, solveFuel o d prm fuel s₀ = some (.ok s)) ∨
      solveFuel o d prm fuel s₀ = some (.error "The problem is infeasible or unbounded") := by
  obtain ⟨-, b, sols, hb, hi, ht⟩ := h.inv hd hp hc hg hs
  rw [← solveFuel_setStatus o d prm none]
  cases hsol : solveFuel o d prm fuel (setStatus s₀ none) with
  | none => exact Or.inl rfl
  | some r =>
    right
    obtain ⟨s, hr, hs'⟩ := solveFuel_some hsol
    obtain ⟨bs', sols', hi', -⟩ := reach_trans_from hd hp hc hi (ht [b] (by simp) (by simp)) hr
    have hres := Solver.never_aborts hd hp ho ⟨bs', hi'.sim⟩
    rcases hs' with ⟨s', h1, rfl⟩ | ⟨m, h1, rfl⟩ | ⟨h1, rfl⟩ | ⟨h1, rfl⟩
    · exact Or.inl ⟨_, rfl⟩
    · right
      rcases hres with ⟨r, h2⟩ | h2
      · rw [h1] at h2; cases h2
      · rw [h1] at h2; cases h2; rfl
    · rcases hres with ⟨r, h2⟩ | h2 <;> rw [h1] at h2 <;> cases h2
    · rcases hres with ⟨r, h2⟩ | h2 <;> rw [h1] at h2 <;> cases h2

/-- The calls of a guarded oracle are those of the oracle. -/
theorem Called.guard {o : Oracle W} {d : MipData} {prm : Params} {Good : W → Prop} (hk : Keeps o d Good) {w : W}
    (hg : Good w) {s : State W} (h : Called o d prm w s) : Called (guard o Good) d prm w s ∧ Good s.world := by
  induction h with
  | first => exact ⟨.first, hg⟩
  | @next s s' _ h1 ih =>
    refine ⟨.next ih.1 (by rw [guard_solveFuel hk prm 1 ih.2]; exact h1), ?_⟩
    unfold solveFuel at h1
    split at h1
    · cases h1
    · rename_i s2 h2
      have h1 := Outcome.ok.inj (Option.some.inj h1)
      subst h1
      exact (guard_iterate hk prm ih.2).2.2 s2 h2
    all_goals cases h1

end Solver
end MiniMip
