import Verif.Props.SolverMemory
import Verif.Props.SolverWitness

/-!
# C113: which node follows an infeasible one

The comment of `backtrack_limit` (parameters.proto:228-236) says: with 0, the solver jumps to the top of the tree after an
infeasible node; with 1, it looks at the sibling first; with more, it goes back level by level.  The code does it the
other way round.
-/

namespace MiniMip
namespace Solver

open MipTree

variable {W : Type}

/-- The iteration from `s` branches, and goes on with `s'`: the LP of its node is optimal, and the solution is not integral. -/
def BranchStep (o : Oracle W) (d : MipData) (prm : Params) (s s' : State W) : Prop :=
  iterate o d prm s = .ok (.again s') ∧ ∃ node rest lb ub w values, Visits s node rest ∧
    s.tree.retrieveLower node d.lower = .ok lb ∧ s.tree.retrieveUpper node d.upper = .ok ub ∧
    solveNode o d lb ub s.world = .ok w ∧ o.isOptimal w = true ∧ o.primal w = .ok values ∧
    d.solutionIsIntegral values prm.tol = .ok false

/-- Two nodes of the tree with the same parent. -/
def Siblings (t : MipTree) (n m : Int) : Prop :=
  n ≠ m ∧ ∃ dn dm, t.node n = .ok dn ∧ t.node m = .ok dm ∧ dn.parent = dm.parent

theorem visits_unique {s : State W} {n m : Int} {r r' : List Int} (h : Visits s n r) (h' : Visits s m r') :
    n = m ∧ r = r' := by
  have := (visits_pop h).symm.trans (visits_pop h')
  simpa using this

/-- Branching puts one child in front of the queue and its sibling at the end; no other open node is a sibling. -/
theorem branch_family {o : Oracle W} {d : MipData} {prm : Params} (hd : DataOk d)
    {s s' : State W} {bs : List Box} (hs : Sim d.lower.length s.queue s.tree bs) (h : BranchStep o d prm s s') :
    ∃ node rest first last, Visits s node rest ∧ s'.queue = first :: (rest ++ [last]) ∧ s'.backjump = false ∧
      s'.infeasible = 0 ∧ Siblings s'.tree first last ∧ ∀ n ∈ rest, ¬ Siblings s'.tree first n := by
  obtain ⟨t, q, hinv, rfl⟩ := hs
  obtain ⟨hi, node, rest, lb, ub, w, values, hv, hl, hu, hw, hopt, hpr, hno⟩ := h
  have hpop := visits_pop hv
  rw [hinv.queue] at hpop
  rcases pop_spec s.backjump q with ⟨h1, -⟩ | ⟨n, q', h1, hps⟩
  · rw [h1] at hpop; cases hpop
  rw [h1] at hpop
  simp only [Option.some.injEq, Prod.mk.injEq] at hpop
  obtain ⟨rfl, hrest⟩ := hpop
  have hmem : ∀ m ∈ rest, ∃ k ∈ q', m = ((k : Nat) : Int) := by
    intro m hm
    rw [← hrest] at hm
    simp at hm
    obtain ⟨k, hk, rfl⟩ := hm
    exact ⟨k, hk, rfl⟩
  obtain ⟨hlive, hleaf, hnd, hq, -⟩ := pop_node hinv d hd rfl hps
  obtain ⟨st, hex⟩ := hinv.exec
  obtain ⟨tree1, t1, hl1, ⟨st1, hex1⟩, -, hl4, hl5, -⟩ := setLp_step (o.objective w) hex hlive hleaf hinv.recs
  unfold iterate at hi
  simp only [visits_pop hv, hl, hu, hw, Outcome.bind_ok, hopt, if_true] at hi
  unfold optimalNode at hi
  simp only [hl1, hpr, hno, Outcome.orAbort, Outcome.bind_ok, Bool.false_eq_true, if_false] at hi
  unfold branchNode at hi
  obtain ⟨⟨w', col, up⟩, -, hi⟩ := Outcome.bind_eq_ok.1 hi
  obtain ⟨v, -, hi⟩ := Outcome.bind_eq_ok.1 hi
  obtain ⟨rp, hrp⟩ := hl4 n hlive
  have hleaf1 : t1.Children n = ∅ := by rw [hl5, hleaf]
  obtain ⟨tree2, dn, a1, a2, a3, -⟩ := hex1.rel.addNode hrp (by rw [hleaf1]; simp) col true (.fin v)
  set t2 : ATree := Function.update t1 dn (some (freshRec n (rp.depth + 1) col true (.fin v))) with ht2
  have hdn : n ≠ dn := by rintro rfl; rw [hrp] at a2; cases a2
  have hrp2 : t2 n = some rp := by rw [ht2, Function.update_of_ne hdn]; exact hrp
  have hch2 : ∀ m, t2.ParentOf n m → m = dn := by
    rintro m ⟨r, hr, hpa⟩
    by_contra hne
    rw [ht2, Function.update_of_ne hne] at hr
    have : m ∈ t1.Children n := ⟨r, hr, hpa⟩
    rw [hleaf1] at this; exact this
  obtain ⟨tree3, un, b1, b2, b3, -⟩ := a3.addNode hrp2
    (by
      have : t2.Children n ⊆ {dn} := fun m hm => hch2 m hm
      simpa using Set.ncard_le_ncard this) col false (.fin v)
  set t3 : ATree := Function.update t2 un (some (freshRec n (rp.depth + 1) col false (.fin v))) with ht3
  have hund : dn ≠ un := by rintro rfl; rw [ht2, Function.update_self] at b2; cases b2
  simp only [a1, b1, Outcome.bind_ok, Outcome.pure_eq, Outcome.ok.injEq, Step.again.injEq] at hi
  subst hi
  have e1 : t3 dn = some (freshRec n (rp.depth + 1) col true (.fin v)) := by
    rw [ht3, Function.update_of_ne hund, ht2, Function.update_self]
  have e2 : t3 un = some (freshRec n (rp.depth + 1) col false (.fin v)) := by rw [ht3, Function.update_self]
  have hother : ∀ m, m ≠ dn → m ≠ un → ∀ k, tree3.node (m : Int) = .ok k → t1.Live m → k.parent ≠ n := by
    intro m hm1 hm2 k hk ⟨r, hr⟩ hpa
    have hr3 : t3 m = some r := by
      rw [ht3, Function.update_of_ne hm2, ht2, Function.update_of_ne hm1]; exact hr
    have := b3.checkedNode hr3
    rw [show tree3.checkedNode m = .ok k from hk, Outcome.ok.injEq] at this
    subst this
    have hr' : r.parent = some n := by
      unfold Rec.toNode at hpa
      dsimp only at hpa
      split at hpa
      · omega
      · rename_i p hp'
        rw [hp', show p = n by omega]
    have : m ∈ t1.Children n := ⟨r, hr, hr'⟩
    rw [hleaf1] at this; exact this
  have hfam : ∀ a b : Nat, ((a = un ∧ b = dn) ∨ (a = dn ∧ b = un)) → Siblings tree3 a b ∧
      ∀ m ∈ rest, ¬ Siblings tree3 a m := by
    intro a b hab
    have hpar : ∀ c : Nat, c = un ∨ c = dn → ∃ k, tree3.node (c : Int) = .ok k ∧ k.parent = n := by
      rintro c (rfl | rfl)
      · exact ⟨_, b3.checkedNode e2, by simp [freshRec, Rec.toNode]⟩
      · exact ⟨_, b3.checkedNode e1, by simp [freshRec, Rec.toNode]⟩
    obtain ⟨ka, ha1, ha2⟩ := hpar a (by rcases hab with h | h; exacts [.inl h.1, .inr h.1])
    obtain ⟨kb, hb1, hb2⟩ := hpar b (by rcases hab with h | h; exacts [.inr h.2, .inl h.2])
    refine ⟨⟨?_, ka, kb, ha1, hb1, by rw [ha2, hb2]⟩, ?_⟩
    · rcases hab with ⟨rfl, rfl⟩ | ⟨rfl, rfl⟩ <;> omega
    · rintro m' hm ⟨-, k1, k2, hk1, hk2, hk⟩
      obtain ⟨m, hmq, rfl⟩ := hmem m' hm
      obtain ⟨-, hml, -⟩ := hq m hmq
      have hlm := hl4 m hml
      have hm1 : m ≠ dn := by rintro rfl; obtain ⟨r, hr⟩ := hlm; rw [a2] at hr; cases hr
      have hm2 : m ≠ un := by
        rintro rfl
        obtain ⟨r, hr⟩ := hlm
        rw [ht2, Function.update_of_ne hm1, hr] at b2; cases b2
      rw [ha1, Outcome.ok.injEq] at hk1
      subst hk1
      exact hother m hm1 hm2 k2 hk2 hlm (by rw [← hk, ha2])
  cases up with
  | true =>
    obtain ⟨f1, f2⟩ := hfam un dn (.inl ⟨rfl, rfl⟩)
    exact ⟨n, rest, un, dn, hv, by simp, rfl, rfl, f1, f2⟩
  | false =>
    obtain ⟨f1, f2⟩ := hfam dn un (.inr ⟨rfl, rfl⟩)
    exact ⟨n, rest, dn, un, hv, by simp, rfl, rfl, f1, f2⟩

theorem infeasible_queue {o : Oracle W} {d : MipData} {prm : Params} {s s' : State W} (h : InfeasibleStep o d prm s s')
    {node : Int} {rest : List Int} (hv : Visits s node rest) : s'.queue = rest := by
  obtain ⟨hi, node', rest', lb, ub, w, hv', hl, hu, hw, hopt⟩ := h
  obtain ⟨rfl, rfl⟩ := visits_unique hv hv'
  unfold iterate at hi
  simp only [visits_pop hv, hl, hu, hw, Outcome.bind_ok, hopt, Bool.false_eq_true, if_false] at hi
  unfold infeasibleNode at hi
  split at hi
  · cases hi
  · obtain ⟨tree, -, hi⟩ := Outcome.bind_eq_ok.1 hi
    dsimp only at hi
    split at hi <;> simp only [Outcome.pure_eq, Outcome.ok.injEq, Step.again.injEq] at hi <;> subst hi <;> rfl

/-- **C113, what holds.**  When the only open node is branched on (at the root, for instance) and the child that `Solve` looks at
is infeasible, `Solve` looks at its sibling next, whatever the backtrack limit.

Missing for C113: every other node (`C113_one_leaves_sibling_violated`) and what 0 should do
(`C113_zero_takes_sibling_violated`). -/
theorem C113_only_node_partial {o : Oracle W} {d : MipData} {prm : Params} {w : W} (hd : DataOk d)
    (hp : PrimalShape o d.lower.length) {s s₁ s₂ : State W} (hr : Reach o d prm (initial w) s)
    (hb : BranchStep o d prm s s₁) (hone : s.queue.length = 1) (hi : InfeasibleStep o d prm s₁ s₂)
    {child next : Int} {r₁ r₂ : List Int} (h₁ : Visits s₁ child r₁) (h₂ : Visits s₂ next r₂) :
    Siblings s₁.tree child next := by
  obtain ⟨bs, hs⟩ := hr.sim hd hp
  obtain ⟨node, rest, first, last, hv, hq, hbj, hz, hsib, -⟩ := branch_family hd hs hb
  have hrest : rest = [] := by
    unfold Visits at hv
    split at hv <;> (rw [hv] at hone; simpa using hone)
  subst hrest
  obtain ⟨rfl, rfl⟩ := visits_unique h₁ (show Visits s₁ first [last] by simp [Visits, hbj, hq])
  have hq2 := infeasible_queue hi h₁
  have : next = last := by
    unfold Visits at h₂
    rw [hq2] at h₂
    split at h₂
    · have e := congrArg List.length h₂
      simp at e
      subst e
      simpa using h₂.symm
    · simp only [List.cons.injEq] at h₂; exact h₂.1.symm
  rw [this]; exact hsib

/-- **C113 fails for 1 and more.**  In every search with a backtrack limit of at least 1: if a node is branched on while other
nodes are open, and the child that `Solve` looks at is infeasible, the next node is not its sibling, but a node that was
open before. -/
theorem C113_one_leaves_sibling_violated {o : Oracle W} {d : MipData} {prm : Params} {w : W} (hd : DataOk d)
    (hp : PrimalShape o d.lower.length) (hlim : 1 ≤ prm.backtrackLimit) {s s₁ s₂ : State W}
    (hr : Reach o d prm (initial w) s)
    (hb : BranchStep o d prm s s₁) (hmore : 1 < s.queue.length) (hi : InfeasibleStep o d prm s₁ s₂)
    {child next : Int} {r₁ r₂ : List Int} (h₁ : Visits s₁ child r₁) (h₂ : Visits s₂ next r₂) :
    ¬ Siblings s₁.tree child next ∧ next ∈ s.queue ∧ next ∈ s₂.queue ∧
      ∃ sibling ∈ s₂.queue, Siblings s₁.tree child sibling := by
  obtain ⟨bs, hs⟩ := hr.sim hd hp
  obtain ⟨node, rest, first, last, hv, hq, hbj, hz, hsib, hnot⟩ := branch_family hd hs hb
  obtain ⟨rfl, rfl⟩ := visits_unique h₁ (show Visits s₁ first (rest ++ [last]) by simp [Visits, hbj, hq])
  have hq2 := infeasible_queue hi h₁
  have hfl := infeasibleStep_eq hi
  rw [if_neg (by omega)] at hfl
  have hne : rest ≠ [] := by
    rintro rfl
    unfold Visits at hv
    split at hv <;> (rw [hv] at hmore; simp at hmore)
  obtain ⟨a, rest', rfl⟩ := List.exists_cons_of_ne_nil hne
  have hn : next = a := by
    unfold Visits at h₂
    rw [hq2, hfl.1] at h₂
    simp only [Bool.false_eq_true, if_false, List.cons_append, List.cons.injEq] at h₂
    exact h₂.1.symm
  subst hn
  refine ⟨hnot _ (by simp), ?_, by rw [hq2]; simp, last, by rw [hq2]; simp, hsib⟩
  unfold Visits at hv
  split at hv <;> rw [hv] <;> simp

/-- **C113 fails for 0 (and for −1).**  In every search with such a backtrack limit: if a node has been branched on and the child that
`Solve` looks at is infeasible, the next node is always its sibling, a deepest one, not a node at the top of the tree. -/
theorem C113_zero_takes_sibling_violated {o : Oracle W} {d : MipData} {prm : Params} {w : W} (hd : DataOk d)
    (hp : PrimalShape o d.lower.length) (hlim : prm.backtrackLimit ≤ 0) {s s₁ s₂ : State W}
    (hr : Reach o d prm (initial w) s)
    (hb : BranchStep o d prm s s₁) (hi : InfeasibleStep o d prm s₁ s₂)
    {child next : Int} {r₁ r₂ : List Int} (h₁ : Visits s₁ child r₁) (h₂ : Visits s₂ next r₂) :
    Siblings s₁.tree child next := by
  obtain ⟨bs, hs⟩ := hr.sim hd hp
  obtain ⟨node, rest, first, last, hv, hq, hbj, hz, hsib, hnot⟩ := branch_family hd hs hb
  obtain ⟨rfl, rfl⟩ := visits_unique h₁ (show Visits s₁ first (rest ++ [last]) by simp [Visits, hbj, hq])
  have hq2 := infeasible_queue hi h₁
  have hfl := infeasibleStep_eq hi
  rw [if_pos (by omega)] at hfl
  unfold Visits at h₂
  rw [hq2, hfl.1] at h₂
  simp only [if_true] at h₂
  have := (List.append_inj' h₂ rfl).2
  simp only [List.cons.injEq, and_true] at this
  rw [← this]; exact hsib

/-- Such searches exist: the root and its first child are branched on, the next node is infeasible.  With the limit 1 the next
node is the other child of the root, with the limit 0 the sibling. -/
example : ∀ limit : Int, limit = 0 ∨ limit = 1 →
    ∃ (d : MipData) (w : Option ℚ × List (Option ℚ)) (s s₁ s₂ : State (Option ℚ × List (Option ℚ)))
      (child next : Int) (r₁ r₂ : List Int), DataOk d ∧ PrimalShape scripted d.lower.length ∧
      Reach scripted d { backtrackLimit := limit } (initial w) s ∧ BranchStep scripted d { backtrackLimit := limit } s s₁ ∧
      1 < s.queue.length ∧ InfeasibleStep scripted d { backtrackLimit := limit } s₁ s₂ ∧ Visits s₁ child r₁ ∧
      Visits s₂ next r₂ ∧ next = if limit = 0 then 3 else 1 := by
  intro limit hlimit
  let w : Option ℚ × List (Option ℚ) := (none, [some (1 / 2), some (3 / 2), none])
  let prm : Params := { backtrackLimit := limit }
  have hstep : ∀ {k s}, iterates scripted wide.data prm (k + 1) (initial w) = some s →
      ∃ s', iterates scripted wide.data prm k (initial w) = some s' ∧
        iterate scripted wide.data prm s' = .ok (.again s) := by
    have gen : ∀ k s₀ s, iterates scripted wide.data prm (k + 1) s₀ = some s →
        ∃ s', iterates scripted wide.data prm k s₀ = some s' ∧ iterate scripted wide.data prm s' = .ok (.again s) := by
      intro k
      induction k with
      | zero =>
        intro s₀ s h
        unfold iterates at h
        split at h
        · rename_i s' hi
          simp only [iterates, Option.some.injEq] at h
          subst h
          exact ⟨s₀, rfl, hi⟩
        · cases h
      | succ k ih =>
        intro s₀ s h
        unfold iterates at h
        split at h
        · rename_i s' hi
          obtain ⟨s2, h1, h2⟩ := ih _ _ h
          exact ⟨s2, by unfold iterates; rw [hi]; exact h1, h2⟩
        · cases h
    intro k s h
    exact gen _ _ _ h
  have h3 : ((iterates scripted wide.data prm 3 (initial w)).map fun s =>
      decide (s.queue = [1, 3] ∧ s.backjump = decide (limit = 0))) = some true := by
    rcases hlimit with rfl | rfl <;> decide +kernel
  have h2 : ((iterates scripted wide.data prm 2 (initial w)).map fun s =>
      decide (s.queue = [4, 1, 3] ∧ s.backjump = false ∧ s.world = (some (3 / 2), [none]) ∧
        s.tree.retrieveLower 4 wide.data.lower = .ok [.fin 0, .fin 2] ∧
        s.tree.retrieveUpper 4 wide.data.upper = .ok [.fin 1, .fin 9])) = some true := by
    rcases hlimit with rfl | rfl <;> decide +kernel
  have h1 : ((iterates scripted wide.data prm 1 (initial w)).map fun s =>
      decide (s.queue = [2, 1] ∧ s.backjump = false ∧ s.world = (some (1 / 2), [some (3 / 2), none]) ∧
        s.tree.retrieveLower 2 wide.data.lower = .ok [.fin 0, .fin 1] ∧
        s.tree.retrieveUpper 2 wide.data.upper = .ok [.fin 1, .fin 9])) = some true := by
    rcases hlimit with rfl | rfl <;> decide +kernel
  rw [Option.map_eq_some_iff] at h1 h2 h3
  obtain ⟨s₂, hs₂, h3⟩ := h3
  obtain ⟨s₁, hs₁, hi₁⟩ := hstep hs₂
  obtain ⟨s, hs, hi⟩ := hstep hs₁
  obtain ⟨_, e, h2⟩ := h2
  rw [hs₁, Option.some.injEq] at e
  subst e
  obtain ⟨_, e, h1⟩ := h1
  rw [hs, Option.some.injEq] at e
  subst e
  simp only [decide_eq_true_eq] at h1 h2 h3
  obtain ⟨a1, a2, a3, a4, a5⟩ := h1
  obtain ⟨b1, b2, b3, b4, b5⟩ := h2
  obtain ⟨c1, c2⟩ := h3
  refine ⟨wide.data, w, s, s₁, s₂, 4, if limit = 0 then 3 else 1, [1, 3], if limit = 0 then [1] else [3],
    dataOk_of_represents (Line.represents (by norm_num [wide]) (by norm_num [wide])), ?_, iterates_reach hs,
    ⟨hi, 2, [1], _, _, (some (3 / 2), [none]), [0, 3 / 2], by unfold Visits; rw [a1, a2]; rfl, a4, a5, ?_, rfl, rfl, ?_⟩,
    by rw [a1]; decide,
    ⟨hi₁, 4, [1, 3], _, _, (none, []), by unfold Visits; rw [b1, b2]; rfl, b4, b5, ?_, rfl⟩,
    by unfold Visits; rw [b1, b2]; rfl, ?_, rfl⟩
  · intro w' values hv
    have hv := Outcome.ok.inj hv
    rw [← hv]
    rfl
  · rw [a3]; decide +kernel
  · show wide.data.solutionIsIntegral [0, 3 / 2] (1 / 10 ^ 6) = .ok false
    decide +kernel
  · rw [b3]; decide +kernel
  · unfold Visits
    rw [c1, c2]
    rcases hlimit with rfl | rfl <;> simp

end Solver
end MiniMip
