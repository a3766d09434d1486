import Verif.Lemmas.Solver
import Verif.Props.Branching
import Verif.Props.Problem
import Mathlib.Algebra.BigOperators.Group.List.Basic
import Mathlib.Data.Set.Finite.Basic
import Mathlib.Data.Int.Interval
import Mathlib.Order.Interval.Finset.Defs

/-!
# C35–C41: the branch-and-bound loop
-/

namespace MiniMip
namespace Solver

open MipTree (AboveAt BelowAt)

variable {W : Type}

/-- The states in which the loop is at its head. -/
inductive Reach (o : Oracle W) (d : MipData) (prm : Params) (s₀ : State W) : State W → Prop
  | refl : Reach o d prm s₀ s₀
  | step {s s'} : Reach o d prm s₀ s → iterate o d prm s = .ok (.again s') → Reach o d prm s₀ s'

/-- `Solve` ends exactly when some reachable iteration leaves the loop. -/
theorem solveFuel_some {o : Oracle W} {d : MipData} {prm : Params} {n : Nat} {s₀ : State W}
    {out : Outcome (State W)} (h : solveFuel o d prm n s₀ = some out) :
    ∃ s, Reach o d prm s₀ s ∧
      ((∃ s', iterate o d prm s = .ok (.stop s') ∧
        out = .ok { s' with result := { s'.result with solveStatus := some SolveStatus.optimal } }) ∨
      (∃ m, iterate o d prm s = .error m ∧ out = .error m) ∨
      (iterate o d prm s = .abort ∧ out = .abort) ∨ (iterate o d prm s = .ub ∧ out = .ub)) := by
  have gen : ∀ n s₁, Reach o d prm s₀ s₁ → solveFuel o d prm n s₁ = some out →
      ∃ s, Reach o d prm s₀ s ∧
      ((∃ s', iterate o d prm s = .ok (.stop s') ∧
        out = .ok { s' with result := { s'.result with solveStatus := some SolveStatus.optimal } }) ∨
      (∃ m, iterate o d prm s = .error m ∧ out = .error m) ∨
      (iterate o d prm s = .abort ∧ out = .abort) ∨ (iterate o d prm s = .ub ∧ out = .ub)) := by
    intro n
    induction n with
    | zero => intro s₁ _ h; simp [solveFuel] at h
    | succ n ih =>
      intro s₁ hr h
      unfold solveFuel at h
      split at h
      · rename_i s2 hi; exact ih s2 (hr.step hi) h
      · rename_i s2 hi
        simp only [Option.some.injEq] at h
        exact ⟨s₁, hr, Or.inl ⟨s2, hi, h.symm⟩⟩
      · rename_i m hi
        simp only [Option.some.injEq] at h
        exact ⟨s₁, hr, Or.inr (Or.inl ⟨m, hi, h.symm⟩)⟩
      · rename_i hi
        simp only [Option.some.injEq] at h
        exact ⟨s₁, hr, Or.inr (Or.inr (Or.inl ⟨hi, h.symm⟩))⟩
      · rename_i hi
        simp only [Option.some.injEq] at h
        exact ⟨s₁, hr, Or.inr (Or.inr (Or.inr ⟨hi, h.symm⟩))⟩
  exact gen n s₀ .refl h

/-- The box invariant holds in every reachable state. -/
theorem Reach.sim {o : Oracle W} {d : MipData} {prm : Params} {w : W} (hd : DataOk d)
    (hp : PrimalShape o d.lower.length) {s : State W} (h : Reach o d prm (initial w) s) :
    ∃ bs, Sim d.lower.length s.queue s.tree bs := by
  induction h with
  | refl => exact ⟨_, sim_init _⟩
  | step _ hi ih =>
    obtain ⟨bs, hs⟩ := ih
    cases iterate_spec hd hp hs hi with
    | infeasible _ _ _ _ h1 => exact ⟨_, h1⟩
    | integral _ _ _ _ _ _ h1 _ _ h2 =>
      rcases h2 with h2 | ⟨h2, -⟩
      · cases h2; exact ⟨_, h1⟩
      · cases h2
    | branch _ _ _ _ _ _ _ _ h1 => exact ⟨_, h1⟩

/-! ## C38 -/

/-- The tree calls succeed in every state that fits the invariant. -/
theorem tree_calls {d : MipData} (hd : DataOk d) {s : State W}
    (h : ∃ bs, Sim d.lower.length s.queue s.tree bs)
    {node : Int} {queue : List Int} (hpop : pop s.backjump s.queue = some (node, queue)) :
    (∃ lb ub, s.tree.retrieveLower node d.lower = .ok lb ∧ s.tree.retrieveUpper node d.upper = .ok ub ∧
      lb.length = d.lower.length ∧ ub.length = d.upper.length) ∧
    (node ≠ 0 → ∃ tree, s.tree.close node = .ok tree) ∧
    ∀ (obj : Dbl), ∃ tree, s.tree.setLpData node obj = .ok tree ∧
      ∀ (col : Nat) (v : ℚ), col < d.lower.length → ∃ tree1 tree2 down up,
        tree.addNode node col true (.fin v) = .ok (tree1, down) ∧
        tree1.addNode node col false (.fin v) = .ok (tree2, up) := by
  obtain ⟨bs, t, q, hinv, rfl⟩ := h
  rw [hinv.queue] at hpop
  rcases pop_spec s.backjump q with ⟨h1, rfl⟩ | ⟨n, q', h1, hps⟩
  · rw [h1] at hpop; cases hpop
  · rw [h1] at hpop
    simp only [Option.some.injEq, Prod.mk.injEq] at hpop
    obtain ⟨rfl, rfl⟩ := hpop
    obtain ⟨hlive, hleaf, hnd, hq, lb, ub, hlb, hub, hbs⟩ := pop_node hinv d hd rfl hps
    obtain ⟨st, hex⟩ := hinv.exec
    refine ⟨⟨lb, ub, hlb, hub, hbs.1, hbs.2.1⟩, ?_, ?_⟩
    · intro hn0
      obtain ⟨tree', t', hc1, -⟩ := close_step hex hlive hleaf (by omega) hinv.recs hq hnd
      exact ⟨tree', hc1⟩
    · intro obj
      obtain ⟨tree1, t1, hl1, ⟨st1, hex1⟩, hl3, hl4, hl5, hl6⟩ :=
        setLp_step obj hex hlive hleaf hinv.recs
      refine ⟨tree1, hl1, fun col v hcol => ?_⟩
      obtain ⟨tree2, tree3, dn, un, k1, k2, -⟩ := branch_step hex1 hl3 (hl4 n hlive)
        (by rw [hl5, hleaf]) (fun m hm => ⟨(hq m hm).1, hl4 m (hq m hm).2.1, by rw [hl5, (hq m hm).2.2]⟩)
        hnd col hcol v
      exact ⟨tree2, tree3, _, _, k1, k2⟩

/-- **C38, the tree calls.**  Whatever the LP solver, the cut runner and the branching rule
answer (only assuming that primal solutions have one value per column), in every state the
loop can reach: the bounds of the next node can be retrieved, with one bound per column;
closing it succeeds unless it is the root (which `Solve` does not close); storing its LP
value succeeds; and then adding a down and an up child for any column and value succeeds. -/
theorem C38_tree_calls {o : Oracle W} {d : MipData} {prm : Params} {w : W} (hd : DataOk d)
    (hp : PrimalShape o d.lower.length) {s : State W} (h : Reach o d prm (initial w) s)
    {node : Int} {queue : List Int} (hpop : pop s.backjump s.queue = some (node, queue)) :
    (∃ lb ub, s.tree.retrieveLower node d.lower = .ok lb ∧ s.tree.retrieveUpper node d.upper = .ok ub ∧
      lb.length = d.lower.length ∧ ub.length = d.upper.length) ∧
    (node ≠ 0 → ∃ tree, s.tree.close node = .ok tree) ∧
    ∀ (obj : Dbl), ∃ tree, s.tree.setLpData node obj = .ok tree ∧
      ∀ (col : Nat) (v : ℚ), col < d.lower.length → ∃ tree1 tree2 down up,
        tree.addNode node col true (.fin v) = .ok (tree1, down) ∧
        tree1.addNode node col false (.fin v) = .ok (tree2, up) :=
  tree_calls hd (h.sim hd hp) hpop

/-- The oracle's calls return normally: setting bounds, solving, separating and reading the
optimal solution, and (for a solution that is not integral) choosing an existing column. -/
structure Responsive (o : Oracle W) (d : MipData) (prm : Params) : Prop where
  setBounds : ∀ w, ∀ j ∈ d.integerVariables, ∀ l u, ∃ w', o.setBounds w j l u = .ok w'
  solve : ∀ w, ∃ w', o.solve w = .ok w'
  separate : ∀ w, o.isOptimal w = true → ∃ w', o.separate w = .ok w'
  primal : ∀ w, o.isOptimal w = true → ∃ values, o.primal w = .ok values
  branch : ∀ w values, o.primal w = .ok values → d.solutionIsIntegral values prm.tol = .ok false →
    ∃ w' col up, o.branch w = .ok (w', col, up) ∧ 0 ≤ col ∧ col < d.lower.length

theorem applyBounds_ok {o : Oracle W} {d : MipData} {prm : Params} (ho : Responsive o d prm)
    {lb ub : List Dbl} (l : List Int)
    (hl : ∀ j ∈ l, j ∈ d.integerVariables ∧ 0 ≤ j ∧ j < lb.length ∧ j < ub.length) :
    ∀ w, ∃ w', applyBounds o lb ub w l = .ok w' := by
  induction l with
  | nil => intro w; exact ⟨w, rfl⟩
  | cons j r ih =>
    intro w
    obtain ⟨hj, h0, h1, h2⟩ := hl j (by simp)
    obtain ⟨n, rfl⟩ := Int.eq_ofNat_of_zero_le h0
    have e1 : lb[n]? = some lb[n] := by simp [show n < lb.length by omega]
    have e2 : ub[n]? = some ub[n] := by simp [show n < ub.length by omega]
    obtain ⟨w1, hw1⟩ := ho.setBounds w n hj lb[n] ub[n]
    obtain ⟨w2, hw2⟩ := ih (fun k hk => hl k (by simp [hk])) w1
    refine ⟨w2, ?_⟩
    unfold applyBounds
    simp [vecGet_some e1, vecGet_some e2, hw1, hw2, Outcome.orAbort]

theorem solveNode_ok {o : Oracle W} {d : MipData} {prm : Params} (hd : DataOk d)
    (ho : Responsive o d prm) {lb ub : List Dbl} (h1 : lb.length = d.lower.length)
    (h2 : ub.length = d.upper.length) (w : W) : ∃ w', solveNode o d lb ub w = .ok w' := by
  obtain ⟨w1, hw1⟩ := applyBounds_ok ho (lb := lb) (ub := ub) d.integerVariables (fun j hj => by
    have := hd.ints j hj
    have := hd.len
    exact ⟨hj, by omega⟩) w
  obtain ⟨w2, hw2⟩ := ho.solve w1
  unfold solveNode
  rw [hw1]
  simp only [Outcome.bind_ok, hw2, Outcome.orAbort]
  cases hopt : o.isOptimal w2 with
  | true =>
    obtain ⟨w3, hw3⟩ := ho.separate w2 hopt
    simp only [hw3]
    exact ⟨w3, rfl⟩
  | false => exact ⟨w2, rfl⟩

/-- No iteration aborts from a state that fits the invariant. -/
theorem never_aborts {o : Oracle W} {d : MipData} {prm : Params} (hd : DataOk d)
    (hp : PrimalShape o d.lower.length) (ho : Responsive o d prm) {s : State W}
    (h : ∃ bs, Sim d.lower.length s.queue s.tree bs) :
    (∃ res, iterate o d prm s = .ok res) ∨
      iterate o d prm s = .error "The problem is infeasible or unbounded" := by
  cases hpop : pop s.backjump s.queue with
  | none => left; exact ⟨.stop s, by simp [iterate, hpop]⟩
  | some x =>
    obtain ⟨node, queue⟩ := x
    obtain ⟨⟨lb, ub, h1, h2, h3, h4⟩, h5, h6⟩ := tree_calls hd h hpop
    obtain ⟨w', hw'⟩ := solveNode_ok hd ho h3 h4 s.world
    unfold iterate
    simp only [hpop, h1, h2, hw', Outcome.bind_ok]
    cases hopt : o.isOptimal w' with
    | false =>
      simp only [Bool.false_eq_true, if_false]
      unfold infeasibleNode
      by_cases hn0 : node = 0
      · right; rw [if_pos hn0]
      · left
        rw [if_neg hn0]
        obtain ⟨tree, ht⟩ := h5 hn0
        rw [ht]
        simp only [Outcome.bind_ok]
        split <;> exact ⟨_, rfl⟩
    | true =>
      left
      simp only [if_true]
      unfold optimalNode
      obtain ⟨tree, ht, hadd⟩ := h6 (o.objective w')
      obtain ⟨values, hv⟩ := ho.primal w' hopt
      have hlen := hp w' values hv
      obtain ⟨b, hb, -⟩ := MipData.allIntegral_iff values prm.tol d.integerVariables
        (fun j hj => by rw [hlen]; exact hd.ints j hj)
      have hb' : d.solutionIsIntegral values prm.tol = .ok b := hb
      simp only [ht, hv, Outcome.orAbort, Outcome.bind_ok, hb']
      cases b with
      | true =>
        simp only [if_true]
        split <;> exact ⟨_, rfl⟩
      | false =>
        obtain ⟨w2, col, up, hbr, hc0, hc1⟩ := ho.branch w' values hv hb'
        obtain ⟨c, rfl⟩ := Int.eq_ofNat_of_zero_le hc0
        have hc : c < values.length := by omega
        obtain ⟨tree1, tree2, dn, un, k1, k2⟩ := hadd c values[c] (by omega)
        have hg : vecGet values (c : Int) = .ok values[c] := vecGet_some (by simp [hc])
        refine ⟨.again
            { s with
              queue := if up then un :: queue ++ [dn] else dn :: queue ++ [un]
              backjump := false, infeasible := 0, tree := tree2, world := w2 }, ?_⟩
        simp [branchNode, hbr, Outcome.orAbort, hg, k1, k2]

/-- **C38.**  If the calls to the LP solver, the cut runner and the branching rule return
normally (with whatever answers), then no iteration aborts or runs into undefined
behaviour: every reachable iteration goes on, leaves the loop, or reports that the root LP
is not optimal. -/
theorem C38_never_aborts {o : Oracle W} {d : MipData} {prm : Params} {w : W} (hd : DataOk d)
    (hp : PrimalShape o d.lower.length) (ho : Responsive o d prm) {s : State W}
    (h : Reach o d prm (initial w) s) :
    (∃ res, iterate o d prm s = .ok res) ∨
      iterate o d prm s = .error "The problem is infeasible or unbounded" :=
  never_aborts hd hp ho (h.sim hd hp)

/-- The branching rule is the max-fractional one, applied to the current LP solution; it goes through the integer
variables in whatever order. -/
def UsesMaxFractional (o : Oracle W) (d : MipData) (prm : Params) : Prop :=
  ∃ (unset : Int) (dir : Branching.Direction) (copy : W → MipData.HashOrder), ∀ w values, o.primal w = .ok values →
    o.branch w = (Branching.maxFractional unset dir prm.tol ((copy w).apply d.integerVariables) (.ok values) >>=
      fun r => .ok (w, r.1, r.2))

/-- When the solution is not integral within tolerance, the max-fractional rule succeeds and
returns an integer variable with a fractional value. -/
theorem maxFractional_fractional {o : Oracle W} {d : MipData} {prm : Params} (hd : DataOk d)
    (hp : PrimalShape o d.lower.length) (hm : UsesMaxFractional o d prm) (htol : 0 ≤ prm.tol)
    {w : W} {values : List ℚ} (hv : o.primal w = .ok values)
    (hi : d.solutionIsIntegral values prm.tol = .ok false) :
    ∃ (col : Nat) (up : Bool) (v : ℚ), o.branch w = .ok (w, (col : Int), up) ∧
      (col : Int) ∈ d.integerVariables ∧ values[col]? = some v ∧ Branching.Fractional prm.tol v := by
  obtain ⟨unset, dir, copy, hbr⟩ := hm
  have hl : ∀ j ∈ d.integerVariables, 0 ≤ j ∧ j < values.length := by
    intro j hj; rw [hp w values hv]; exact hd.ints j hj
  obtain ⟨b, hb, hb2⟩ := MipData.allIntegral_iff values prm.tol d.integerVariables hl
  have hb' : d.solutionIsIntegral values prm.tol = .ok b := hb
  rw [hi] at hb'
  simp only [Outcome.ok.injEq] at hb'
  subst hb'
  simp only [Bool.false_eq_true, false_iff] at hb2
  push Not at hb2
  obtain ⟨n, x, hn, hx, hf⟩ := hb2
  obtain ⟨col, v, up, h1, h2, h3, h4, -⟩ := Branching.C42_max_fractional_partial unset dir prm.tol
    htol ((copy w).apply d.integerVariables) values (fun j hj => hl j (((copy w).perm _).mem_iff.1 hj))
    ⟨n, x, ((copy w).perm _).mem_iff.2 hn, hx, hf⟩
  exact ⟨col, up, v, by rw [hbr w values hv, h1]; rfl, ((copy w).perm _).mem_iff.1 h2, h3, h4⟩

/-! ## The contract of the LP solver

`bounds` is the bounds of the LP's columns, `Good` an invariant of the LP's state the
caller may choose (for instance: the rows are the original rows and valid cuts), `Answer`
what is known after a solve. -/

/-- Setting bounds changes the bounds of that column, solving gives a right answer for the
current bounds, cutting keeps the bounds and gives a right answer, branching changes
nothing. -/
structure Contract (o : Oracle W) (Good : W → Prop) (bounds : W → Int → Dbl × Dbl)
    (Answer : W → Prop) : Prop where
  setBounds : ∀ w j l u w', Good w → o.setBounds w j l u = .ok w' →
    Good w' ∧ bounds w' = Function.update (bounds w) j (l, u)
  solve : ∀ w w', Good w → o.solve w = .ok w' → Good w' ∧ bounds w' = bounds w ∧ Answer w'
  separate : ∀ w w', Good w → Answer w → o.isOptimal w = true → o.separate w = .ok w' →
    Good w' ∧ bounds w' = bounds w ∧ Answer w'
  branch : ∀ w w' c up, Good w → o.branch w = .ok (w', c, up) → Good w' ∧ bounds w' = bounds w

/-- The LP starts with the bounds of the data, as after `PopulateFromMipData`. -/
def StartsAt (d : MipData) (bounds : W → Int → Dbl × Dbl) (w : W) : Prop :=
  ∀ (n : Nat) (l u : Dbl), d.lower[n]? = some l → d.upper[n]? = some u → bounds w n = (l, u)

/-- The continuous columns have their original bounds. -/
def ContinuousKept (d : MipData) (bounds : W → Int → Dbl × Dbl) (w : W) : Prop :=
  ∀ (n : Nat) (l u : Dbl), (n : Int) ∉ d.integerVariables →
    d.lower[n]? = some l → d.upper[n]? = some u → bounds w n = (l, u)

theorem applyBounds_spec {o : Oracle W} {Good : W → Prop} {bounds : W → Int → Dbl × Dbl}
    {Answer : W → Prop} (hc : Contract o Good bounds Answer) {lb ub : List Dbl} (l : List Int) :
    ∀ w w', Good w → applyBounds o lb ub w l = .ok w' → Good w' ∧
      (∀ j ∈ l, ∃ a b, vecGet lb j = .ok a ∧ vecGet ub j = .ok b ∧ bounds w' j = (a, b)) ∧
      ∀ j, j ∉ l → bounds w' j = bounds w j := by
  induction l with
  | nil =>
    intro w w' hg h
    simp only [applyBounds, Outcome.ok.injEq] at h
    subst h
    exact ⟨hg, by simp, by simp⟩
  | cons c r ih =>
    intro w w' hg h
    unfold applyBounds at h
    simp only [Outcome.bind_eq_ok, orAbort_eq_ok] at h
    obtain ⟨a, ha, b, hb, w1, hw1, h⟩ := h
    obtain ⟨hg1, hb1⟩ := hc.setBounds w c a b w1 hg hw1
    obtain ⟨hg2, hin, hout⟩ := ih w1 w' hg1 h
    refine ⟨hg2, ?_, ?_⟩
    · intro j hj
      by_cases hjr : j ∈ r
      · exact hin j hjr
      · have : j = c := by
          rcases List.mem_cons.1 hj with h | h
          · exact h
          · exact absurd h hjr
        subst this
        exact ⟨a, b, ha, hb, by rw [hout j hjr, hb1]; simp⟩
    · intro j hj
      simp only [List.mem_cons, not_or] at hj
      rw [hout j hj.2, hb1]
      simp [hj.1]

theorem solveNode_spec {o : Oracle W} {d : MipData} {Good : W → Prop}
    {bounds : W → Int → Dbl × Dbl} {Answer : W → Prop} (hc : Contract o Good bounds Answer)
    {lb ub : List Dbl} {w w' : W} (hg : Good w) (h : solveNode o d lb ub w = .ok w') :
    Good w' ∧ Answer w' ∧
      (∀ j ∈ d.integerVariables, ∃ a b, vecGet lb j = .ok a ∧ vecGet ub j = .ok b ∧
        bounds w' j = (a, b)) ∧
      ∀ j, j ∉ d.integerVariables → bounds w' j = bounds w j := by
  unfold solveNode at h
  simp only [Outcome.bind_eq_ok, orAbort_eq_ok] at h
  obtain ⟨w1, hw1, w2, hw2, h⟩ := h
  obtain ⟨g1, i1, o1⟩ := applyBounds_spec hc d.integerVariables w w1 hg hw1
  obtain ⟨g2, b2, a2⟩ := hc.solve w1 w2 g1 hw2
  split at h
  · rename_i hopt
    rw [orAbort_eq_ok] at h
    obtain ⟨g3, b3, a3⟩ := hc.separate w2 w' g2 a2 hopt h
    exact ⟨g3, a3, by rw [b3, b2]; exact i1, by rw [b3, b2]; exact o1⟩
  · simp only [Outcome.pure_eq, Outcome.ok.injEq] at h
    subst h
    exact ⟨g2, a2, by rw [b2]; exact i1, by rw [b2]; exact o1⟩

/-- A point lies within the bounds of the LP's columns. -/
def InBounds (d : MipData) (bounds : W → Int → Dbl × Dbl) (w : W) (x : Int → ℚ) : Prop :=
  ∀ n : Nat, n < d.lower.length → Between (bounds w n).1 (x n) (bounds w n).2

/-- A point lies within the original bounds. -/
def InRootBounds (d : MipData) (x : Int → ℚ) : Prop :=
  ∀ (n : Nat) (l u : Dbl), d.lower[n]? = some l → d.upper[n]? = some u → Between l (x n) u

/-- The point satisfies the branching decisions on the integer variables. -/
def InBox (d : MipData) (b : Box) (x : Int → ℚ) : Prop :=
  ∀ n : Nat, (n : Int) ∈ d.integerVariables → b n (x n)

/-- While a node's LP is solved, the points within the LP's bounds are those within the
original bounds and the node's box. -/
theorem inBounds_iff {o : Oracle W} {d : MipData} (hd : DataOk d) {Good : W → Prop}
    {bounds : W → Int → Dbl × Dbl} {Answer : W → Prop} (hc : Contract o Good bounds Answer)
    {b : Box} {lb ub : List Dbl} (hb : BoundsSpec d b lb ub) {w w' : W} (hg : Good w)
    (hk : ContinuousKept d bounds w) (h : solveNode o d lb ub w = .ok w') (x : Int → ℚ) :
    InBounds d bounds w' x ↔ InRootBounds d x ∧ InBox d b x := by
  obtain ⟨-, -, hin, hout⟩ := solveNode_spec hc hg h
  obtain ⟨hb1, hb2, hb3⟩ := hb
  have col : ∀ n : Nat, n < d.lower.length →
      ∃ l u, d.lower[n]? = some l ∧ d.upper[n]? = some u ∧
        (Between (bounds w' n).1 (x n) (bounds w' n).2 ↔
          Between l (x n) u ∧ ((n : Int) ∈ d.integerVariables → b n (x n))) := by
    intro n hn
    have hl : d.lower[n]? = some d.lower[n] := by simp [hn]
    have hn2 : n < d.upper.length := by rw [← hd.len]; exact hn
    have hu : d.upper[n]? = some d.upper[n] := by simp [hn2]
    refine ⟨_, _, hl, hu, ?_⟩
    by_cases hi : (n : Int) ∈ d.integerVariables
    · obtain ⟨a, c, ha, hcc, hbd⟩ := hin n hi
      obtain ⟨n1, e1, ha⟩ := vecGet_eq_ok ha
      obtain ⟨n2, e2, hcc⟩ := vecGet_eq_ok hcc
      obtain rfl : n = n1 := by omega
      obtain rfl : n = n2 := by omega
      rw [hbd]
      have := hb3 n (x n)
      simp only [AboveAt, BelowAt, ha, hcc, hl, hu, Option.some.injEq, forall_eq'] at this
      unfold Between
      simp only [hi, true_imp_iff]
      rw [this]; tauto
    · rw [hout n hi, hk n _ _ hi hl hu]
      simp [hi]
  constructor
  · intro h1
    refine ⟨?_, ?_⟩
    · intro n l u hl hu
      have hn := (List.getElem?_eq_some_iff.1 hl).1
      obtain ⟨l', u', hl', hu', hiff⟩ := col n hn
      rw [hl] at hl'; rw [hu] at hu'
      simp only [Option.some.injEq] at hl' hu'; subst hl' hu'
      exact (hiff.1 (h1 n hn)).1
    · intro n hi
      have hn : n < d.lower.length := by have := hd.ints n hi; omega
      obtain ⟨l', u', hl', hu', hiff⟩ := col n hn
      exact (hiff.1 (h1 n hn)).2 hi
  · rintro ⟨h1, h2⟩ n hn
    obtain ⟨l', u', hl', hu', hiff⟩ := col n hn
    exact hiff.2 ⟨h1 n l' u' hl' hu', h2 n⟩

/-- The world after a node keeps the invariant and the continuous columns. -/
theorem world_step {o : Oracle W} {d : MipData} {Good : W → Prop}
    {bounds : W → Int → Dbl × Dbl} {Answer : W → Prop} (hc : Contract o Good bounds Answer)
    {lb ub : List Dbl} {w w' : W} (hg : Good w) (hk : ContinuousKept d bounds w)
    (h : solveNode o d lb ub w = .ok w') : Good w' ∧ ContinuousKept d bounds w' := by
  obtain ⟨hg', -, -, hout⟩ := solveNode_spec hc hg h
  exact ⟨hg', fun n l u hn hl hu => by rw [hout n hn]; exact hk n l u hn hl hu⟩

/-- A value list as a point. -/
def point (values : List ℚ) : Int → ℚ := fun j => values.getD j.toNat 0

theorem point_eq {values : List ℚ} {n : Nat} {v : ℚ} (h : values[n]? = some v) :
    point values n = v := by simp [point, h]

/-- The rows of the data hold. -/
def RowsHold (d : MipData) (x : Int → ℚ) : Prop :=
  ∀ (r : Nat) (l u : Dbl) (m : SparseMatrix) (v : SparseVector), d.lhs[r]? = some l →
    d.rhs[r]? = some u → d.matrix.row r = .ok (m, v) → Between l (v.eval x) u

end Solver
end MiniMip
