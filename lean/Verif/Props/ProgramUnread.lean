import Verif.Props.ProgramSense
import Verif.Props.IeeeProgramSelector

/-!
# C116: which parameters a run depends on

Two runs on the same problem are compared, with messages that differ in parameters that the code never reads, or reads only
to compare them with a counter that is always zero.
-/

namespace MiniMip

/-! ### Specification -/

namespace Setup

/-- A limit of the cut runner as the user gives it, or the default of the proto file. -/
def ParamsMsg.limit (u : ParamsMsg) (field : DefaultRunnerMsg → Option Int) : Int :=
  ((u.cutRunner.bind (·.defaultRunner)).bind field).getD 100

/-- The user asks for the random rule. -/
def ParamsMsg.IsRandom (u : ParamsMsg) : Prop := ∃ seed, u.branching.bind (·.rule) = some (.random seed)

/-- An `int32`. -/
def IsInt32 (n : Int) : Prop := -2 ^ 31 ≤ n ∧ n < 2 ^ 31

/-- Two messages with the same LP parameters, integrality tolerance, backtrack limit, branching rule and direction,
generators in `cut_runner` and `max_iterations`, of whose limits per node both or none are positive, and of whose total
limits both or none are 0.  Nothing is said about `numerical_tolerance`, `cut_generators`, `cut_selectors`, the selectors in
`cut_runner`, `max_num_cuts_at_root`, the random seed of the branching rule and the sizes of the other two limits. -/
structure SameEffect (u v : ParamsMsg) : Prop where
  lp : u.lp = v.lp
  tolerance : u.integralityTolerance.getD (1 / 10 ^ 6) = v.integralityTolerance.getD (1 / 10 ^ 6)
  backtrack : u.backtrackLimit.getD 2 = v.backtrackLimit.getD 2
  rule : u.IsRandom ↔ v.IsRandom
  direction : (u.branching.bind (·.direction)).getD .unspecified = (v.branching.bind (·.direction)).getD .unspecified
  generators : (u.cutRunner.map (·.generators)).getD [] = (v.cutRunner.map (·.generators)).getD []
  maxIterations : u.limit (·.maxIterations) = v.limit (·.maxIterations)
  perNode : 0 < u.limit (·.maxNumCutsPerNode) ↔ 0 < v.limit (·.maxNumCutsPerNode)
  total : u.limit (·.maxNumCutsTotal) = 0 ↔ v.limit (·.maxNumCutsTotal) = 0
  range : IsInt32 (u.limit (·.maxNumCutsTotal)) ∧ IsInt32 (v.limit (·.maxNumCutsTotal))

end Setup

/-! ### The loop of `Solve` with two oracles -/

namespace Solver
variable {W : Type}

/-- Two oracles that differ in the separation only, and there only on states outside `I`, which no call leaves. -/
structure Agree (I : W → Prop) (o o' : Oracle W) : Prop where
  setBounds : o'.setBounds = o.setBounds
  solve : o'.solve = o.solve
  isOptimal : o'.isOptimal = o.isOptimal
  objective : o'.objective = o.objective
  primal : o'.primal = o.primal
  branch : o'.branch = o.branch
  separate : ∀ w, I w → o'.separate w = o.separate w
  keepsBounds : ∀ w col l u w', I w → o.setBounds w col l u = .ok w' → I w'
  keepsSolve : ∀ w w', I w → o.solve w = .ok w' → I w'
  keepsSeparate : ∀ w w', I w → o.separate w = .ok w' → I w'
  keepsBranch : ∀ w w' col up, I w → o.branch w = .ok (w', col, up) → I w'

theorem Agree.applyBounds {I : W → Prop} {o o' : Oracle W} (h : Agree I o o') (lb ub : List Dbl) (l : List Int) :
    ∀ w, I w → applyBounds o' lb ub w l = applyBounds o lb ub w l ∧
      ∀ w', applyBounds o lb ub w l = .ok w' → I w' := by
  induction l with
  | nil => intro w hw; exact ⟨rfl, fun w' h' => by cases h'; exact hw⟩
  | cons col l ih =>
    intro w hw
    unfold Solver.applyBounds
    rw [h.setBounds]
    cases vecGet lb col with
    | ok a =>
      cases vecGet ub col with
      | ok b =>
        simp only [Outcome.bind_ok]
        cases hs : o.setBounds w col a b with
        | ok w₁ =>
          have := ih w₁ (h.keepsBounds _ _ _ _ _ hw hs)
          simpa [Outcome.orAbort] using this
        | _ => simp [Outcome.orAbort]
      | _ => simp
    | _ => simp

theorem Agree.solveNode {I : W → Prop} {o o' : Oracle W} (h : Agree I o o') (d : MipData) (lb ub : List Dbl) {w : W}
    (hw : I w) : solveNode o' d lb ub w = solveNode o d lb ub w ∧ ∀ w', solveNode o d lb ub w = .ok w' → I w' := by
  obtain ⟨h1, h2⟩ := h.applyBounds lb ub d.integerVariables w hw
  unfold Solver.solveNode
  rw [h1, h.solve, h.isOptimal]
  cases ha : Solver.applyBounds o lb ub w d.integerVariables with
  | ok w₁ =>
    simp only [Outcome.bind_ok]
    cases hs : o.solve w₁ with
    | ok w₂ =>
      have hw₂ := h.keepsSolve _ _ (h2 _ ha) hs
      simp only [Outcome.orAbort, Outcome.bind_ok]
      rw [h.separate w₂ hw₂]
      refine ⟨rfl, fun w' hw' => ?_⟩
      split at hw'
      · cases hp : o.separate w₂ <;> rw [hp] at hw' <;> simp [Outcome.orAbort] at hw'
        subst hw'
        exact h.keepsSeparate _ _ hw₂ hp
      · cases hw'; exact hw₂
    | _ => simp [Outcome.orAbort]
  | _ => simp

theorem Agree.iterate {I : W → Prop} {o o' : Oracle W} (h : Agree I o o') (d : MipData) (prm : Params) {s : State W}
    (hs : I s.world) : iterate o' d prm s = iterate o d prm s ∧
      ∀ t, iterate o d prm s = .ok t → I t.state.world := by
  unfold Solver.iterate
  cases pop s.backjump s.queue with
  | none => exact ⟨rfl, fun t ht => by cases ht; exact hs⟩
  | some x =>
    obtain ⟨node, queue⟩ := x
    simp only
    cases s.tree.retrieveLower node d.lower with
    | ok lb =>
      cases s.tree.retrieveUpper node d.upper with
      | ok ub =>
        simp only [Outcome.bind_ok]
        obtain ⟨h1, h2⟩ := h.solveNode d lb ub hs
        rw [h1, h.isOptimal]
        cases hn : Solver.solveNode o d lb ub s.world with
        | ok w =>
          have hw := h2 _ hn
          simp only [Outcome.bind_ok]
          constructor
          · unfold optimalNode branchNode
            rw [h.objective, h.primal, h.branch]
          · intro t ht
            split at ht
            · unfold optimalNode at ht
              simp only [Outcome.bind_eq_ok] at ht
              obtain ⟨tree, -, values, -, integral, -, ht⟩ := ht
              split at ht
              · split at ht <;> cases ht <;> exact hw
              · unfold branchNode at ht
                simp only [Outcome.bind_eq_ok] at ht
                obtain ⟨⟨w', col, up⟩, hb, v, -, ⟨t₁, n₁⟩, -, ⟨t₂, n₂⟩, -, ht⟩ := ht
                cases ht
                exact h.keepsBranch _ _ _ _ hw (orAbort_eq_ok.1 hb)
            · unfold infeasibleNode at ht
              split at ht
              · cases ht
              · simp only [Outcome.bind_eq_ok] at ht
                obtain ⟨tree, -, ht⟩ := ht
                split at ht <;> cases ht <;> exact hw
        | _ => simp
      | _ => simp
    | _ => simp

theorem Agree.solveFuel {I : W → Prop} {o o' : Oracle W} (h : Agree I o o') (d : MipData) (prm : Params) (fuel : Nat) :
    ∀ s : State W, I s.world → solveFuel o' d prm fuel s = solveFuel o d prm fuel s ∧
      resultAfter o' d prm fuel s = resultAfter o d prm fuel s ∧
      ∀ t, solveFuel o d prm fuel s = some (.ok t) → I t.world := by
  induction fuel with
  | zero => intro s _; exact ⟨rfl, rfl, fun t ht => by cases ht⟩
  | succ fuel ih =>
    intro s hs
    obtain ⟨h1, h2⟩ := h.iterate d prm hs
    unfold Solver.solveFuel Solver.resultAfter
    rw [h1]
    cases hi : Solver.iterate o d prm s with
    | ok t =>
      cases t with
      | again t => exact ih t (h2 _ hi)
      | stop t => exact ⟨rfl, rfl, fun t' ht => by cases ht; exact h2 _ hi⟩
    | _ => simp

end Solver

/-! ### The cut runner -/

namespace Runner
variable {W : Type}

/-- The counter of cuts and the list of active cuts, which nothing ever adds to. -/
def Quiet (r : Runner W) : Prop := r.numCutsAdded = 0 ∧ r.registry.activeIndices = []

/-- Limits that stop a quiet runner at the same time. -/
structure SameLimits (p q : RunnerParams) : Prop where
  maxIterations : q.maxIterations = p.maxIterations
  perNode : 0 < p.maxNumCutsPerNode ↔ 0 < q.maxNumCutsPerNode
  total : toSizeT p.maxNumCutsTotal = 0 ↔ toSizeT q.maxNumCutsTotal = 0

theorem mayRun_same {p q : RunnerParams} (h : SameLimits p q) (pl : Plugins W) {r : Runner W} (hr : r.Quiet) :
    mayRun q pl r = mayRun p pl r := by
  obtain ⟨h1, h2, h3⟩ := h
  unfold mayRun
  rw [hr.1, hr.2, h1]
  have e1 : (0 : Int) ≥ q.maxNumCutsPerNode ↔ (0 : Int) ≥ p.maxNumCutsPerNode := by
    constructor <;> intro hx <;> by_contra hy <;> push Not at hy
    · exact absurd (h2.1 hy) (by omega)
    · exact absurd (h2.2 hy) (by omega)
  have e2 : ([] : List Int).length ≥ toSizeT q.maxNumCutsTotal ↔ ([] : List Int).length ≥ toSizeT p.maxNumCutsTotal := by
    simp only [List.length_nil, ge_iff_le, Nat.le_zero]
    exact h3.symm
  simp only [e1, e2]

theorem addAll_quiet (cs : List CutData) : ∀ (r r' : Runner W) (is : List Int), r.Quiet → addAll r cs = .ok (r', is) →
    r'.Quiet := by
  induction cs with
  | nil => intro r r' is hr h; cases h; exact hr
  | cons c cs ih =>
    intro r r' is hr h
    unfold addAll at h
    simp only [Outcome.bind_eq_ok] at h
    obtain ⟨⟨reg, i⟩, h1, ⟨r₁, is₁⟩, h2, h⟩ := h
    cases h
    refine ih _ _ _ ?_ h2
    unfold CutRegistry.addCut at h1
    simp only [Outcome.bind_eq_ok] at h1
    obtain ⟨j, -, h1⟩ := h1
    cases h1
    exact hr

theorem generate_quiet (pl : Plugins W) (gs : List (W → CutRegistry → Outcome (W × List CutData))) :
    ∀ (r r' : Runner W) (is : List Int), r.Quiet → generate pl r gs = .ok (r', is) → r'.Quiet := by
  induction gs with
  | nil => intro r r' is hr h; cases h; exact hr
  | cons g gs ih =>
    intro r r' is hr h
    unfold generate at h
    simp only [Outcome.bind_eq_ok] at h
    obtain ⟨⟨w, cuts⟩, -, h⟩ := h
    split at h
    · refine ih _ _ _ ?_ h
      exact hr
    · simp only [Outcome.bind_eq_ok] at h
      obtain ⟨⟨w', f⟩, -, ⟨r₁, is₁⟩, h1, ⟨r₂, is₂⟩, h2, h⟩ := h
      cases h
      refine ih _ _ _ (addAll_quiet _ _ _ _ ?_ h1) h2
      exact hr

theorem addRows_quiet (pl : Plugins W) (is : List Int) : ∀ r r' : Runner W, r.Quiet → addRows pl r is = .ok r' →
    r'.Quiet := by
  induction is with
  | nil => intro r r' hr h; cases h; exact hr
  | cons i is ih =>
    intro r r' hr h
    unfold addRows at h
    simp only [Outcome.bind_eq_ok] at h
    obtain ⟨c, -, w, -, h⟩ := h
    refine ih _ _ ?_ h
    exact hr

theorem round_quiet (pl : Plugins W) {r r' : Runner W} {b : Bool} (hr : r.Quiet) (h : round pl r = .ok (r', b)) :
    r'.Quiet := by
  unfold round at h
  simp only [Outcome.bind_eq_ok] at h
  obtain ⟨⟨r₁, is⟩, h1, h⟩ := h
  have hq := generate_quiet pl _ _ _ _ hr h1
  split at h
  · cases h; exact hq
  · simp only [Outcome.bind_eq_ok] at h
    obtain ⟨r₂, h2, w, -, h⟩ := h
    cases h
    have hq' := addRows_quiet pl _ _ _ hq h2
    exact hq'

theorem separateFuel_same {p q : RunnerParams} (h : SameLimits p q) (pl : Plugins W) (n : Nat) : ∀ r : Runner W, r.Quiet →
    separateFuel q pl n r = separateFuel p pl n r ∧ ∀ r', separateFuel p pl n r = some (.ok r') → r'.Quiet := by
  induction n with
  | zero => intro r _; exact ⟨rfl, fun _ h => by cases h⟩
  | succ n ih =>
    intro r hr
    unfold separateFuel
    rw [mayRun_same h pl hr]
    split
    · cases hx : round pl r with
      | ok x =>
        obtain ⟨r₁, b⟩ := x
        have hq := round_quiet pl hr hx
        cases b with
        | true => exact ih r₁ hq
        | false => exact ⟨rfl, fun r' h => by cases h; exact hq⟩
      | _ => simp
    · exact ⟨rfl, fun r' h => by cases h; exact hr⟩

end Runner

/-! ### `Create` -/

namespace Setup

/-- The same rule, up to the seed. -/
def SameRule : RuleConfig → RuleConfig → Prop
  | .random _ d, .random _ d' => d = d'
  | .maxFractional d, .maxFractional d' => d = d'
  | _, _ => False

/-- The same solver up to parameters that are not read. -/
def Unread (c c' : Created) : Prop :=
  ∃ t prm rule, c' = { c with numericalTolerance := t, runner := { c.runner with params := prm }, rule := rule } ∧
    Runner.SameLimits c.runner.params prm ∧ SameRule c.rule rule

theorem toSizeT_eq_zero {n : Int} (h : IsInt32 n) : Runner.toSizeT n = 0 ↔ n = 0 := by
  unfold Runner.toSizeT
  obtain ⟨h1, h2⟩ := h
  constructor
  · intro hn
    have : n % 2 ^ 64 = 0 := by omega
    omega
  · rintro rfl; rfl

theorem limit_eq (u : ParamsMsg) (f : DefaultRunnerMsg → Option Int) (hf : f {} = none) :
    (f (u.runner.getD {})).getD 100 = u.limit f := by
  unfold ParamsMsg.limit ParamsMsg.runner
  cases u.cutRunner.bind (·.defaultRunner) with
  | none => simp [hf]
  | some d => rfl

theorem isRandom_iff (u : ParamsMsg) : u.IsRandom ↔ ∃ seed, u.rule = .random seed := by
  unfold ParamsMsg.IsRandom ParamsMsg.rule
  cases h : u.branching.bind (·.rule) with
  | none => simp
  | some r => simp

theorem SameEffect.create {u v : ParamsMsg} (h : SameEffect u v) (x : External) (p : Problem) :
    Outcome.Rel Unread (create x p u) (create x p v) := by
  unfold Setup.create
  simp only [createRunner_ok, createRule_ok, effectiveLp, h.lp, h.generators, h.direction]
  split
  · exact rfl
  · refine Outcome.Rel.same _ fun d => Outcome.Rel.same _ fun l => ?_
    simp only [Outcome.bind_ok]
    refine Outcome.Rel.same _ fun l => ?_
    have e1 : (userCustomized u).integralityTolerance.getD (1 / 10 ^ 6) =
        (userCustomized v).integralityTolerance.getD (1 / 10 ^ 6) := by
      simpa [userCustomized, ParamsMsg.merge, defaultParameters, over] using h.tolerance
    have e2 : (userCustomized u).backtrackLimit.getD 2 = (userCustomized v).backtrackLimit.getD 2 := by
      simpa [userCustomized, ParamsMsg.merge, defaultParameters, over] using h.backtrack
    refine ⟨_, (v.runner.getD {}).read, _, by rw [e1, e2], ⟨?_, ?_, ?_⟩, ?_⟩
    · show (v.runner.getD {}).maxIterations.getD 100 = (u.runner.getD {}).maxIterations.getD 100
      rw [limit_eq v _ rfl, limit_eq u _ rfl, h.maxIterations]
    · show 0 < (u.runner.getD {}).maxNumCutsPerNode.getD 100 ↔ 0 < (v.runner.getD {}).maxNumCutsPerNode.getD 100
      rw [limit_eq v _ rfl, limit_eq u _ rfl]
      exact h.perNode
    · show Runner.toSizeT ((u.runner.getD {}).maxNumCutsTotal.getD 100) = 0 ↔
        Runner.toSizeT ((v.runner.getD {}).maxNumCutsTotal.getD 100) = 0
      rw [limit_eq v _ rfl, limit_eq u _ rfl, toSizeT_eq_zero h.range.1, toSizeT_eq_zero h.range.2]
      exact h.total
    · have hr := h.rule
      rw [isRandom_iff, isRandom_iff] at hr
      cases hu : u.rule with
      | random s =>
        obtain ⟨t, ht⟩ := hr.1 ⟨s, hu⟩
        rw [ht]
        exact rfl
      | maxFractional =>
        cases hv : v.rule with
        | random s =>
          obtain ⟨t, ht⟩ := hr.2 ⟨s, hv⟩
          rw [hu] at ht
          cases ht
        | maxFractional => exact rfl

end Setup

/-! ### The program -/

namespace Program

open Solver (point)

theorem branch_same (e : Engine) {c c' : Setup.Created} (h : Setup.Unread c c') : branch e c' = branch e c := by
  obtain ⟨t, prm, rule, rfl, -, hr⟩ := h
  funext w
  unfold branch
  cases hc : c.rule <;> cases rule <;> rw [hc] at hr <;> simp only [Setup.SameRule] at hr
  all_goals subst hr; rfl

theorem custom_agree (e : Engine) {c c' : Setup.Created} (h : Setup.Unread c c')
    (generators : List (World → CutRegistry → Outcome (World × List CutData)))
    (select : World → CutRegistry → List CutData → Outcome (World × List CutData)) :
    Solver.Agree Runner.Quiet (customOracle e c generators select) (customOracle e c' generators select) where
  setBounds := rfl
  solve := rfl
  isOptimal := rfl
  objective := rfl
  primal := rfl
  branch := by
    funext r
    show (branch e c' r.world >>= fun x => (Outcome.ok ({ r with world := x.1 }, x.2.1, x.2.2) :
      Outcome (Runner World × Int × Bool))) = _
    rw [branch_same e h]
    rfl
  separate := by
    obtain ⟨t, prm, rule, rfl, hl, -⟩ := h
    intro r hr
    show (match Runner.separateFuel prm _ ((prm.maxIterations - r.numCutrounds).toNat + 1) r with
      | some x => x | none => .ub) = _
    rw [hl.maxIterations, (Runner.separateFuel_same hl _ _ r hr).1]
    rfl
  keepsBounds := by
    intro r col l u r' hr h'
    replace h' : (r.world.lp.setColumnBounds col l u >>= fun lp =>
      (Outcome.ok { r with world := { r.world with lp := lp } } : Outcome (Runner World))) = .ok r' := h'
    simp only [Outcome.bind_eq_ok] at h'
    obtain ⟨lp, -, h'⟩ := h'
    cases h'
    exact hr
  keepsSolve := by
    intro r r' hr h'
    replace h' : (r.world.solve e >>= fun w =>
      (Outcome.ok { r with world := w } : Outcome (Runner World))) = .ok r' := h'
    simp only [Outcome.bind_eq_ok] at h'
    obtain ⟨lp, -, h'⟩ := h'
    cases h'
    exact hr
  keepsSeparate := by
    obtain ⟨t, prm, rule, rfl, hl, -⟩ := h
    intro r r' hr h'
    replace h' : (match Runner.separateFuel c.runner.params (customPlugins e c generators select)
        ((c.runner.params.maxIterations - r.numCutrounds).toNat + 1) r with
      | some x => x | none => .ub) = .ok r' := h'
    split at h'
    · rename_i x hx
      subst h'
      exact (Runner.separateFuel_same hl _ _ r hr).2 _ hx
    · cases h'
  keepsBranch := by
    intro r r' col up hr h'
    replace h' : (branch e c r.world >>= fun x =>
      (Outcome.ok ({ r with world := x.1 }, x.2.1, x.2.2) : Outcome (Runner World × Int × Bool))) = .ok (r', col, up) := h'
    simp only [Outcome.bind_eq_ok] at h'
    obtain ⟨x, -, h'⟩ := h'
    cases h'
    exact hr

/-- `Solve` does the same on both solvers, whatever the LP code, after any number of iterations: it has ended on both or on
none, in the same way, with equal results, trees, LPs and cuts; also when it is called again, with cuts in doubles, and with
generators and selector of the user. -/
def RunSame (c c' : Setup.Created) : Prop :=
  ∀ (e : Engine) (fuel : Nat),
    solve e c' fuel = solve e c fuel ∧ resultAfter e c' fuel = resultAfter e c fuel ∧
    (∀ s k, solve e c k = some (.ok s) → solveAgain e c' s fuel = solveAgain e c s fuel) ∧
    (∀ s t q, doubleRun s t q e c' fuel = doubleRun s t q e c fuel) ∧
    ∀ generators select, customSolve e c' generators select fuel = customSolve e c generators select fuel

theorem runSame_of {c c' : Setup.Created} (h : Setup.Unread c c') : RunSame c c' := by
  intro e fuel
  have quiet : Runner.Quiet ({ world := { lp := start c.lpi } } : Runner World) := ⟨rfl, rfl⟩
  have custom : ∀ generators select k,
      customSolve e c' generators select k = customSolve e c generators select k := by
    intro generators select k
    have := (custom_agree e h generators select).solveFuel c.data (params c) k
      (Solver.initial { world := { lp := start c.lpi } }) quiet
    obtain ⟨t, prm, rule, rfl, -, -⟩ := h
    exact this.1
  refine ⟨?_, ?_, fun s k hs => ?_, fun s t q => ?_, fun _ _ => custom _ _ _⟩
  · rw [solve_custom, solve_custom, ← custom]
    obtain ⟨t, prm, rule, rfl, -, -⟩ := h
    rfl
  · have := (custom_agree e h (plugins e c).generators (plugins e c).select).solveFuel c.data (params c) fuel
      (Solver.initial { world := { lp := start c.lpi } }) quiet
    obtain ⟨t, prm, rule, rfl, -, -⟩ := h
    exact this.2.1
  · have h1 := (custom_agree e h (plugins e c).generators (plugins e c).select).solveFuel c.data (params c) k
      (Solver.initial { world := { lp := start c.lpi } }) quiet
    have h2 := (custom_agree e h (plugins e c).generators (plugins e c).select).solveFuel c.data (params c) fuel
      (Solver.restart s) (h1.2.2 s hs)
    obtain ⟨t, prm, rule, rfl, -, -⟩ := h
    exact h2.1
  · rw [doubleRun_custom, doubleRun_custom, ← custom]
    obtain ⟨t, prm, rule, rfl, -, -⟩ := h
    rfl

/-- **C116, partial.**  For all problems, well-formed or not, and all LP code: what `Create` and `Solve` do depends on the
LP parameters, the integrality tolerance, the backtrack limit, the branching rule and direction, the generators in
`cut_runner`, `max_iterations`, whether the limit on cuts per node is positive, and whether the total limit is 0, and on no
other parameter. -/
theorem C116_determined_partial {u v : Setup.ParamsMsg} (h : Setup.SameEffect u v) (x : Setup.External) (p : Problem) :
    (∀ m, Setup.create x p u = .error m → Setup.create x p v = .error m) ∧
    (Setup.create x p u = .abort → Setup.create x p v = .abort) ∧
    (Setup.create x p u = .ub → Setup.create x p v = .ub) ∧
    ∀ c, Setup.create x p u = .ok c → ∃ c', Setup.create x p v = .ok c' ∧ RunSame c c' := by
  have key := h.create x p
  refine ⟨fun m hm => ?_, fun hm => ?_, fun hm => ?_, fun c hm => ?_⟩ <;> rw [hm] at key <;>
    cases hq : Setup.create x p v <;> rw [hq] at key <;> simp only [Outcome.Rel] at key
  · rw [key]
  · exact ⟨_, rfl, runSame_of key⟩

/-- Nothing has been cut. -/
def Uncut (r : Runner World) : Prop := r.numCutrounds = 0 ∧ r.Quiet ∧ r.registry.cuts = [] ∧ r.lpRows = []

theorem uncut_agree (e : Engine) {c : Setup.Created} (hn : NoCuts c.runner.params)
    (generators : List (World → CutRegistry → Outcome (World × List CutData)))
    (select : World → CutRegistry → List CutData → Outcome (World × List CutData)) :
    Solver.Agree Uncut (customOracle e c generators select) (customOracle e c generators select) where
  setBounds := rfl
  solve := rfl
  isOptimal := rfl
  objective := rfl
  primal := rfl
  branch := rfl
  separate := fun _ _ => rfl
  keepsBounds := by
    intro r col l u r' hr h'
    replace h' : (r.world.lp.setColumnBounds col l u >>= fun lp =>
      (Outcome.ok { r with world := { r.world with lp := lp } } : Outcome (Runner World))) = .ok r' := h'
    simp only [Outcome.bind_eq_ok] at h'
    obtain ⟨lp, -, h'⟩ := h'
    cases h'
    exact hr
  keepsSolve := by
    intro r r' hr h'
    replace h' : (r.world.solve e >>= fun w =>
      (Outcome.ok { r with world := w } : Outcome (Runner World))) = .ok r' := h'
    simp only [Outcome.bind_eq_ok] at h'
    obtain ⟨lp, -, h'⟩ := h'
    cases h'
    exact hr
  keepsSeparate := by
    intro r r' hr h'
    replace h' : customSeparate e c generators select r = .ok r' := h'
    have hm : Runner.mayRun c.runner.params (customPlugins e c generators select) r = false := by
      unfold Runner.mayRun
      rcases hn with hn | hn | hn
      · rw [hr.1]; simp [hn]
      · rw [hr.2.1.1]; simp [hn]
      · simp [hn, Runner.toSizeT]
    unfold customSeparate Runner.separateFuel at h'
    rw [hm] at h'
    cases h'
    exact hr
  keepsBranch := by
    intro r r' col up hr h'
    replace h' : (branch e c r.world >>= fun x =>
      (Outcome.ok ({ r with world := x.1 }, x.2.1, x.2.2) : Outcome (Runner World × Int × Bool))) = .ok (r', col, up) := h'
    simp only [Outcome.bind_eq_ok] at h'
    obtain ⟨x, -, h'⟩ := h'
    cases h'
    exact hr

/-- **C116, the limits that work.**  If `max_iterations` or the limit per node is 0 or less, or the total limit is 0, then no
run ever hands a cut to the registry or to the LP, for all problems, other parameters, LP code, generators and selectors, in
doubles or not. -/
theorem C116_cuts_off_partial {user : Setup.ParamsMsg} {x : Setup.External} {p : Problem} {c : Setup.Created}
    (h : Setup.create x p user = .ok c)
    (hoff : user.limit (·.maxIterations) ≤ 0 ∨ user.limit (·.maxNumCutsPerNode) ≤ 0 ∨ user.limit (·.maxNumCutsTotal) = 0)
    (e : Engine) (fuel : Nat) (st : Solver.State (Runner World))
    (hs : solve e c fuel = some (.ok st) ∨ (∃ s t q, doubleRun s t q e c fuel = some (.ok st)) ∨
      ∃ generators select, customSolve e c generators select fuel = some (.ok st)) :
    st.world.registry.cuts = [] ∧ st.world.lpRows = [] := by
  have hn : NoCuts c.runner.params := by
    obtain ⟨-, -, -, hrun, -⟩ := Setup.create_ok h
    rw [hrun]
    rw [← Setup.limit_eq user _ rfl, ← Setup.limit_eq user _ rfl, ← Setup.limit_eq user _ rfl] at hoff
    exact hoff
  have key : ∀ generators select, customSolve e c generators select fuel = some (.ok st) →
      st.world.registry.cuts = [] ∧ st.world.lpRows = [] := by
    intro generators select hs
    have := ((uncut_agree e hn generators select).solveFuel c.data (params c) fuel
      (Solver.initial { world := { lp := start c.lpi } }) ⟨rfl, ⟨rfl, rfl⟩, rfl, rfl⟩).2.2 st hs
    exact this.2.2
  rcases hs with hs | ⟨s, t, q, hs⟩ | ⟨_, _, hs⟩
  · exact key _ _ hs
  · exact key _ _ hs
  · exact key _ _ hs

/-- Parameters that, as documented, leave no cut at the root: at most 0 there, and every selector and generator that the user
mentions turned off or limited to no level of the tree; zero is everything up to 1. -/
noncomputable def noRootCuts : Setup.ParamsMsg :=
  let off : Setup.SelectorMsg := { hybrid := some { maxNumCuts := some 0, maximumTreeDepth := some 0 } }
  { numericalTolerance := some 1
    cutRunner := some
      { selectors := [off]
        defaultRunner := some { maxNumCutsAtRoot := some 0, maxNumCutsTotal := some 1, maxNumCutsPerNode := some 1 } }
    cutGenerators := [{ maxNumCuts := some 0, tableau := some { useMir := some false, useStrongCg := some false } }]
    cutSelectors := [off] }

/-- They have the effect of the default parameters. -/
theorem noRootCuts_same : Setup.SameEffect {} noRootCuts := by
  constructor <;> simp [noRootCuts, Setup.ParamsMsg.limit, Setup.ParamsMsg.IsRandom, Setup.IsInt32]

/-- **C116 fails** for limits, selectors, generators and the numerical tolerance.  With parameters that, as documented, let
no cut be made at the root, whatever Glop that answers rightly up to rounding to doubles, returns, keeps a basis and stops at
no limit, and whatever `std::sort`: at the root of `max x`, `3 x ≤ 4`, `0 ≤ x ≤ 9`, `x` integer `Solve` adds a cut in
doubles to the LP, the one of `C92_doubles_violated`, and so reports `x = 0` as optimal. -/
theorem C116_no_root_cuts_violated :
    (∃ x c, Setup.create x thirds noRootCuts = .ok c) ∧
    ∀ x c, Setup.create x thirds noRootCuts = .ok c → ∀ (s : Ieee.SqrtCode) (t : Ieee.Selector.Sorter),
      ∀ e : Engine, e.Right → e.GlopReturns → e.GlopBasic → e.GlopInTime →
        ∃ st, doubleSolve s t {} e c 1 = some (.ok st) ∧ st.result.solveStatus = some .optimal ∧
          thirds.userObjective (point st.result.best.values) < thirds.userObjective (fun _ => 1) ∧
          thirds.constraints.length < st.world.world.lp.program.rows.length := by
  obtain ⟨-, ⟨x, c, hc⟩, h⟩ := C92_doubles_violated
  refine ⟨⟨x, ?_⟩, fun x c hc s t e h1 h2 h3 h4 => ?_⟩
  · obtain ⟨c', hc', -⟩ := (C116_determined_partial noRootCuts_same x thirds).2.2.2 c hc
    exact ⟨c', hc'⟩
  · have key := noRootCuts_same.create x thirds
    rw [hc] at key
    cases hd : Setup.create x thirds {} <;> rw [hd] at key <;> simp only [Outcome.Rel] at key
    rename_i c₀
    obtain ⟨st, hst, h'⟩ := h x c₀ hd s t e h1 h2 h3 h4
    refine ⟨st, ?_, h'⟩
    rw [doubleSolve, (runSame_of key e.rounded 1).2.2.2.1 s t {}]
    exact hst

/-! ### Non-vacuity -/

/-- Messages that `C116_determined_partial` applies to, and solvers made from them. -/
example : Setup.SameEffect {} noRootCuts ∧
    Setup.SameEffect { branching := some { rule := some (.random (some 1)), direction := some .up } }
      { branching := some { rule := some (.random (some 2)), direction := some .up } } ∧
    ∃ x c c', Setup.create x thirds {} = .ok c ∧ Setup.create x thirds noRootCuts = .ok c' ∧ RunSame c c' := by
  obtain ⟨-, ⟨x, c, hc⟩, -⟩ := C92_doubles_violated
  obtain ⟨c', hc', h⟩ := (C116_determined_partial noRootCuts_same x thirds).2.2.2 c hc
  refine ⟨noRootCuts_same, ?_, x, c, c', hc, hc', h⟩
  constructor <;> simp [Setup.ParamsMsg.limit, Setup.ParamsMsg.IsRandom, Setup.IsInt32]

/-- A run that `C116_cuts_off_partial` applies to, which returns a solution. -/
example (x : Setup.External) : exUser.limit (·.maxIterations) ≤ 0 ∧ ∃ c s, Setup.create x openProblem exUser = .ok c ∧
    solve perfect c (rangeBound openProblem fun _ => (0, 7 / 2)) = some (.ok s) ∧ s.result.best ≠ {} := by
  obtain ⟨h1, h2, -, h4, h5, y, hy⟩ := openProblem_spec
  obtain ⟨c, hc, hs⟩ := C104_total_correctness openProblem h1 _ h4 h5 x exUser _ (Setup.lpWins _)
    (by refine ⟨⟨?_, ?_, ?_, ?_, ?_, ?_, ?_, ?_⟩, rfl, ?_, ?_, rfl, rfl⟩ <;>
        simp [exUser, Setup.LpMsg.read, ToleranceOk])
    ⟨0, le_rfl, rfl⟩ (by simp [exUser]) (by norm_num [exUser])
  rcases hs perfect perfect_spec.1 perfect_spec.2 with ⟨-, h⟩ | ⟨s, h, -, h'⟩
  · exact absurd hy (h y)
  · exact ⟨by simp [exUser, Setup.ParamsMsg.limit], c, s, hc, h, (h' y hy).1⟩

end Program
end MiniMip
