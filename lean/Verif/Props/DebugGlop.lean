import Verif.Model.DebugGlop
import Verif.Props.LpParameters

/-!
# C121: the assertions of the Glop interface around a solve
-/

namespace MiniMip
namespace Glop

/-- The calls that matter: parameters, changes of the LP (any of them, as far as they matter here), solves, strong branching. -/
inductive Call where
  | setParameters (p : LpParameters)
  | changeLp (lp : LinearProgram)
  | solve (useDual : Bool) (answers : Nat → Answer) (statuses : Nat → ProblemStatus) (limit : Bool)
  | branch (col : Nat) (factor eps value : ℚ) (limit : Dbl) (down up : BranchSolve)

/-- One call in the debug build. -/
def DebugSession.step (d : DebugSession) : Call → Outcome DebugSession
  | .setParameters p => .ok (d.setLpParameters p).1
  | .changeLp lp => .ok { d with session := { d.session with iface := { d.session.iface with lp := lp, modified := true } } }
  | .solve useDual answers statuses limit => do return (← d.solveLp useDual answers statuses limit).1
  | .branch col factor eps value limit down up => do return (← d.strongBranch col factor eps value limit down up).1

/-- A sequence of calls. -/
def DebugSession.run (d : DebugSession) : List Call → Outcome DebugSession
  | [] => .ok d
  | c :: r => do (← d.step c).run r

/-- An invariant of the calls holds after every run. -/
theorem DebugSession.run_invariant {P : DebugSession → Prop} {Q : Call → Prop}
    (hstep : ∀ d c d', P d → Q c → d.step c = .ok d' → P d') :
    ∀ calls d d', P d → (∀ c ∈ calls, Q c) → d.run calls = .ok d' → P d' := by
  intro calls
  induction calls with
  | nil => intro d d' hd _ h; cases h; exact hd
  | cons c r ih =>
    intro d d' hd hq h
    simp only [DebugSession.run, Outcome.bind_eq_ok] at h
    obtain ⟨d1, h1, h⟩ := h
    exact ih d1 d' (hstep d c d1 hd (hq c (by simp)) h1) (fun c hc => hq c (by simp [hc])) h

/-! ### The parameters -/

/-- The settings that `GetLpParameters` asserts. -/
structure Settings.Asserted (s : Settings) : Prop where
  rules : s.feasibilityRule = s.optimizationRule
  deterministic : Dbl.lt s.maxDeterministicTime .pinf = true → s.maxTime = .pinf
  time : Dbl.lt s.maxTime .pinf = true → s.maxDeterministicTime = .pinf
  iterations : s.maxIterations ≠ 0

theorem asserted_set {usertime : Bool} {s : Settings} {p : LpParameters} (h : (setLpParameters usertime s p).2.2 = true) :
    (setLpParameters usertime s p).2.1.Asserted := by
  obtain ⟨hs, sc, rule, -, -, h3⟩ := set_ok h
  rw [h3]
  obtain ⟨hv, -⟩ := (supported_iff p).mp hs
  refine ⟨rfl, ?_, ?_, ?_⟩
  · cases p.timing <;> simp [timesOf, Dbl.lt]
  · cases p.timing <;> simp [timesOf, Dbl.lt]
  · obtain ⟨-, -, -, -, -, h9, -⟩ := (lpParametersAreValid_iff p).mp hv
    simp only
    split_ifs <;> omega

theorem asserted_keep {usertime : Bool} {s : Settings} (p : LpParameters) (hs : s.Asserted) :
    (setLpParameters usertime s p).2.1.Asserted := by
  cases h : (setLpParameters usertime s p).2.2 with
  | true => exact asserted_set h
  | false => rw [C48_rejection_harmless usertime s p h]; exact hs

theorem construct_accepted (usertime : Bool) (s : Settings) :
    (setLpParameters usertime s { solverType := .glop }).2.2 = true := by
  simp [setLpParameters, supported, lpParametersAreValid, badTolerance, Dbl.lt, Dbl.ne, Dbl.eq, scalingOf, ruleOf]

theorem strongBranch_settings {s s' : Session} {col : Nat} {factor eps value : ℚ} {limit : Dbl} {down up : BranchSolve}
    {r : BranchResult} (h : strongBranch s col factor eps value limit down up = .ok (s', r)) : s'.settings = s.settings := by
  unfold strongBranch at h
  cases hb : s.scaledBounds[col]? with
  | none => rw [hb] at h; cases h
  | some b =>
    rw [hb] at h
    obtain ⟨lower, upper⟩ := b
    simp only at h
    cases h
    split_ifs <;> rfl

/-- **C121**, setting parameters.  For all settings and all messages, supported or not: `SetLpParameters` does not reach its
`LOG(DFATAL)`, and does what it does in the release build. -/
theorem C121_set_parameters (usertime : Bool) (s : Settings) (p : LpParameters) :
    debugSetLpParameters usertime s p = .ok (setLpParameters usertime s p) := by
  cases hs : supported p with
  | false => simp [debugSetLpParameters, setLpParameters, hs]
  | true =>
    have h1 : p.scaling ≠ .leastSquares := by
      intro h; simp [supported, h] at hs
    have h2 : p.pricing ≠ .steepestEdgeQuickStart ∧ p.pricing ≠ .partialDantzig := by
      constructor <;> intro h <;> simp [supported, h] at hs
    have h3 : (scalingOf p.scaling).isSome = true := by cases h : p.scaling <;> simp_all [scalingOf]
    have h4 : (ruleOf p.pricing).isSome = true := by cases h : p.pricing <;> simp_all [ruleOf]
    simp [debugSetLpParameters, hs, h3, h4, Outcome.check, Outcome.pure_eq]

example : supported { solverType := .glop } = true ∧ supported { solverType := .glop, scaling := .leastSquares } = false := by
  decide +kernel

/-- **C121**, parameters.  After the constructor and any sequence of calls, accepted or refused, `GetLpParameters` raises no
assertion and returns what it returns in the release build. -/
theorem C121_parameters (usertime : Bool) (settings : Settings) (calls : List Call) (d : DebugSession)
    (h : (DebugSession.construct usertime settings).run calls = .ok d) :
    d.getLpParameters = .ok (getLpParameters d.usertime d.session.settings) := by
  have hd : d.session.settings.Asserted := by
    refine DebugSession.run_invariant (P := fun d => d.session.settings.Asserted) (Q := fun _ => True) ?_ calls _ d
      (asserted_set (construct_accepted usertime settings)) (fun _ _ => trivial) h
    intro d c d' hd _ h
    cases c with
    | setParameters p => cases h; exact asserted_keep p hd
    | changeLp lp => cases h; exact hd
    | solve useDual answers statuses limit =>
      simp only [DebugSession.step, DebugSession.solveLp, Outcome.bind_eq_ok] at h
      obtain ⟨_, ⟨⟨i, ok, it, st⟩, -, h1⟩, h⟩ := h
      cases h1
      cases h
      exact hd
    | branch col factor eps value limit down up =>
      simp only [DebugSession.step, DebugSession.strongBranch, Outcome.bind_eq_ok] at h
      obtain ⟨_, ⟨⟨s, r⟩, h0, h1⟩, h⟩ := h
      cases h1
      cases h
      show s.settings.Asserted
      rw [strongBranch_settings h0]
      exact hd
  obtain ⟨h1, h2, h3, h4⟩ := hd
  unfold DebugSession.getLpParameters
  simp only [h1, h4, decide_true, Outcome.check, if_true, Outcome.bind_ok, ne_eq, not_false_eq_true]
  cases ha : Dbl.lt d.session.settings.maxDeterministicTime .pinf with
  | true =>
    rw [h2 ha]
    simp [Dbl.eq, Dbl.lt]
  | false =>
    cases hb : Dbl.lt d.session.settings.maxTime .pinf with
    | true =>
      rw [h3 hb]
      simp [Dbl.eq]
    | false => simp

/-- Calls for the examples: a time limit, a refused set of parameters, two solves, the second after a change of the LP. -/
def sampleCalls : List Call :=
  [.setParameters { solverType := .glop, timing := .wallclock, timeLimit := .fin 10 }, .setParameters { solverType := .soplex },
   .solve true (fun _ => ⟨true, true, true, false, 3, []⟩) (fun _ => .optimal) false, .changeLp {},
   .solve false (fun k => ⟨true, true, k == 1, false, 2, []⟩) (fun _ => .optimal) false]

/-- Settings of a new solver, for the examples. -/
def newSettings : Settings :=
  ⟨false, true, .equilibration, true, .dantzig, .steepestEdge, .fin (1 / 10 ^ 8), .fin (1 / 10 ^ 8), .ninf, .pinf, .pinf, .pinf,
    -1, 1, 1, false⟩

/-- The calls are possible and use both counts. -/
theorem sampleCalls_run : ∃ d, (DebugSession.construct true newSettings).run sampleCalls = .ok d ∧
    d.session.settings.maxTime = .fin 10 ∧ d.session.iface.numIterations = 4 ∧ d.solverIterations = 2 := by
  have h : (match (DebugSession.construct true newSettings).run sampleCalls with
    | .ok d => decide (d.session.settings.maxTime = .fin 10 ∧ d.session.iface.numIterations = 4 ∧ d.solverIterations = 2)
    | _ => false) = true := by decide +kernel
  cases hr : (DebugSession.construct true newSettings).run sampleCalls with
  | ok d => rw [hr] at h; exact ⟨d, rfl, by simpa using h⟩
  | error m => rw [hr] at h; simp at h
  | abort => rw [hr] at h; simp at h
  | ub => rw [hr] at h; simp at h

example : ∃ d, (DebugSession.construct true newSettings).run sampleCalls = .ok d ∧
    d.getLpParameters = .ok (getLpParameters d.usertime d.session.settings) := by
  obtain ⟨d, h, -⟩ := sampleCalls_run
  exact ⟨d, h, C121_parameters _ _ _ _ h⟩

/-! ### Solving -/

/-- The assertion inside `SolveInternal` fails: the first call ends with a feasible point that is not optimal, and scaling is
on. -/
def Trap (g : Interface) (answers : Nat → Answer) (statuses : Nat → ProblemStatus) : Prop :=
  (answers 0).ok = true ∧ (answers 0).feasible = true ∧ g.useScaling = true ∧ statuses 0 ≠ .optimal

/-- Without the trap `SolveInternal` does what it does in the release build. -/
theorem debugSolveInternal_same {g : Interface} {answers : Nat → Answer} {statuses : Nat → ProblemStatus}
    (h : ¬ Trap g answers statuses) :
    ∃ k, debugSolveInternal 2 false g answers statuses =
        .ok ((Glop.solveLp g answers).1, (Glop.solveLp g answers).2, (answers k).iterations, statuses k) ∧
      (k = 0 ∨ k = 1 ∧ (answers 0).ok = true ∧ (answers 0).lpFeasible = false) := by
  unfold Trap at h
  unfold Glop.solveLp
  cases h1 : (answers 0).ok with
  | false => exact ⟨0, by simp [debugSolveInternal, solveInternal, h1], .inl rfl⟩
  | true =>
    cases h2 : (answers 0).feasible with
    | false => exact ⟨0, by simp [debugSolveInternal, solveInternal, h1, h2], .inl rfl⟩
    | true =>
      cases h3 : g.useScaling with
      | false => exact ⟨0, by simp [debugSolveInternal, solveInternal, h1, h2, h3], .inl rfl⟩
      | true =>
        have h4 : statuses 0 = .optimal := by
          by_contra h4
          exact h ⟨h1, h2, h3, h4⟩
        cases h5 : (answers 0).lpFeasible with
        | true =>
          exact ⟨0, by simp [debugSolveInternal, solveInternal, h1, h2, h3, h4, h5, Outcome.check, Outcome.pure_eq], .inl rfl⟩
        | false =>
          refine ⟨1, ?_, .inr ⟨rfl, rfl, rfl⟩⟩
          cases h6 : (answers 1).ok <;>
            simp [debugSolveInternal, solveInternal, h1, h2, h3, h4, h5, h6, Outcome.check, Outcome.pure_eq]

/-- **C121**, solving.  For every interface and all answers of the solver: the debug build aborts in a solve exactly if the
first call of the solver ends with a feasible point that is not optimal and scaling is on.  Otherwise it returns what the
release build returns and leaves the interface in the same state, with the iterations and the status of the last call. -/
theorem C121_solve_partial (d : DebugSession) (useDual : Bool) (answers : Nat → Answer) (statuses : Nat → ProblemStatus)
    (limit : Bool) :
    (Trap d.session.iface answers statuses → d.solveLp useDual answers statuses limit = .abort) ∧
    (¬ Trap d.session.iface answers statuses → ∃ d' ok k, d.solveLp useDual answers statuses limit = .ok (d', ok) ∧
      (d'.session, ok) = d.session.solveLp useDual answers (statuses k) limit ∧ d'.usertime = d.usertime ∧
      d'.solverIterations = (answers k).iterations ∧
      (k = 0 ∨ k = 1 ∧ (answers 0).ok = true ∧ (answers 0).lpFeasible = false)) := by
  constructor
  · rintro ⟨h1, h2, h3, h4⟩
    simp [DebugSession.solveLp, debugSolveInternal, h1, h2, h3, h4, Outcome.check]
  · intro h
    obtain ⟨k, h, hk⟩ := debugSolveInternal_same h
    refine ⟨{ d with
        session := (d.session.solveLp useDual answers (statuses k) limit).1
        solverIterations := (answers k).iterations },
      (d.session.solveLp useDual answers (statuses k) limit).2, k, ?_, rfl, rfl, rfl, hk⟩
    rw [DebugSession.solveLp, h]
    rfl

example : ¬ Trap {} (fun _ => ⟨true, true, false, false, 3, []⟩) (fun _ => .optimal) := by simp [Trap]

/-- An answer of the solver: a feasible point, found in three iterations. -/
def found (feasible : Bool) : Answer :=
  { ok := true, iterations := 3, limitReached := false, statuses := [], feasible := feasible, lpFeasible := true }

/-- **C121 violated**, solving.  On a new interface, whatever the parameters of a new solver are: a solve that the solver ends
at a feasible point without proof of optimality (the status the code expects at an iteration limit) returns OK in the release
build and aborts in the debug build. -/
theorem C121_solve_violated (usertime : Bool) (settings : Settings) (useDual limit : Bool) :
    (DebugSession.construct usertime settings).solveLp useDual (fun _ => found true) (fun _ => .primalFeasible) limit = .abort ∧
    ((DebugSession.construct usertime settings).session.solveLp useDual (fun _ => found true) .primalFeasible limit).2 = true := by
  refine ⟨(C121_solve_partial _ _ _ _ _).1 ⟨rfl, rfl, ?_, by simp⟩, ?_⟩
  · obtain ⟨hs, sc, rule, h1, -, h3⟩ := set_ok (construct_accepted usertime settings)
    simp only [DebugSession.construct, h3]
    simp only [scalingOf, Option.some.injEq] at h1
    rw [← h1]
  · simp [Session.solveLp, Glop.solveLp, solveInternal, found]

/-! ### The limit of iterations -/

/-- A call that leaves the two counts of iterations comparable: no strong branching, and every solve succeeds. -/
def Call.Plain : Call → Prop
  | .solve _ answers _ _ => ∀ k, (answers k).ok = true ∧ 0 ≤ (answers k).iterations
  | .branch .. => False
  | _ => True

theorem solve_counts {g : Interface} {answers : Nat → Answer} {statuses : Nat → ProblemStatus} {g' : Interface} {ok : Bool}
    {it : Int} {st : ProblemStatus} (hp : ∀ k, (answers k).ok = true ∧ 0 ≤ (answers k).iterations)
    (h : debugSolveInternal 2 false g answers statuses = .ok (g', ok, it, st)) : it ≤ g'.numIterations := by
  have h0 := hp 0
  have h1 := hp 1
  cases h2 : (answers 0).feasible with
  | false =>
    simp only [debugSolveInternal, h0.1, h2] at h
    cases h
    simp
  | true =>
    cases h3 : g.useScaling with
    | false =>
      simp only [debugSolveInternal, h0.1, h2, h3] at h
      cases h
      simp
    | true =>
      by_cases h4 : statuses 0 = .optimal
      · cases h5 : (answers 0).lpFeasible with
        | true =>
          simp [debugSolveInternal, h0.1, h2, h3, h4, h5, Outcome.check, Outcome.pure_eq] at h
          obtain ⟨rfl, -, rfl, -⟩ := h
          simp
        | false =>
          simp [debugSolveInternal, h0.1, h1.1, h2, h3, h4, h5, Outcome.check, Outcome.pure_eq] at h
          obtain ⟨rfl, -, rfl, -⟩ := h
          simpa using h0.2
      · simp [debugSolveInternal, h0.1, h2, h3, h4, Outcome.check] at h

/-- **C121**, limit of iterations.  After the constructor and any sequence of changes of parameters, changes of the LP and
solves that succeed, the queries of the iteration limit and of stability raise no assertion and answer as in the release
build.  Missing: strong branching and solves that fail, for which it is false (`C121_strong_branch_violated`,
`C121_failed_solve_violated`). -/
theorem C121_iteration_limit_partial (usertime : Bool) (settings : Settings) (calls : List Call) (d : DebugSession)
    (hp : ∀ c ∈ calls, c.Plain) (h : (DebugSession.construct usertime settings).run calls = .ok d) :
    d.iterationLimitIsExceeded = .ok d.session.iterationLimitIsExceeded ∧ d.isStable = .ok d.session.isStable := by
  have hd : d.solverIterations ≤ d.session.iface.numIterations := by
    refine DebugSession.run_invariant (P := fun d => d.solverIterations ≤ d.session.iface.numIterations) (Q := Call.Plain)
      ?_ calls _ d (by simp [DebugSession.construct]) hp h
    intro d c d' hd hc h
    cases c with
    | setParameters p => cases h; exact hd
    | changeLp lp => cases h; exact hd
    | solve useDual answers statuses limit =>
      simp only [DebugSession.step, DebugSession.solveLp, Outcome.bind_eq_ok] at h
      obtain ⟨_, ⟨⟨i, ok, it, st⟩, h0, h1⟩, h⟩ := h
      cases h1
      cases h
      exact solve_counts hc h0
    | branch col factor eps value limit down up => exact hc.elim
  have hl : d.iterationLimitIsExceeded = .ok d.session.iterationLimitIsExceeded := by
    simp [DebugSession.iterationLimitIsExceeded, hd, Outcome.check, Outcome.pure_eq]
  refine ⟨hl, ?_⟩
  unfold DebugSession.isStable Session.isStable
  rw [hl]
  simp only [Outcome.bind_ok, Outcome.pure_eq]
  by_cases h1 : d.session.status = .primalFeasible ∨ d.session.status = .dualFeasible
  · cases h2 : d.session.objectiveLimitIsExceeded <;> cases h3 : d.session.iterationLimitIsExceeded <;>
      cases h4 : d.session.timeLimitIsExceeded <;> rcases h1 with h1 | h1 <;> simp [h1]
  · simp only [h1, false_and, if_false]
    congr 1
    by_cases h5 : d.session.status = .abnormal ∨ d.session.status = .invalidProblem ∨ d.session.status = .imprecise <;>
      simp [h5]

example : ∃ d, (DebugSession.construct true newSettings).run sampleCalls = .ok d ∧
    d.iterationLimitIsExceeded = .ok d.session.iterationLimitIsExceeded := by
  obtain ⟨d, h, -⟩ := sampleCalls_run
  refine ⟨d, h, (C121_iteration_limit_partial _ _ _ _ ?_ h).1⟩
  simp [sampleCalls, Call.Plain]

/-- **C121 violated**, strong branching.  In every state in which the column has bounds 0 and 1: after strong branching at 1/2
whose second branch takes more iterations than the last solve did, the query of the iteration limit aborts in the debug
build; in the release build it answers. -/
theorem C121_strong_branch_violated (d : DebugSession) (col : Nat) (limit : Dbl) (down up : BranchSolve)
    (hb : d.session.scaledBounds[col]? = some (.fin 0, .fin 1)) (hu : d.session.iface.numIterations < up.iterations) :
    ∃ d' r, d.strongBranch col 1 (1 / 1000) (1 / 2) limit down up = .ok (d', r) ∧ d'.iterationLimitIsExceeded = .abort := by
  have h1 : downBranchBound (1 / 2 * 1) (1 / 1000) = 0 := by decide +kernel
  have h2 : upBranchBound (1 / 2 * 1) (1 / 1000) = 1 := by decide +kernel
  have h3 : d.session.scaledBounds.getD col (.nan, .nan) = (.fin 0, .fin 1) := by
    rw [List.getD_eq_getElem?_getD, hb]; rfl
  have h4 : Dbl.le (Dbl.sub (.fin 0) (.fin (1 / 2))) (.fin 0) = true := by decide +kernel
  have h5 : Dbl.le (.fin 1) (Dbl.add (.fin 1) (.fin (1 / 2))) = true := by decide +kernel
  refine ⟨_, _, by
    simp only [DebugSession.strongBranch, Glop.strongBranch, hb, h1, h2, h3, h4, h5, if_true, Outcome.bind_ok, Outcome.pure_eq]
    rfl, ?_⟩
  simp [DebugSession.iterationLimitIsExceeded, Outcome.check, Session.solveBranch, not_le.mpr hu]

example : ∃ d : DebugSession, d.session.scaledBounds[0]? = some (.fin 0, .fin 1) ∧
    d.session.iface.numIterations < (⟨true, 7, .fin 0, .optimal, false, []⟩ : BranchSolve).iterations :=
  ⟨{ session := { iface := {}, settings := newSettings, scaledBounds := [(.fin 0, .fin 1)] }, usertime := true }, rfl, by decide⟩

/-- **C121 violated**, failed solves.  On a new interface: a solve that fails after three iterations is reported as an error,
and then the query of the iteration limit aborts in the debug build. -/
theorem C121_failed_solve_violated (usertime : Bool) (settings : Settings) (useDual limit : Bool) (status : ProblemStatus) :
    ∃ d', (DebugSession.construct usertime settings).solveLp useDual (fun _ => { found false with ok := false })
        (fun _ => status) limit = .ok (d', false) ∧ d'.iterationLimitIsExceeded = .abort := by
  let d := DebugSession.construct usertime settings
  refine ⟨{ d with
    session := (d.session.solveLp useDual (fun _ => { found false with ok := false }) status limit).1
    solverIterations := 3 }, ?_, ?_⟩
  · simp [DebugSession.solveLp, debugSolveInternal, found, Session.solveLp, Glop.solveLp, solveInternal, d, Outcome.pure_eq]
  · simp [DebugSession.iterationLimitIsExceeded, Outcome.check, Session.solveLp, Glop.solveLp, solveInternal, found]

end Glop
end MiniMip
