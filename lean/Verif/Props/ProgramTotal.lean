import Verif.Props.ProgramSoplex

/-!
# C78: total correctness of the configurations without cuts

C73 (`Create` succeeds), C74 (solutions are feasible), C75 (optimal), C76 (ends) and C77 (does not abort) in
one statement about `Create` followed by `Solve`.
-/

namespace MiniMip
namespace Program

open Solver (point)

/-- A right outcome of `Solve` for the problem: either it reports an error and the problem is infeasible,
or it returns OK and: if there is a best solution, it satisfies all bounds, constraints and (within the
tolerance) integrality; if the problem has a feasible point, there is a best solution and it is at least
as good as that point. -/
def Solves (p : Problem) (tol : ℚ) (o : Option (Outcome (Solver.State (Runner World)))) : Prop :=
  (o = some (.error "The problem is infeasible or unbounded") ∧ ∀ y, ¬ p.Feasible y) ∨
  ∃ s, o = some (.ok s) ∧
    (s.result.best ≠ {} → p.FeasibleUpTo tol (point s.result.best.values)) ∧
    ∀ y, p.Feasible y → s.result.best ≠ {} ∧
      if p.isMaximization then p.userObjective y ≤ p.userObjective (point s.result.best.values)
      else p.userObjective (point s.result.best.values) ≤ p.userObjective y

theorem created_glop {x : Setup.External} {p : Problem} {user : Setup.ParamsMsg} {c : Setup.Created}
    (h : Setup.create x p user = .ok c) (hg : (user.lp.getD {}).read.solverType = .glop) :
    ∃ s g, c.lpi = .glop s g := by
  obtain ⟨-, -, ⟨l, hl, hl'⟩, -⟩ := Setup.create_ok h
  unfold Setup.createLpSolver at hl
  rw [hg] at hl
  simp only [Outcome.bind_eq_ok] at hl
  obtain ⟨n, -, hl⟩ := hl
  split at hl
  · rw [← Outcome.ok.inj hl] at hl'
    simp only [Setup.Lpi.populate, Outcome.bind_eq_ok] at hl'
    obtain ⟨g, -, hl'⟩ := hl'
    rw [← Outcome.ok.inj hl']
    exact ⟨_, _, rfl⟩
  · cases hl

theorem solves_of {p : Problem} (hp : p.WellFormed) (hB : Bounded p) {x : Setup.External}
    {user : Setup.ParamsMsg} {c : Setup.Created} (hc : Setup.create x p user = .ok c)
    (hn : NoCuts c.runner.params) {e : Engine} (he : e.Right) {N : Nat} (hne : solve e c N ≠ none)
    (h : solve e c N = none ∨ (∃ s, solve e c N = some (.ok s)) ∨
      solve e c N = some (.error "The problem is infeasible or unbounded")) :
    Solves p (user.integralityTolerance.getD (1 / 10 ^ 6)) (solve e c N) := by
  rcases h with h | ⟨s, h⟩ | h
  · exact absurd h hne
  · right
    refine ⟨s, h, fun hb => ?_, (C75_optimal_partial he hp hB hc hn N).1 s h⟩
    exact ((C74_solutions_feasible he.feasible hp hc).2 N s h).1.resolve_left hb
  · exact Or.inl ⟨h, (C75_optimal_partial he hp hB hc hn N).2 _ h⟩

theorem rule_of {p : Problem} (hp : p.WellFormed) {x : Setup.External}
    {user : Setup.ParamsMsg} {c : Setup.Created} (hc : Setup.create x p user = .ok c)
    (hi : ∃ k ≤ 0, user.runner.bind (·.maxIterations) = some k)
    (hr : ∀ s, user.branching.bind (·.rule) ≠ some (.random s)) :
    NoCuts c.runner.params ∧ ∃ dir, c.rule = .maxFractional dir := by
  obtain ⟨k, hk, hi⟩ := hi
  obtain ⟨-, -, -, hmi, -, -, -, ⟨dir, -, -, hrule⟩, -⟩ := Setup.C58_user_wins_partial x p hp user c hc
  refine ⟨Or.inl (by rw [hmi.1 k hi]; exact hk), dir, hrule ?_⟩
  rcases hb : user.branching.bind (·.rule) with _ | r
  · exact Or.inr rfl
  · cases r with
    | random s => exact absurd hb (hr s)
    | maxFractional => exact Or.inl rfl

/-- **C78.**  For every well-formed problem whose integer variables have finite bounds and whose objective
is bounded on the relaxation: with `max_iterations` of the cut runner at most zero, no random branching, a non-negative integrality tolerance and valid LP parameters
for Glop, `Create` succeeds, and whatever LP code that answers rightly it runs on, `Solve` has returned
after at most `iterationBound p` iterations (twice as many as there are integer points within the bounds of
the integer variables), with a right outcome. -/
theorem C78_total_correctness (p : Problem) (hp : p.WellFormed) (hf : FiniteIntegers p) (hB : Bounded p) :
    ∀ (x : Setup.External) (user : Setup.ParamsMsg) (lp : LpParameters),
      Setup.LpWins user.lp lp → Setup.GlopTakes lp →
      (∃ k ≤ 0, user.runner.bind (·.maxIterations) = some k) →
      (∀ s, user.branching.bind (·.rule) ≠ some (.random s)) →
      0 ≤ user.integralityTolerance.getD (1 / 10 ^ 6) →
      ∃ c, Setup.create x p user = .ok c ∧ ∀ e : Engine, e.Right → e.GlopReturns →
        Solves p (user.integralityTolerance.getD (1 / 10 ^ 6)) (solve e c (iterationBound p)) := by
  have hN := C76_ends_partial p hp hf
  intro x user lp hlp ht hi hr htol
  obtain ⟨c, hc⟩ := (Setup.C73_glop_partial x p hp user lp hlp ht.solver).1 ht
  obtain ⟨hn, dir, hrule⟩ := rule_of hp hc hi hr
  exact ⟨c, hc, fun e he hret => solves_of hp hB hc hn he (hN e x user c dir he.feasible hc hrule htol)
    (C77_glop_never_aborts_partial hret hp hc (created_glop hc (by rw [← hlp.eq]; exact ht.solver)) hn htol _)⟩

/-- **C78 for SoPlex.**  The same with SoPlex, if the bounds of the integer variables are integral (see
`C77_soplex_crossing_bounds_violated`) and SoPlex accepts the parameter values. -/
theorem C78_soplex_total_correctness_partial (p : Problem) (hp : p.WellFormed) (hf : FiniteIntegers p)
    (hI : IntegralIntegers p) (hB : Bounded p) :
    ∀ (x : Setup.External) (set : Soplex.Settings) (user : Setup.ParamsMsg) (lp : LpParameters),
      Setup.newSoplex x = .ok set → (∀ r v, x.accepts.real r v = true) → (∀ r v, x.accepts.int r v = true) →
      Setup.LpWins user.lp lp → Setup.SoplexTakes lp →
      (∃ k ≤ 0, user.runner.bind (·.maxIterations) = some k) →
      (∀ s, user.branching.bind (·.rule) ≠ some (.random s)) →
      0 ≤ user.integralityTolerance.getD (1 / 10 ^ 6) →
      ∃ c, Setup.create x p user = .ok c ∧ ∀ e : Engine, e.Right → e.SoplexReturns →
        Solves p (user.integralityTolerance.getD (1 / 10 ^ 6)) (solve e c (iterationBound p)) := by
  have hN := C76_ends_partial p hp hf
  intro x set user lp hset hx1 hx2 hlp ht hi hr htol
  obtain ⟨c, hc⟩ := (Setup.C73_soplex_partial x (hx1 _ _) set hset p hp user lp hlp ht.solver).2 hx1 hx2 ht
  obtain ⟨hn, dir, hrule⟩ := rule_of hp hc hi hr
  exact ⟨c, hc, fun e he hret => solves_of hp hB hc hn he (hN e x user c dir he.feasible hc hrule htol)
    (C77_soplex_never_aborts_partial hret he.feasible hp hI hc
      (soplex_created hc (by rw [← hlp.eq]; exact ht.solver)) hn hrule htol _)⟩

/-- `max 3 x + 2 y`, `5 x + 2 y ≤ 7`, `0 ≤ x ≤ 9` integer, `0 ≤ y ≤ 4`, offset 4. -/
def exProblem : Problem :=
  { vars := [{ name := "x", objective := 3, lower := .fin 0, upper := .fin 9, isInteger := true },
      { name := "y", objective := 2, lower := .fin 0, upper := .fin 4 }]
    constraints := [{ name := "c", varIndices := [1, 0], coefficients := [2, 5], lhs := .ninf, rhs := .fin 7 }]
    offset := 4, isMaximization := true }

theorem exProblem_spec : exProblem.WellFormed ∧ FiniteIntegers exProblem ∧ Bounded exProblem ∧
    ∃ y, exProblem.Feasible y := by
  refine ⟨?_, ?_, ⟨39, ?_⟩, fun j => if j = 0 then 1 else 1, ?_, ?_⟩
  · simp [Problem.WellFormed, exProblem, Variable.WellFormed, Constraint.WellFormed, Ordered, Dbl.le]
  · intro v hv hi
    simp [exProblem] at hv
    rcases hv with rfl | rfl
    · exact ⟨_, _, rfl, rfl⟩
    · simp at hi
  · rintro y ⟨h1, -⟩
    have hx := h1 0 _ rfl
    have hy := h1 1 _ rfl
    simp only [Between, Dbl.le_fin] at hx hy
    simp only [exProblem, Problem.userObjective, objectiveFrom, if_true]
    simp at hx hy ⊢
    linarith [hx.2, hy.2]
  · intro n v hv
    match n with
    | 0 => simp [exProblem] at hv; subst hv; exact ⟨by norm_num [Between], fun _ => ⟨1, by simp⟩⟩
    | 1 => simp [exProblem] at hv; subst hv; exact ⟨by norm_num [Between], by simp⟩
    | n + 2 => simp [exProblem] at hv
  · intro k hk
    simp [exProblem] at hk
    subst hk
    norm_num [Between, Constraint.activity]

/-- Parameters that switch the cut runner off. -/
def exUser : Setup.ParamsMsg := { cutRunner := some { defaultRunner := some { maxIterations := some 0 } } }

/-- The hypotheses of C74 to C78 are met together. -/
example : perfect.Right ∧ perfect.Feasible ∧ perfect.GlopReturns ∧ exProblem.WellFormed ∧
    FiniteIntegers exProblem ∧ Bounded exProblem ∧ (∃ y, exProblem.Feasible y) ∧
    ∀ x, ∃ c dir, Setup.create x exProblem exUser = .ok c ∧ NoCuts c.runner.params ∧
      c.rule = .maxFractional dir ∧ (∃ s g, c.lpi = .glop s g) ∧
      0 ≤ exUser.integralityTolerance.getD (1 / 10 ^ 6) := by
  obtain ⟨h1, h2, h3, h4⟩ := exProblem_spec
  refine ⟨perfect_spec.1, perfect_spec.1.feasible, perfect_spec.2, h1, h2, h3, h4, fun x => ?_⟩
  obtain ⟨c, hc⟩ := (Setup.C73_glop_partial x exProblem h1 exUser _ (Setup.lpWins _) rfl).1
    (by refine ⟨⟨?_, ?_, ?_, ?_, ?_, ?_, ?_, ?_⟩, rfl, ?_, ?_, rfl, rfl⟩ <;>
      simp [exUser, Setup.LpMsg.read, ToleranceOk])
  obtain ⟨-, -, -, hmi, -, -, -, ⟨dir, -, -, hrule⟩, -⟩ :=
    Setup.C58_user_wins_partial x exProblem h1 exUser c hc
  exact ⟨c, dir, hc, Or.inl (by rw [hmi.1 0 rfl]), hrule (Or.inr rfl), created_glop hc rfl, by norm_num [exUser]⟩

/-- The hypotheses of C77 and C78 for SoPlex are met together. -/
example : perfect.Right ∧ perfect.SoplexReturns ∧ IntegralIntegers exProblem ∧
    ∃ x set, Setup.newSoplex x = .ok set ∧ (∀ r v, x.accepts.real r v = true) ∧
      (∀ r v, x.accepts.int r v = true) ∧ Setup.LpWins soplexUser.lp (soplexUser.lp.getD {}).read ∧
      Setup.SoplexTakes (soplexUser.lp.getD {}).read ∧
      ∃ k ≤ 0, soplexUser.runner.bind (·.maxIterations) = some k := by
  refine ⟨perfect_spec.1, perfect_soplex, ?_, Setup.exExternal, _, rfl, fun _ _ => rfl, fun _ _ => rfl,
    Setup.lpWins _, ⟨⟨?_, ?_, ?_, ?_, ?_, ?_, ?_, ?_⟩, rfl, ?_, ?_, ?_, ?_⟩, 0, le_refl _, rfl⟩
  · intro v hv hi
    simp [exProblem] at hv
    rcases hv with rfl | rfl
    · exact ⟨.inr ⟨0, by simp⟩, .inr ⟨9, by simp⟩⟩
    · simp at hi
  all_goals simp [soplexUser, Setup.LpMsg.read, ToleranceOk]

end Program
end MiniMip
