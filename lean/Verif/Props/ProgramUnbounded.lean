import Verif.Lemmas.Recession
import Verif.Props.ProgramLimits

/-!
# C114: the error of `Solve` means that the problem has no optimum

`Solve` has one error, "The problem is infeasible or unbounded" (solver.cc:82-86).  C75 and C78 suppose that the
objective is bounded on the relaxation.  Here this is not supposed: an unbounded relaxation makes `Solve` fail, with all
parameters and with cuts, and then the problem itself has no feasible point or is unbounded (the data are rational).
-/

namespace MiniMip
namespace Program

open Glop (LinearProgram Refines Extends)
open Solver (Contract guard point InBounds InRootBounds InBox)

/-- The objective of the user's problem takes arbitrarily good values at its feasible points. -/
def Unbounded (p : Problem) : Prop :=
  ∀ B : ℚ, ∃ y, p.Feasible y ∧ if p.isMaximization then B < p.userObjective y else p.userObjective y < B

/-- A problem with rational data and a feasible point is unbounded as soon as its relaxation is. -/
theorem unbounded_of_relaxation {p : Problem} (hp : p.WellFormed) (hB : ¬ Bounded p) {y₀ : Int → ℚ}
    (hy₀ : p.Feasible y₀) : Unbounded p := by
  have hrel : ∀ x : Nat → ℚ, Polyhedron.lhs p.relaxation.numCols p.relaxation.objective x =
      p.relaxation.value fun j => x j.toNat := by
    intro x; simp [Polyhedron.lhs, Glop.LpSpec.value]
  have hval := fun y => (relaxation_points p hp y).2
  have hfeas := fun y => (relaxation_points p hp y).1
  have hext : ∀ y : Int → ℚ, (p.relaxation.Feasible (fun j => y (j.toNat : Nat)) ↔ p.relaxation.Feasible y) ∧
      p.relaxation.value (fun j => y (j.toNat : Nat)) = p.relaxation.value y := by
    intro y
    constructor
    · simp [Glop.LpSpec.Feasible]
    · simp [Glop.LpSpec.value]
  obtain ⟨d, hint, hneg, hray⟩ := Polyhedron.exists_integral_ray p.relaxation.linear (c := p.relaxation.objective)
    (fun B => by
      by_contra hno
      push Not at hno
      apply hB
      have key : ∀ y, p.RelaxedFeasible y → B ≤ p.relaxation.value y := by
        intro y hy
        have := hno (fun i => y i) (((hext y).1).2 ((hfeas y).2 hy))
        rwa [hrel, (hext y).2] at this
      refine ⟨if p.isMaximization then p.offset - B else p.offset + B, fun y hy => ?_⟩
      have := key y hy
      rw [hval] at this
      split <;> rename_i hm <;> simp only [hm, if_true, if_false, Bool.false_eq_true] at this <;> linarith)
  intro B
  -- the number of steps
  set δ := - Polyhedron.lhs p.relaxation.numCols p.relaxation.objective d with hδ
  have hδ0 : 0 < δ := by linarith
  obtain ⟨k, hk⟩ := exists_nat_gt (|B - p.userObjective y₀| / δ)
  rw [div_lt_iff₀ hδ0] at hk
  have hrf : p.RelaxedFeasible y₀ := ⟨fun n v hv => (hy₀.1 n v hv).1, hy₀.2⟩
  let y : Int → ℚ := fun j => y₀ j + k * d j.toNat
  have hyf : p.RelaxedFeasible y := by
    have h1 := hray (fun i => y₀ i) (((hext y₀).1).2 ((hfeas y₀).2 hrf)) k (by positivity)
    refine (hfeas y).1 (((hext y).1).1 ?_)
    have h2 : (fun j : Int => y (j.toNat : Nat)) = fun j : Int => y₀ (j.toNat : Nat) + k * d j.toNat := by
      funext j
      show y₀ _ + k * d ((j.toNat : Nat) : Int).toNat = _
      rw [Int.toNat_natCast]
    rw [h2]
    exact h1
  have hyv : p.relaxation.value y = p.relaxation.value y₀ - k * δ := by
    rw [← (hext y).2, ← hrel fun i => y i, ← (hext y₀).2, ← hrel fun i => y₀ i]
    have : (fun i : Nat => y i) = fun i : Nat => y₀ i + k * d i := by funext i; simp [y]
    rw [this, Polyhedron.lhs_add _ _ (fun i : Nat => y₀ i) fun i => k * d i, Polyhedron.lhs_smul, hδ]
    ring
  refine ⟨y, ⟨fun n v hv => ⟨hyf.1 n v hv, fun hi => ?_⟩, hyf.2⟩, ?_⟩
  · obtain ⟨a, ha⟩ := (hy₀.1 n v hv).2 hi
    obtain ⟨b, hb⟩ := hint n
    refine ⟨a + k * b, ?_⟩
    simp only [y, Int.toNat_natCast, ha, hb]
    push_cast
    ring
  · rw [hval, hval] at hyv
    have h1 := le_abs_self (B - p.userObjective y₀)
    have h2 := neg_abs_le (B - p.userObjective y₀)
    split <;> rename_i hm <;> simp only [hm, if_true, if_false, Bool.false_eq_true] at hyv <;> linarith

theorem Unbounded.not_bounded {p : Problem} (h : Unbounded p) : ¬ Bounded p := by
  rintro ⟨B, hB⟩
  obtain ⟨y, hy, hlt⟩ := h B
  have := hB y ⟨fun n v hv => (hy.1 n v hv).1, hy.2⟩
  split at this <;> rename_i hm <;> simp only [hm, if_true, if_false, Bool.false_eq_true] at hlt <;> linarith

/-- **C114**, unbounded problems, whatever happens in the cutting loop.  For every well-formed problem whose objective is
unbounded on its relaxation, all parameters, both interfaces, all LP code that never calls an unbounded LP optimal, and
anything in place of the cutting loop (other generators and selectors, cuts computed in doubles): the branch and bound never
returns OK, and with Glop, if it answers in time, it returns "The problem is infeasible or unbounded" in the first iteration. -/
theorem C114_unbounded_any_cuts {e : Engine} (he : e.SeesUnbounded) {x : Setup.External} {p : Problem} (hp : p.WellFormed)
    (hB : Unbounded p ∨ ∀ B : ℚ, ∃ y, p.RelaxedFeasible y ∧
      if p.isMaximization then B < p.userObjective y else p.userObjective y < B)
    {user : Setup.ParamsMsg} {c : Setup.Created} (h : Setup.create x p user = .ok c)
    (sep : Runner World → Outcome (Runner World)) :
    (∀ fuel s, Solver.solveFuel (separating e c sep) c.data (params c) fuel
      (Solver.initial { world := { lp := start c.lpi } }) ≠ some (.ok s)) ∧
    ((∃ s g, c.lpi = .glop s g) → e.GlopReturns →
      ∀ n, Solver.solveFuel (separating e c sep) c.data (params c) (n + 1)
        (Solver.initial { world := { lp := start c.lpi } }) = some (.error "The problem is infeasible or unbounded")) := by
  have hB' : ¬ Bounded p := by
    rcases hB with hB | hB
    · exact hB.not_bounded
    · rintro ⟨B, hb⟩
      obtain ⟨y, hy, hlt⟩ := hB B
      have := hb y hy
      split at this <;> rename_i hm <;> simp only [hm, if_true, if_false, Bool.false_eq_true] at hlt <;> linarith
  obtain ⟨hd, h₀⟩ := created_refines hp h
  obtain ⟨h1, h2⟩ := iterate_unbounded he hp hB' sep hd h₀
  refine ⟨fun fuel s hs => ?_, fun hl hret n => ?_⟩
  · cases fuel with
    | zero => cases hs
    | succ fuel =>
      rw [Solver.solveFuel] at hs
      split at hs
      · rename_i hi; exact h1 _ hi
      · rename_i hi; exact h1 _ hi
      all_goals cases hs
  · rw [Solver.solveFuel, h2 hl hret]

/-- **C114**, unbounded problems.  For every well-formed problem whose objective is unbounded on its relaxation (in
particular every unbounded problem), all parameters, with and without cuts, both interfaces and all LP code that never
calls an unbounded LP optimal: `Solve` never returns OK.  With Glop, if it answers in time, `Solve` returns
"The problem is infeasible or unbounded" in the first iteration. -/
theorem C114_unbounded {e : Engine} (he : e.SeesUnbounded) {x : Setup.External} {p : Problem} (hp : p.WellFormed)
    (hB : Unbounded p ∨ ∀ B : ℚ, ∃ y, p.RelaxedFeasible y ∧
      if p.isMaximization then B < p.userObjective y else p.userObjective y < B)
    {user : Setup.ParamsMsg} {c : Setup.Created} (h : Setup.create x p user = .ok c) :
    (∀ fuel s, solve e c fuel ≠ some (.ok s)) ∧
    ((∃ s g, c.lpi = .glop s g) → e.GlopReturns →
      ∀ n, solve e c (n + 1) = some (.error "The problem is infeasible or unbounded")) :=
  C114_unbounded_any_cuts he hp hB h (oracle e c).separate

theorem no_optimum_of {p : Problem} (hp : p.WellFormed) (h : Bounded p → ∀ y, ¬ p.Feasible y) :
    (∀ y, ¬ p.Feasible y) ∨ Unbounded p := by
  by_cases hB : Bounded p
  · exact Or.inl (h hB)
  · by_cases hf : ∃ y, p.Feasible y
    · obtain ⟨y, hy⟩ := hf
      exact Or.inr (unbounded_of_relaxation hp hB hy)
    · exact Or.inl fun y hy => hf ⟨y, hy⟩

theorem relaxation_unbounded {p : Problem} (hB : ¬ Bounded p) : ∀ B : ℚ, ∃ y, p.RelaxedFeasible y ∧
    if p.isMaximization then B < p.userObjective y else p.userObjective y < B := by
  intro B
  by_contra hno
  push Not at hno
  refine hB ⟨B, fun y hy => ?_⟩
  have := hno y hy
  split <;> rename_i hm <;> simpa [hm] using this

/-- If `Solve` returns OK, the objective is bounded on the relaxation. -/
theorem bounded_of_ok {e : Engine} (he : e.SeesUnbounded) {x : Setup.External} {p : Problem} (hp : p.WellFormed)
    {user : Setup.ParamsMsg} {c : Setup.Created} (h : Setup.create x p user = .ok c) {fuel : Nat}
    {s : Solver.State (Runner World)} (hs : solve e c fuel = some (.ok s)) : Bounded p := by
  by_contra hB
  exact (C114_unbounded he hp (Or.inr (relaxation_unbounded hB)) h).1 fuel s hs

/-- **C114.**  For every well-formed problem, bounded or not, all parameters without cuts, both interfaces and all LP code that
answers rightly: if `Solve` returns an error, the problem has no feasible point or its objective takes arbitrarily good
values at feasible points.  (With cuts it fails: `C114_fractional_side_violated`, `C92_infeasible_violated`.) -/
theorem C114_error_partial {e : Engine} (he : e.Right) {x : Setup.External} {p : Problem} (hp : p.WellFormed)
    {user : Setup.ParamsMsg} {c : Setup.Created} (h : Setup.create x p user = .ok c) (hn : NoCuts c.runner.params)
    {fuel : Nat} {m : String} (hs : solve e c fuel = some (.error m)) : (∀ y, ¬ p.Feasible y) ∨ Unbounded p := by
  exact no_optimum_of hp fun hB => (C75_optimal_partial he hp hB h hn fuel).2 m hs

/-- A right outcome of `Solve`, for a problem that may be unbounded: either the error, and then the problem has no feasible
point or is unbounded, or OK, and then the problem is not unbounded, the best solution, if there is one, is feasible up to
the tolerance, and if there is a feasible point there is a best solution at least as good. -/
def Settles (p : Problem) (tol : ℚ) (o : Option (Outcome (Solver.State (Runner World)))) : Prop :=
  (o = some (.error "The problem is infeasible or unbounded") ∧ ((∀ y, ¬ p.Feasible y) ∨ Unbounded p)) ∨
  (¬ Unbounded p ∧ ∃ s, o = some (.ok s) ∧
    (s.result.best ≠ {} → p.FeasibleUpTo tol (point s.result.best.values)) ∧
    ∀ y, p.Feasible y → s.result.best ≠ {} ∧
      if p.isMaximization then p.userObjective y ≤ p.userObjective (point s.result.best.values)
      else p.userObjective (point s.result.best.values) ≤ p.userObjective y)

theorem settles_of {p : Problem} (hp : p.WellFormed) {x : Setup.External} {user : Setup.ParamsMsg} {c : Setup.Created}
    (hc : Setup.create x p user = .ok c) (hn : NoCuts c.runner.params) {e : Engine} (he : e.Right) {N : Nat}
    (hne : solve e c N ≠ none)
    (h : solve e c N = none ∨ (∃ s, solve e c N = some (.ok s)) ∨
      solve e c N = some (.error "The problem is infeasible or unbounded")) :
    Settles p (user.integralityTolerance.getD (1 / 10 ^ 6)) (solve e c N) := by
  rcases h with h | ⟨s, h⟩ | h
  · exact absurd h hne
  · right
    have hB : Bounded p := bounded_of_ok he.seesUnbounded hp hc h
    refine ⟨fun hU => hU.not_bounded hB, s, h, fun hb => ?_, (C75_optimal_partial he hp hB hc hn _).1 s h⟩
    exact ((C74_solutions_feasible he.feasible hp hc).2 _ s h).1.resolve_left hb
  · exact Or.inl ⟨h, C114_error_partial he hp hc hn h⟩

/-- **C114**, total correctness.  C78 without supposing that the objective is bounded: for every well-formed problem whose
integer variables have finite bounds, with `max_iterations` of the cut runner at most zero, no random branching, a
non-negative integrality tolerance and valid LP parameters for Glop, `Create` succeeds, and whatever LP code that answers
rightly it runs on, `Solve` has returned after at most `iterationBound p` iterations, with a right outcome. -/
theorem C114_total_partial (p : Problem) (hp : p.WellFormed) (hf : FiniteIntegers p)
    (x : Setup.External) (user : Setup.ParamsMsg) (lp : LpParameters)
    (hlp : Setup.LpWins user.lp lp) (ht : Setup.GlopTakes lp)
    (hi : ∃ k ≤ 0, user.runner.bind (·.maxIterations) = some k)
    (hr : ∀ s, user.branching.bind (·.rule) ≠ some (.random s))
    (htol : 0 ≤ user.integralityTolerance.getD (1 / 10 ^ 6)) :
    ∃ c, Setup.create x p user = .ok c ∧ ∀ e : Engine, e.Right → e.GlopReturns →
      Settles p (user.integralityTolerance.getD (1 / 10 ^ 6)) (solve e c (iterationBound p)) := by
  obtain ⟨c, hc⟩ := (Setup.C73_glop_partial x p hp user lp hlp ht.solver).1 ht
  obtain ⟨hn, dir, hrule⟩ := rule_of hp hc hi hr
  exact ⟨c, hc, fun e he hret => settles_of hp hc hn he (C76_ends_partial p hp hf e x user c dir he.feasible hc hrule htol)
    (C77_glop_never_aborts_partial hret hp hc (created_glop hc (by rw [← hlp.eq]; exact ht.solver)) hn htol _)⟩

/-- **C114**, total correctness for SoPlex: the same if the bounds of the integer variables are integral and SoPlex
accepts the parameter values. -/
theorem C114_soplex_total_partial (p : Problem) (hp : p.WellFormed) (hf : FiniteIntegers p) (hI : IntegralIntegers p)
    (x : Setup.External) (set : Soplex.Settings) (user : Setup.ParamsMsg) (lp : LpParameters)
    (hset : Setup.newSoplex x = .ok set) (hx1 : ∀ r v, x.accepts.real r v = true) (hx2 : ∀ r v, x.accepts.int r v = true)
    (hlp : Setup.LpWins user.lp lp) (ht : Setup.SoplexTakes lp)
    (hi : ∃ k ≤ 0, user.runner.bind (·.maxIterations) = some k)
    (hr : ∀ s, user.branching.bind (·.rule) ≠ some (.random s))
    (htol : 0 ≤ user.integralityTolerance.getD (1 / 10 ^ 6)) :
    ∃ c, Setup.create x p user = .ok c ∧ ∀ e : Engine, e.Right → e.SoplexReturns →
      Settles p (user.integralityTolerance.getD (1 / 10 ^ 6)) (solve e c (iterationBound p)) := by
  obtain ⟨c, hc⟩ := (Setup.C73_soplex_partial x (hx1 _ _) set hset p hp user lp hlp ht.solver).2 hx1 hx2 ht
  obtain ⟨hn, dir, hrule⟩ := rule_of hp hc hi hr
  exact ⟨c, hc, fun e he hret => settles_of hp hc hn he (C76_ends_partial p hp hf e x user c dir he.feasible hc hrule htol)
    (C77_soplex_never_aborts_partial hret he.feasible hp hI hc
      (soplex_created hc (by rw [← hlp.eq]; exact ht.solver)) hn hrule htol _)⟩

/-- `min -x - y`, `2 x - 2 y ≤ 1`, `0 ≤ x ≤ 3` integer, `0 ≤ y`: unbounded. -/
def freeProblem : Problem :=
  { vars := [{ name := "x", objective := -1, lower := .fin 0, upper := .fin 3, isInteger := true },
      { name := "y", objective := -1, lower := .fin 0, upper := .pinf }]
    constraints := [{ name := "c", varIndices := [0, 1], coefficients := [2, -2], lhs := .ninf, rhs := .fin 1 }] }

theorem freeProblem_spec : freeProblem.WellFormed ∧ FiniteIntegers freeProblem ∧ Unbounded freeProblem := by
  refine ⟨?_, ?_, fun B => ⟨fun j => if j = 0 then 1 else |B| + 1, ⟨?_, ?_⟩, ?_⟩⟩
  · simp [Problem.WellFormed, freeProblem, Variable.WellFormed, Constraint.WellFormed, Ordered, Dbl.le]
  · intro v hv hi
    simp [freeProblem] at hv
    rcases hv with rfl | rfl
    · exact ⟨_, _, rfl, rfl⟩
    · simp at hi
  · intro n v hv
    match n with
    | 0 => simp [freeProblem] at hv; subst hv; exact ⟨by norm_num [Between], fun _ => ⟨1, by simp⟩⟩
    | 1 =>
      simp [freeProblem] at hv
      subst hv
      exact ⟨by simp [Between, Dbl.le]; positivity, by simp⟩
    | n + 2 => simp [freeProblem] at hv
  · intro k hk
    simp [freeProblem] at hk
    subst hk
    simp [Between, Constraint.activity, Dbl.le]
    linarith [abs_nonneg B]
  · simp only [freeProblem, Problem.userObjective, objectiveFrom, Bool.false_eq_true, if_false]
    simp
    linarith [neg_abs_le B]

/-- The hypotheses of C114 are met together: by an unbounded problem, with the default parameters (so with cuts) and without
cuts. -/
example : perfect.Right ∧ perfect.GlopReturns ∧ freeProblem.WellFormed ∧ Unbounded freeProblem ∧
    (∀ x, ∃ c, Setup.create x freeProblem {} = .ok c ∧ (∃ s g, c.lpi = .glop s g) ∧ ¬ NoCuts c.runner.params) ∧
    FiniteIntegers freeProblem ∧ Setup.LpWins exUser.lp (exUser.lp.getD {}).read ∧ Setup.GlopTakes (exUser.lp.getD {}).read ∧
    (∃ k ≤ 0, exUser.runner.bind (·.maxIterations) = some k) ∧
    (∀ s, exUser.branching.bind (·.rule) ≠ some (.random s)) ∧
    0 ≤ exUser.integralityTolerance.getD (1 / 10 ^ 6) := by
  obtain ⟨h1, h2, h3⟩ := freeProblem_spec
  refine ⟨perfect_spec.1, perfect_spec.2, h1, h3, fun x => ?_, h2, Setup.lpWins _, ?_, ⟨0, le_refl _, rfl⟩,
    fun s => by simp [exUser], by norm_num [exUser]⟩
  · obtain ⟨c, hc⟩ := (Setup.C73_glop_partial x freeProblem h1 {} _ (Setup.lpWins _) rfl).1
      (by refine ⟨⟨?_, ?_, ?_, ?_, ?_, ?_, ?_, ?_⟩, rfl, ?_, ?_, rfl, rfl⟩ <;>
        simp [Setup.LpMsg.read, ToleranceOk])
    refine ⟨c, hc, created_glop hc rfl, ?_⟩
    obtain ⟨-, -, -, h4, h5, -, h7, -⟩ := Setup.C58_user_wins_partial x freeProblem h1 {} c hc
    rw [NoCuts, h4.2 rfl, h5.2 rfl, h7.2 rfl]
    norm_num
  · refine ⟨⟨?_, ?_, ?_, ?_, ?_, ?_, ?_, ?_⟩, rfl, ?_, ?_, rfl, rfl⟩ <;>
      simp [exUser, Setup.LpMsg.read, ToleranceOk]

/-- The hypotheses of C114 for SoPlex are met together by the same problem. -/
example : perfect.Right ∧ perfect.SoplexReturns ∧ IntegralIntegers freeProblem ∧
    ∃ x set, Setup.newSoplex x = .ok set ∧ (∀ r v, x.accepts.real r v = true) ∧
      (∀ r v, x.accepts.int r v = true) ∧ Setup.LpWins soplexUser.lp (soplexUser.lp.getD {}).read ∧
      Setup.SoplexTakes (soplexUser.lp.getD {}).read ∧
      ∃ k ≤ 0, soplexUser.runner.bind (·.maxIterations) = some k := by
  refine ⟨perfect_spec.1, perfect_soplex, ?_, Setup.exExternal, _, rfl, fun _ _ => rfl, fun _ _ => rfl,
    Setup.lpWins _, ⟨⟨?_, ?_, ?_, ?_, ?_, ?_, ?_, ?_⟩, rfl, ?_, ?_, ?_, ?_⟩, 0, le_refl _, rfl⟩
  · intro v hv hi
    simp [freeProblem] at hv
    rcases hv with rfl | rfl
    · exact ⟨.inr ⟨0, by simp⟩, .inr ⟨3, by simp⟩⟩
    · simp at hi
  all_goals simp [soplexUser, Setup.LpMsg.read, ToleranceOk]

end Program
end MiniMip
