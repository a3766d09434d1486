import Verif.Props.IeeeProgramSelector
import Verif.Props.ProgramApproxCuts
import Verif.Props.ProgramUnboundedCuts

/-!
# C114 on LP code with tolerances

C90 without supposing that the objective is bounded on the relaxation.
-/

namespace MiniMip
namespace Program

open Solver (point)

/-- **C114 on LP code with tolerances**, the error: as `C114_error_partial` if the LP code answers rightly up to `eps` and
`delta`. -/
theorem C114_approximate_error_partial {e : Engine} {eps delta : ℚ} (he : e.Approximate eps delta) {x : Setup.External}
    {p : Problem} (hp : p.WellFormed) {user : Setup.ParamsMsg} {c : Setup.Created} (h : Setup.create x p user = .ok c)
    (hn : NoCuts c.runner.params) {fuel : Nat} {m : String} (hm : solve e c fuel = some (.error m)) :
    (∀ y, ¬ p.Feasible y) ∨ Unbounded p :=
  no_optimum_of hp fun hB => (C90_optimal_partial he hp hB h hn fuel).2 m hm

/-- The same with cuts: as `C114_with_cuts_partial` if the LP code answers rightly up to `eps` and `delta`. -/
theorem C114_approximate_with_cuts_partial {e : Engine} {eps delta : ℚ} (he : e.Approximate eps delta) (ho : e.InOrder)
    (hsort : e.Sorted) {x : Setup.External} {p : Problem} (hp : p.WellFormed) (hn : NonnegativeIntegers p)
    (hs : IntegralSides p) {user : Setup.ParamsMsg} (htol : user.integralityTolerance = some 0) {c : Setup.Created}
    (h : Setup.create x p user = .ok c) {fuel : Nat} {m : String} (hm : solve e c fuel = some (.error m)) :
    (∀ y, ¬ p.Feasible y) ∨ Unbounded p :=
  no_optimum_of hp fun hB => (C90_with_cuts_partial he ho hsort hp hB hn hs htol h fuel).2 m hm

/-- **C114**, what OK means, for problems with any bounds, bounded or not.  For every well-formed problem, all LP code that
answers rightly up to `eps` and `delta` and both interfaces, without cuts, or with cuts if the integer variables are
non-negative, the sides integral and the tolerance is zero: if `Solve` returns OK, the objective is bounded on the
relaxation, and if there is a feasible point there is a best solution, worse by at most `2 * delta`. -/
theorem C114_ok_partial {e : Engine} {eps delta : ℚ} (he : e.Approximate eps delta) {x : Setup.External}
    {p : Problem} (hp : p.WellFormed) {user : Setup.ParamsMsg} {c : Setup.Created} (h : Setup.create x p user = .ok c)
    (hn : NoCuts c.runner.params ∨ e.InOrder ∧ e.Sorted ∧ NonnegativeIntegers p ∧ IntegralSides p ∧
      user.integralityTolerance = some 0)
    {fuel : Nat} {s : Solver.State (Runner World)} (hs : solve e c fuel = some (.ok s)) :
    Bounded p ∧ ∀ y, p.Feasible y → s.result.best ≠ {} ∧
      if p.isMaximization then p.userObjective y ≤ p.userObjective (point s.result.best.values) + 2 * delta
      else p.userObjective (point s.result.best.values) ≤ p.userObjective y + 2 * delta := by
  have hB : Bounded p := bounded_of_ok he.seesUnbounded hp h hs
  refine ⟨hB, ?_⟩
  rcases hn with hn | ⟨ho, hsort, hn, hi, htol⟩
  · exact (C90_optimal_partial he hp hB h hn fuel).1 s hs
  · exact (C90_with_cuts_partial he ho hsort hp hB hn hi htol h fuel).1 s hs

/-- A right outcome of `Solve` up to tolerances, for a problem that may be unbounded: either the error, and then the problem
has no feasible point or is unbounded, or OK, and then the problem is not unbounded, the best solution, if there is one,
satisfies bounds and constraints up to `eps` and integrality up to `tol`, and if there is a feasible point there is a best
solution, at most `gap` worse. -/
def SettlesWithin (p : Problem) (eps tol gap : ℚ) (o : Option (Outcome (Solver.State (Runner World)))) : Prop :=
  (o = some (.error "The problem is infeasible or unbounded") ∧ ((∀ y, ¬ p.Feasible y) ∨ Unbounded p)) ∨
  (¬ Unbounded p ∧ ∃ s, o = some (.ok s) ∧
    (s.result.best ≠ {} → p.FeasibleWithin eps tol (point s.result.best.values)) ∧
    ∀ y, p.Feasible y → s.result.best ≠ {} ∧
      if p.isMaximization then p.userObjective y ≤ p.userObjective (point s.result.best.values) + gap
      else p.userObjective (point s.result.best.values) ≤ p.userObjective y + gap)

theorem settlesWithin_of {p : Problem} (hp : p.WellFormed) {x : Setup.External} {user : Setup.ParamsMsg} {c : Setup.Created}
    (hc : Setup.create x p user = .ok c) (hn : NoCuts c.runner.params) {e : Engine} {eps delta : ℚ}
    (he : e.Approximate eps delta) {N : Nat} (hne : solve e c N ≠ none)
    (h : solve e c N = none ∨ (∃ s, solve e c N = some (.ok s)) ∨
      solve e c N = some (.error "The problem is infeasible or unbounded")) :
    SettlesWithin p eps (user.integralityTolerance.getD (1 / 10 ^ 6)) (2 * delta) (solve e c N) := by
  by_cases hB : Bounded p
  · rcases solvesWithin_of hp hB hc hn he hne h with ⟨h3, h4⟩ | ⟨s, h3, h4⟩
    · exact Or.inl ⟨h3, Or.inl h4⟩
    · exact Or.inr ⟨fun hU => hU.not_bounded hB, s, h3, h4⟩
  · rcases h with h | ⟨s, h⟩ | h
    · exact absurd h hne
    · exact absurd h ((C114_unbounded he.seesUnbounded hp (Or.inr (relaxation_unbounded hB)) hc).1 N s)
    · exact Or.inl ⟨h, no_optimum_of hp fun hB' => absurd hB' hB⟩

/-- **C114 on LP code with tolerances**, total correctness: C90 without supposing that the objective is bounded on the
relaxation. -/
theorem C114_approximate_total_partial (p : Problem) (hp : p.WellFormed) (hf : FiniteIntegers p) (eps delta : ℚ)
    (x : Setup.External) (user : Setup.ParamsMsg) (lp : LpParameters)
    (hlp : Setup.LpWins user.lp lp) (ht : Setup.GlopTakes lp)
    (hi : ∃ k ≤ 0, user.runner.bind (·.maxIterations) = some k)
    (hr : ∀ s, user.branching.bind (·.rule) ≠ some (.random s))
    (htol : 0 ≤ user.integralityTolerance.getD (1 / 10 ^ 6)) (heps : eps ≤ user.integralityTolerance.getD (1 / 10 ^ 6)) :
    ∃ c, Setup.create x p user = .ok c ∧ ∀ e : Engine, e.Approximate eps delta → e.GlopReturns →
      SettlesWithin p eps (user.integralityTolerance.getD (1 / 10 ^ 6)) (2 * delta) (solve e c (iterationBound p)) := by
  obtain ⟨c, hc⟩ := (Setup.C73_glop_partial x p hp user lp hlp ht.solver).1 ht
  obtain ⟨hn, dir, hrule⟩ := rule_of hp hc hi hr
  exact ⟨c, hc, fun e he hret => settlesWithin_of hp hc hn he
    (C90_ends_partial p hp hf e x user c dir eps he.nearly hc hrule htol heps)
    (C77_glop_never_aborts_partial hret hp hc (created_glop hc (by rw [← hlp.eq]; exact ht.solver)) hn htol _)⟩

/-- The same for SoPlex, if the bounds of the integer variables are integral and SoPlex accepts the parameter values. -/
theorem C114_approximate_soplex_total_partial (p : Problem) (hp : p.WellFormed) (hf : FiniteIntegers p)
    (hI : IntegralIntegers p) (eps delta : ℚ)
    (x : Setup.External) (set : Soplex.Settings) (user : Setup.ParamsMsg) (lp : LpParameters)
    (hset : Setup.newSoplex x = .ok set) (hx1 : ∀ r v, x.accepts.real r v = true) (hx2 : ∀ r v, x.accepts.int r v = true)
    (hlp : Setup.LpWins user.lp lp) (ht : Setup.SoplexTakes lp)
    (hi : ∃ k ≤ 0, user.runner.bind (·.maxIterations) = some k)
    (hr : ∀ s, user.branching.bind (·.rule) ≠ some (.random s))
    (htol : 0 ≤ user.integralityTolerance.getD (1 / 10 ^ 6)) (heps : eps ≤ user.integralityTolerance.getD (1 / 10 ^ 6)) :
    ∃ c, Setup.create x p user = .ok c ∧ ∀ e : Engine, e.Approximate eps delta → e.SoplexReturns →
      SettlesWithin p eps (user.integralityTolerance.getD (1 / 10 ^ 6)) (2 * delta) (solve e c (iterationBound p)) := by
  obtain ⟨c, hc⟩ := (Setup.C73_soplex_partial x (hx1 _ _) set hset p hp user lp hlp ht.solver).2 hx1 hx2 ht
  obtain ⟨hn, dir, hrule⟩ := rule_of hp hc hi hr
  obtain ⟨hd, h₀⟩ := created_refines hp hc
  obtain ⟨-, -, -, -, -, h6, -⟩ := Setup.create_ok hc
  have hs := fun e => primalShape (e := e) (c := c) (Good' := PlainSoplex (start c.lpi).program)
    (lp₀ := (start c.lpi).program) (fun _ h => h.good)
  rw [show (start c.lpi).program.cols.length = c.data.lower.length by
    rw [h₀.numCols, hd.lower, List.length_map]; rfl] at hs
  have hdk := Solver.dataOk_of_represents hd
  refine ⟨c, hc, fun e he hret => settlesWithin_of hp hc hn he
    (C90_ends_partial p hp hf e x user c dir eps he.nearly hc hrule htol heps)
    (soplex_never_aborts hret hp hI hc (soplex_created hc (by rw [← hlp.eq]; exact ht.solver)) hn hrule htol
      (contract_soplex_near hret he.nearly hp hn hd h₀)
      (Solver.trans_open_near hdk (integralBounds hp hI hd)
        (Solver.branchesBeyond_of_max hdk (hs e) (usesMaxFractional hrule) ?_ ?_)) _)⟩
  · rw [← h6] at htol; exact htol
  · rw [← h6] at heps; exact heps

/-! ### Cuts computed in doubles, and cuts of the user -/

theorem Engine.SeesUnbounded.rounded {e : Engine} (he : e.SeesUnbounded) : e.rounded.SeesUnbounded :=
  ⟨fun n s h => he.glop n s h, fun n g h => he.soplex n g h⟩

/-- **C114**, unbounded problems, with cuts computed in doubles and with cuts of the user.  For every well-formed unbounded
problem, all parameters, both interfaces and all LP code that never calls an unbounded LP optimal: `Solve` never returns
OK, whether cuts are generated and selected in doubles (on LP answers rounded to doubles) or by any generators and
selector of the user. -/
theorem C114_unbounded_doubles {e : Engine} (he : e.SeesUnbounded) {x : Setup.External} {p : Problem} (hp : p.WellFormed)
    (hU : Unbounded p) {user : Setup.ParamsMsg} {c : Setup.Created} (h : Setup.create x p user = .ok c) :
    (∀ s t q fuel st, doubleSolve s t q e c fuel ≠ some (.ok st)) ∧
    ∀ generators select fuel st, customSolve e c generators select fuel ≠ some (.ok st) :=
  ⟨fun s t q fuel st => (C114_unbounded_any_cuts he.rounded hp (Or.inl hU) h (doubleSeparate s t q e.rounded c)).1 fuel st,
    fun generators select fuel st =>
      (C114_unbounded_any_cuts he hp (Or.inl hU) h (customSeparate e c generators select)).1 fuel st⟩

/-- A run to which `C114_ok_partial` applies: the integer variables have no upper bounds. -/
example (x : Setup.External) : openProblem.WellFormed ∧ ¬ FiniteIntegers openProblem ∧ ∃ c s,
    Setup.create x openProblem exUser = .ok c ∧ NoCuts c.runner.params ∧
      solve perfect c (rangeBound openProblem fun _ => (0, 7 / 2)) = some (.ok s) := by
  obtain ⟨h1, h2, -, h4, h5, y, hy⟩ := openProblem_spec
  obtain ⟨c, hc, hs⟩ := C104_total_correctness openProblem h1 _ h4 h5 x exUser _ (Setup.lpWins _)
    (by refine ⟨⟨?_, ?_, ?_, ?_, ?_, ?_, ?_, ?_⟩, rfl, ?_, ?_, rfl, rfl⟩ <;>
        simp [exUser, Setup.LpMsg.read, ToleranceOk])
    ⟨0, le_rfl, rfl⟩ (by simp [exUser]) (by norm_num [exUser])
  obtain ⟨hn, -⟩ := rule_of h1 hc ⟨0, le_rfl, rfl⟩ (by simp [exUser])
  rcases hs perfect perfect_spec.1 perfect_spec.2 with ⟨-, h⟩ | ⟨s, h, -⟩
  · exact absurd hy (h y)
  · exact ⟨h1, h2, c, s, hc, hn, h⟩

/-- LP code that is not right, but right up to tolerances, and an unbounded problem with feasible points. -/
example : blurred.Approximate 0 (1 / 10 ^ 9) ∧ ¬ blurred.Right ∧ blurred.GlopReturns ∧ blurred.SoplexReturns ∧
    blurred.SeesUnbounded ∧ freeProblem.WellFormed ∧ FiniteIntegers freeProblem ∧ Unbounded freeProblem :=
  ⟨blurred_spec.1, blurred_spec.2.1, blurred_spec.2.2.1, blurred_spec.2.2.2, blurred_spec.1.seesUnbounded, freeProblem_spec⟩

end Program
end MiniMip
