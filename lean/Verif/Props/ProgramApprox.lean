import Verif.Props.LpSolution
import Verif.Props.ProgramTotal
import Verif.Props.SolverApprox

/-!
# C90: the program on LP code with tolerances

C74, C75, C76 and C78 for LP code whose answers are right up to tolerances only.
-/

namespace MiniMip
namespace Program

open Glop (LinearProgram Refines Extends)
open Solver (Oracle Contract guard point InBounds InRootBounds StartsAt NearBounds RowsNearlyHold NearlyFeasibleAnswer
  NearlyBoundedAnswer)

/-- The bounds and the rows of the LP hold up to `eps`. -/
def NearlyFeasible (lp : LinearProgram) (eps : ℚ) (x : Int → ℚ) : Prop :=
  (∃ x' : Int → ℚ, (∀ (c : Nat) (col : Glop.Column), lp.cols[c]? = some col → Between col.lower (x' c) col.upper) ∧
    ∀ c : Nat, c < lp.cols.length → |x c - x' c| ≤ eps) ∧
  ∀ (r : Nat) (row : Glop.Row), lp.rows[r]? = some row → BetweenUpTo eps row.lhs (lp.activity r x) row.rhs

/-- What an answer of the LP code is that is right up to tolerances: if it claims to be optimal, the point satisfies bounds
and rows up to `eps`, the objective value reported is that of the point up to `delta`, and no feasible point of the LP
is better than the value reported by more than `delta`; if not, the LP is infeasible or unbounded. -/
def ApproximateAnswer (lp : LinearProgram) (eps delta : ℚ) (optimal : Prop) (r : Report) : Prop :=
  (optimal → NearlyFeasible lp eps r.point ∧ ∃ z, r.objective = .fin z ∧ |z - lp.value r.point| ≤ delta ∧
    ∀ y, lp.Feasible y → if lp.maximize then lp.value y ≤ z + delta else z ≤ lp.value y + delta) ∧
  (¬ optimal → (∀ y, ¬ lp.Feasible y) ∨
    ∀ B : ℚ, ∃ y, lp.Feasible y ∧ if lp.maximize then B < lp.value y else lp.value y < B)

/-- The LP code reports points that satisfy bounds and rows up to `eps` whenever it claims to be optimal. -/
structure Engine.NearlyFeasible (e : Engine) (eps : ℚ) : Prop where
  glop : ∀ n s, (e.glop n s).2.1 = .optimal → Program.NearlyFeasible s.iface.lp eps (e.glop n s).2.2.2.point
  soplex : ∀ n g, (e.soplex n g).2.1.status = .optimal → Program.NearlyFeasible g.lp eps (e.soplex n g).2.2.point

/-- The LP code answers rightly up to tolerances. -/
structure Engine.Approximate (e : Engine) (eps delta : ℚ) : Prop where
  glop : ∀ n s, ApproximateAnswer s.iface.lp eps delta ((e.glop n s).2.1 = .optimal) (e.glop n s).2.2.2
  soplex : ∀ n g, ApproximateAnswer g.lp eps delta ((e.soplex n g).2.1.status = .optimal) (e.soplex n g).2.2

theorem Engine.Approximate.nearly {e : Engine} {eps delta : ℚ} (he : e.Approximate eps delta) : e.NearlyFeasible eps :=
  ⟨fun n s h => ((he.glop n s).1 h).1, fun n g h => ((he.soplex n g).1 h).1⟩

theorem Engine.NearlyFeasible.solve {e : Engine} {eps : ℚ} (he : e.NearlyFeasible eps) {w w' : World}
    (h : w.solve e = .ok w') (ho : w'.lp.isOptimal = true) :
    Program.NearlyFeasible w'.lp.program eps w'.report.point := by
  obtain ⟨h1, -, -, h2⟩ := solve_world h
  rw [h1]
  cases hl : w.lp with
  | glop s =>
    rw [hl] at h2
    rw [h2.1]
    exact he.glop _ _ (h2.2.mp ho)
  | soplex g =>
    rw [hl] at h2
    rw [h2.1]
    exact he.soplex _ _ (h2.2.mp ho)

theorem Engine.Approximate.solve {e : Engine} {eps delta : ℚ} (he : e.Approximate eps delta) {w w' : World}
    (h : w.solve e = .ok w') :
    ApproximateAnswer w'.lp.program eps delta (w'.lp.isOptimal = true) w'.report := by
  obtain ⟨h1, -, -, h2⟩ := solve_world h
  rw [h1]
  cases hl : w.lp with
  | glop s =>
    rw [hl] at h2
    rw [h2.1, h2.2]
    exact he.glop _ _
  | soplex g =>
    rw [hl] at h2
    rw [h2.1, h2.2]
    exact he.soplex _ _

theorem NearlyFeasible.congr {lp : LinearProgram} {eps : ℚ} {x y : Int → ℚ} (h : ∀ c < lp.cols.length, x c = y c)
    (hx : NearlyFeasible lp eps y) : NearlyFeasible lp eps x := by
  obtain ⟨⟨x', h1, h2⟩, h3⟩ := hx
  refine ⟨⟨x', h1, fun c hc => by rw [h c hc]; exact h2 c hc⟩, fun r row hr => ?_⟩
  rw [(lp.congr h).2.2 r]
  exact h3 r row hr

theorem rowsNearlyHold_of {p : Problem} (hp : p.WellFormed) {d : MipData} (hd : d.Represents p)
    {lp₀ lp : LinearProgram} (h₀ : Refines lp₀ p.relaxation) (hl : Extends lp₀ lp) {eps : ℚ} {x : Int → ℚ}
    (hx : ∀ (r : Nat) (row : Glop.Row), lp.rows[r]? = some row →
      BetweenUpTo eps row.lhs (lp.activity r x) row.rhs) : RowsNearlyHold d eps x := by
  intro r l u m v hl' hu hv
  rw [hd.lhs, List.getElem?_map, Option.map_eq_some_iff] at hl'
  obtain ⟨k, hk, rfl⟩ := hl'
  rw [hd.rhs, List.getElem?_map, hk] at hu
  cases hu
  obtain ⟨m', v', h1, -, -, h2, -⟩ := hd.rows r k hk
  rw [h1] at hv
  cases hv
  have hlt := (List.getElem?_eq_some_iff.mp hk).1
  have hlt' : r < lp₀.rows.length := by rw [h₀.numRows]; exact hlt
  have h3 := h₀.rows r _ (List.getElem?_eq_getElem hlt')
  obtain ⟨extra, he⟩ := hl.rows
  have h4 := hx r lp₀.rows[r] (by rw [he, List.getElem?_append_left hlt', List.getElem?_eq_getElem hlt'])
  rw [hl.activity hlt', h3.1, h3.2, h₀.activity (s := p.relaxation) hlt] at h4
  rw [h2, ← relaxation_activity hp hk]
  simpa [Problem.relaxation, hk] using h4

theorem nearBounds_of {d : MipData} {r : Runner World} {eps : ℚ} {x : Int → ℚ}
    (hlen : r.world.lp.program.cols.length = d.lower.length) (hx : NearlyFeasible r.world.lp.program eps x) :
    NearBounds d bounds r eps x := by
  obtain ⟨⟨x', h1, h2⟩, -⟩ := hx
  exact ⟨x', inBounds_of hlen h1, fun n hn => h2 n (by rw [hlen]; exact hn)⟩

theorem answer_near {e : Engine} {eps : ℚ} (he : e.NearlyFeasible eps) {p : Problem} (hp : p.WellFormed)
    {c : Setup.Created} (hd : c.data.Represents p) {lp₀ : LinearProgram}
    (h₀ : Refines lp₀ p.relaxation) (w w' : World) (hw : Extends lp₀ w.lp.program)
    (hs : w.solve e = .ok w') :
    NearlyFeasibleAnswer (guard (oracle e c) (Good lp₀)) c.data bounds eps { world := w' } := by
  intro ho values hv
  have hg : Good lp₀ { world := w' } := by
    show Extends lp₀ w'.lp.program
    rw [(solve_world hs).1]; exact hw
  have ho' : w'.lp.isOptimal = true := (if_pos hg).symm.trans ho
  have hv' : w'.primal = .ok values := (if_pos hg).symm.trans hv
  have hf := (he.solve hs ho').congr (primal_spec hv').2
  refine ⟨nearBounds_of ?_ hf, rowsNearlyHold_of hp hd h₀ hg hf.2⟩
  rw [hg.numCols, h₀.numCols, hd.lower, List.length_map]; rfl

/-- **C90, feasibility.**  For every well-formed problem, all parameters that `Create` takes, both LP interfaces, with cuts
or without: if the LP code reports points that satisfy the bounds and rows of the LP up to `eps` whenever it claims to
be optimal, then the solutions that `Solve` returns satisfy the bounds and constraints of the user's problem
up to `eps`, and integer variables are integral up to the integrality tolerance. -/
theorem C90_feasible {e : Engine} {eps : ℚ} (he : e.NearlyFeasible eps) {x : Setup.External} {p : Problem}
    (hp : p.WellFormed) {user : Setup.ParamsMsg} {c : Setup.Created} (h : Setup.create x p user = .ok c)
    {fuel : Nat} {s : Solver.State (Runner World)} (hs : solve e c fuel = some (.ok s)) :
    (s.result.best = {} ∨
      p.FeasibleWithin eps (user.integralityTolerance.getD (1 / 10 ^ 6)) (point s.result.best.values)) ∧
    ∀ sol ∈ s.result.additional,
      p.FeasibleWithin eps (user.integralityTolerance.getD (1 / 10 ^ 6)) (point sol.values) := by
  obtain ⟨hd, h₀⟩ := created_refines hp h
  have htol : (params c).tol = user.integralityTolerance.getD (1 / 10 ^ 6) := by
    obtain ⟨-, -, -, -, -, h6, -⟩ := Setup.create_ok h
    exact h6
  have hg : Good (start c.lpi).program { world := { lp := start c.lpi } } := Extends.refl _
  have hsh := primalShape (e := e) (c := c) (Good' := Good (start c.lpi).program) (fun _ h => h)
  rw [h₀.numCols] at hsh
  rw [← htol]
  refine Solver.C89_feasible hd hsh (contract_of (A := fun w => NearlyFeasibleAnswer
    (guard (oracle e c) (Good (start c.lpi).program)) c.data bounds eps { world := w })
      (answer_near he hp hd h₀)).guard hg (startsAt hd h₀) (fuel := fuel) ?_
  rw [Solver.guard_solveFuel keeps_good _ _ (by exact hg)]
  exact hs

/-- **C90, termination.**  For every well-formed problem whose integer variables have finite bounds, both
LP interfaces, with cuts or without, and all parameters that `Create` takes with the max-fractional rule: if the LP
code's optimal points satisfy the bounds and rows of the LP up to `eps`, and `eps` is at most the integrality tolerance,
then `Solve` has ended within twice as many iterations as there are integer points within the bounds of the
integer variables.

Missing for C90: the random rule, larger tolerances of the LP code (`C89_ends_violated`). -/
theorem C90_ends_partial (p : Problem) (hp : p.WellFormed) (hf : FiniteIntegers p) (e : Engine) (x : Setup.External)
    (user : Setup.ParamsMsg) (c : Setup.Created) (dir : Setup.Direction) (eps : ℚ) (he : e.NearlyFeasible eps)
    (h : Setup.create x p user = .ok c) (hr : c.rule = .maxFractional dir)
    (htol : 0 ≤ user.integralityTolerance.getD (1 / 10 ^ 6))
    (heps : eps ≤ user.integralityTolerance.getD (1 / 10 ^ 6)) : solve e c (iterationBound p) ≠ none := by
  obtain ⟨-, -, -, -, -, h6, -⟩ := Setup.create_ok h
  obtain ⟨hrep, h₀⟩ := created_refines hp h
  have hs := primalShape (e := e) (c := c) (Good' := Good (start c.lpi).program) (fun _ h => h)
  rw [h₀.numCols] at hs
  have hs' : Solver.PrimalShape (guard (oracle e c) (Good (start c.lpi).program)) c.data.lower.length := by
    rw [hrep.lower, List.length_map]; exact hs
  have hg : Good (start c.lpi).program { world := { lp := start c.lpi } } := Extends.refl _
  rw [← h6] at htol heps
  have := Solver.C89_ends_partial c.data (Solver.dataOk_of_represents hrep) (finiteBounds hf hrep)
    (Runner World) _ (params c) (Good (start c.lpi).program) bounds
    { world := { lp := start c.lpi } } eps heps htol hs'
    (contract_of (A := fun w => NearlyBoundedAnswer (guard (oracle e c) (Good (start c.lpi).program))
        c.data bounds eps { world := w })
      (fun w w' hw hs ho values hv => (answer_near he hp hrep h₀ w w' hw hs ho values hv).1)).guard
    (usesMaxFractional hr) hg (startsAt hrep h₀)
  rw [Solver.guard_solveFuel keeps_good _ _ (by exact hg), iterationBound_eq hrep] at this
  exact this

/-! ### Optimality without cuts -/

section
variable {p : Problem} {d : MipData} {lp₀ : LinearProgram} {r : Runner World}

theorem plain_length (hd : d.Represents p) (h₀ : Refines lp₀ p.relaxation) (hr : Plain lp₀ r) :
    r.world.lp.program.cols.length = d.lower.length := by
  rw [hr.good.numCols, h₀.numCols, hd.lower, List.length_map]; rfl

theorem plain_value (hp : p.WellFormed) (hd : d.Represents p) (h₀ : Refines lp₀ p.relaxation) (hr : Plain lp₀ r)
    (y : Int → ℚ) : r.world.lp.program.value y = d.objective.eval y := by
  rw [hr.good.value, h₀.value, (relaxation_points p hp y).2]
  have := hd.objective y
  have ho := hd.offset
  split <;> rename_i hm <;> simp only [hm, if_true, if_false, Bool.false_eq_true] at this ho <;> linarith

theorem plain_sense (h₀ : Refines lp₀ p.relaxation) (hr : Plain lp₀ r) : r.world.lp.program.maximize = false := by
  rw [hr.good.sense, h₀.sense]; rfl

/-- Points of the problem within the LP's bounds are points of the LP. -/
theorem plain_point (hp : p.WellFormed) (hd : d.Represents p) (h₀ : Refines lp₀ p.relaxation) (hr : Plain lp₀ r)
    {y : Int → ℚ} (hy : d.Feasible y) (hb : InBounds d bounds r y) : r.world.lp.program.Feasible y := by
  have hyf := ((C09_same_optima p d hd y).1).1 hy
  refine rows_hold hp h₀ hr.good hr.numRows hyf.2 fun n col hcol => ?_
  have hlt := (List.getElem?_eq_some_iff.mp hcol).1
  have := hb n (by rw [← plain_length hd h₀ hr]; exact hlt)
  rw [bounds_nat, hcol] at this
  exact this

/-- Within bounds at least as tight as those of the problem, the LP is bounded. -/
theorem plain_bounded (hp : p.WellFormed) (hB : Bounded p) (hd : d.Represents p) (h₀ : Refines lp₀ p.relaxation)
    (hr : Plain lp₀ r) (hsub : ∀ y, InBounds d bounds r y → InRootBounds d y) :
    ¬ ∀ B : ℚ, ∃ y, r.world.lp.program.Feasible y ∧
      if r.world.lp.program.maximize then B < r.world.lp.program.value y else r.world.lp.program.value y < B := by
  intro h1
  obtain ⟨B, hB⟩ := hB
  have hrel : ∀ z, r.world.lp.program.Feasible z → p.RelaxedFeasible z := by
    intro z hz
    have hzb : InBounds d bounds r z := inBounds_of (plain_length hd h₀ hr) hz.1
    have hzr := hsub z hzb
    refine ⟨fun n v hv => hzr n v.lower v.upper (by rw [hd.lower]; simp [hv])
      (by rw [hd.upper]; simp [hv]), fun k hk => ?_⟩
    obtain ⟨i, hi⟩ := List.getElem?_of_mem hk
    have hlt : i < p.relaxation.numRows := (List.getElem?_eq_some_iff.mp hi).1
    have hlt' : i < lp₀.rows.length := by rw [h₀.numRows]; exact hlt
    have h3 := h₀.rows i _ (List.getElem?_eq_getElem hlt')
    have h4 := hr.good.holds hz (List.getElem?_eq_getElem hlt')
    rw [h3.1, h3.2, h₀.activity hlt, relaxation_activity hp hi] at h4
    simpa [Problem.relaxation, hi] using h4
  cases hm : p.isMaximization with
  | false =>
    obtain ⟨z, hz, hlt⟩ := h1 (B - p.offset)
    have hb := hB z (hrel z hz)
    rw [plain_sense h₀ hr, hr.good.value, h₀.value, (relaxation_points p hp z).2] at hlt
    simp only [hm, Bool.false_eq_true, if_false] at hb hlt
    linarith
  | true =>
    obtain ⟨z, hz, hlt⟩ := h1 (-(B - p.offset))
    have hb := hB z (hrel z hz)
    rw [plain_sense h₀ hr, hr.good.value, h₀.value, (relaxation_points p hp z).2] at hlt
    simp only [hm, Bool.false_eq_true, if_false, if_true] at hb hlt
    linarith

end

theorem contract_approximate {e : Engine} {eps delta : ℚ} (he : e.Approximate eps delta) {p : Problem}
    (hp : p.WellFormed) {c : Setup.Created} (hn : NoCuts c.runner.params) (hB : Bounded p) (hd : c.data.Represents p)
    {lp₀ : LinearProgram} (h₀ : Refines lp₀ p.relaxation) :
    Contract (guard (oracle e c) (Plain lp₀)) (Plain lp₀) bounds
      (Solver.ApproximateAnswer (guard (oracle e c) (Plain lp₀)) c.data bounds eps delta) := by
  have hk := keeps_plain (e := e) hn (d := c.data) (lp₀ := lp₀)
  have hA : ∀ r r' : Runner World, Plain lp₀ r → (oracle e c).solve r = .ok r' →
      Solver.ApproximateAnswer (guard (oracle e c) (Plain lp₀)) c.data bounds eps delta r' := by
    intro r r' hr hs
    have hr' := hk.solve r r' hr hs
    have hra := he.solve (solve_spec hs).1
    constructor
    · intro ho values hv
      have ho' : r'.world.lp.isOptimal = true := (if_pos hr').symm.trans ho
      have hv' : r'.world.primal = .ok values := (if_pos hr').symm.trans hv
      obtain ⟨h1, z, h2, h3, h5⟩ := hra.1 ho'
      have h1 := h1.congr (primal_spec hv').2
      obtain ⟨-, h4, -⟩ := r'.world.lp.program.congr (primal_spec hv').2
      rw [← h4, plain_value hp hd h₀ hr'] at h3
      refine ⟨nearBounds_of (plain_length hd h₀ hr') h1, rowsNearlyHold_of hp hd h₀ hr'.good h1.2, z, h2, h3,
        fun y hy hyb => ?_⟩
      have := h5 y (plain_point hp hd h₀ hr' hy hyb)
      rw [plain_sense h₀ hr', if_neg (by simp), plain_value hp hd h₀ hr'] at this
      exact this
    · intro ho hsub y hy hyb
      have ho' : ¬ r'.world.lp.isOptimal = true := by
        rw [← Bool.not_eq_true] at ho
        exact fun h => ho ((if_pos hr').trans h)
      rcases hra.2 ho' with h1 | h1
      · exact h1 y (plain_point hp hd h₀ hr' hy hyb)
      · exact plain_bounded hp hB hd h₀ hr' hsub h1
  apply Solver.Contract.guard
  constructor
  · intro r j l u r' hg h
    obtain ⟨-, -, h1, h2, h3⟩ := setBounds_spec h
    refine ⟨⟨?_, by rw [h1]; exact hg.numRows, by rw [h3]; exact hg.rounds, by rw [h3]; exact hg.added⟩, h2⟩
    show Extends lp₀ r'.world.lp.program
    rw [h1]
    exact Extends.withBounds hg.good _ _ _
  · intro r r' hg h
    exact ⟨hk.solve r r' hg h, (solve_spec h).2.2.1, hA r r' hg h⟩
  · intro r r' hg ha _ h
    have : r = r' := Outcome.ok.inj ((separate_plain hn hg).symm.trans h)
    rw [← this]; exact ⟨hg, rfl, ha⟩
  · intro r r' col up hg h
    exact ⟨hk.branch r r' col up hg h, bounds_congr fun c => by rw [(branch_spec h).1]⟩

/-- **C90, optimality.**  For every well-formed problem with an objective bounded on the relaxation, both
LP interfaces, every branching rule and all parameters that switch the cut runner off: if the LP code
answers rightly up to `eps` and `delta` and `Solve` returns OK, then for every feasible point of the user's problem there
is a recorded solution and the best one is worse by at most `2 * delta`; if it returns an error, there is no feasible
point.

Missing for C90: the parameters with cuts. -/
theorem C90_optimal_partial {e : Engine} {eps delta : ℚ} (he : e.Approximate eps delta) {x : Setup.External} {p : Problem}
    (hp : p.WellFormed) (hB : Bounded p) {user : Setup.ParamsMsg} {c : Setup.Created}
    (h : Setup.create x p user = .ok c) (hn : NoCuts c.runner.params) (fuel : Nat) :
    (∀ s, solve e c fuel = some (.ok s) → ∀ y, p.Feasible y →
      s.result.best ≠ {} ∧
      if p.isMaximization then p.userObjective y ≤ p.userObjective (point s.result.best.values) + 2 * delta
      else p.userObjective (point s.result.best.values) ≤ p.userObjective y + 2 * delta) ∧
    ∀ m, solve e c fuel = some (.error m) → ∀ y, ¬ p.Feasible y := by
  obtain ⟨hd, h₀⟩ := created_refines hp h
  have hs := primalShape (e := e) (c := c) (Good' := Plain (start c.lpi).program) (fun _ h => h.good)
  rw [h₀.numCols] at hs
  have := Solver.C89_approximate (prm := params c) hd hs (contract_approximate he hp hn hB hd h₀)
    (plain_start c) (startsAt hd h₀) (fuel := fuel)
  rw [Solver.guard_solveFuel (keeps_plain hn) _ _ (by exact plain_start c)] at this
  exact ⟨fun s hs => (this.1 s hs).2, this.2⟩

/-! ### Total correctness -/

/-- A right outcome of `Solve` up to tolerances: either it reports an error and the problem is infeasible, or it returns
OK and: if there is a best solution, it satisfies all bounds and constraints up to `eps` and integrality up to `tol`; if
the problem has a feasible point, there is a best solution and it is at most `gap` worse than that point. -/
def SolvesWithin (p : Problem) (eps tol gap : ℚ) (o : Option (Outcome (Solver.State (Runner World)))) : Prop :=
  (o = some (.error "The problem is infeasible or unbounded") ∧ ∀ y, ¬ p.Feasible y) ∨
  ∃ s, o = some (.ok s) ∧
    (s.result.best ≠ {} → p.FeasibleWithin eps tol (point s.result.best.values)) ∧
    ∀ y, p.Feasible y → s.result.best ≠ {} ∧
      if p.isMaximization then p.userObjective y ≤ p.userObjective (point s.result.best.values) + gap
      else p.userObjective (point s.result.best.values) ≤ p.userObjective y + gap

theorem solvesWithin_of {p : Problem} (hp : p.WellFormed) (hB : Bounded p) {x : Setup.External}
    {user : Setup.ParamsMsg} {c : Setup.Created} (hc : Setup.create x p user = .ok c)
    (hn : NoCuts c.runner.params) {e : Engine} {eps delta : ℚ} (he : e.Approximate eps delta) {N : Nat}
    (hne : solve e c N ≠ none)
    (h : solve e c N = none ∨ (∃ s, solve e c N = some (.ok s)) ∨
      solve e c N = some (.error "The problem is infeasible or unbounded")) :
    SolvesWithin p eps (user.integralityTolerance.getD (1 / 10 ^ 6)) (2 * delta) (solve e c N) := by
  rcases h with h | ⟨s, h⟩ | h
  · exact absurd h hne
  · right
    refine ⟨s, h, fun hb => ?_, (C90_optimal_partial he hp hB hc hn N).1 s h⟩
    exact (C90_feasible he.nearly hp hc h).1.resolve_left hb
  · exact Or.inl ⟨h, (C90_optimal_partial he hp hB hc hn N).2 _ h⟩

/-- **C90.**  For every well-formed problem whose integer variables have finite bounds and whose objective
is bounded on the relaxation: with `max_iterations` of the cut runner at most zero, no random branching, an integrality
tolerance of at least `eps` and valid LP parameters for Glop, `Create` succeeds, and whatever LP code that answers
rightly up to `eps` and `delta` it runs on, `Solve` has returned after at most `iterationBound p` iterations, with an
outcome that is right up to `eps`, the integrality tolerance and `2 * delta`. -/
theorem C90_total_correctness (p : Problem) (hp : p.WellFormed) (hf : FiniteIntegers p) (hB : Bounded p)
    (eps delta : ℚ) :
    ∀ (x : Setup.External) (user : Setup.ParamsMsg) (lp : LpParameters),
      Setup.LpWins user.lp lp → Setup.GlopTakes lp →
      (∃ k ≤ 0, user.runner.bind (·.maxIterations) = some k) →
      (∀ s, user.branching.bind (·.rule) ≠ some (.random s)) →
      0 ≤ user.integralityTolerance.getD (1 / 10 ^ 6) →
      eps ≤ user.integralityTolerance.getD (1 / 10 ^ 6) →
      ∃ c, Setup.create x p user = .ok c ∧ ∀ e : Engine, e.Approximate eps delta → e.GlopReturns →
        SolvesWithin p eps (user.integralityTolerance.getD (1 / 10 ^ 6)) (2 * delta)
          (solve e c (iterationBound p)) := by
  intro x user lp hlp ht hi hr htol heps
  obtain ⟨c, hc⟩ := (Setup.C73_glop_partial x p hp user lp hlp ht.solver).1 ht
  obtain ⟨hn, dir, hrule⟩ := rule_of hp hc hi hr
  exact ⟨c, hc, fun e he hret => solvesWithin_of hp hB hc hn he
    (C90_ends_partial p hp hf e x user c dir eps he.nearly hc hrule htol heps)
    (C77_glop_never_aborts_partial hret hp hc (created_glop hc (by rw [← hlp.eq]; exact ht.solver)) hn htol _)⟩

theorem contract_soplex_near {e : Engine} (he : e.SoplexReturns) {eps : ℚ} (hfe : e.NearlyFeasible eps) {p : Problem}
    (hp : p.WellFormed) {c : Setup.Created} (hn : NoCuts c.runner.params) (hd : c.data.Represents p)
    {lp₀ : LinearProgram} (h₀ : Refines lp₀ p.relaxation) :
    Contract (guard (oracle e c) (PlainSoplex lp₀)) (PlainSoplex lp₀) bounds
      (NearlyBoundedAnswer (guard (oracle e c) (PlainSoplex lp₀)) c.data bounds eps) := by
  have hk : ∀ {d : MipData}, Solver.Keeps (oracle e c) d (PlainSoplex lp₀) := keeps_plainSoplex he hn
  have hc := contract_of (e := e) (c := c)
    (A := fun w => NearlyFeasibleAnswer (guard (oracle e c) (Good lp₀)) c.data bounds eps { world := w })
    (answer_near hfe hp hd h₀)
  have hA : ∀ r, PlainSoplex lp₀ r →
      NearlyFeasibleAnswer (guard (oracle e c) (Good lp₀)) c.data bounds eps { world := r.world } →
      NearlyBoundedAnswer (guard (oracle e c) (PlainSoplex lp₀)) c.data bounds eps r := by
    intro r hr h ho values hv
    have hgood : Good lp₀ { world := r.world } := hr.good
    exact (h ((if_pos hgood).trans ((if_pos hr).symm.trans ho)) values
      ((if_pos hgood).trans ((if_pos hr).symm.trans hv))).1
  refine Solver.Contract.guard ⟨?_, ?_, ?_, ?_⟩
  · intro r j l u r' hr h
    exact ⟨(hk (d := { c.data with integerVariables := [j] })).setBounds r hr j (by simp) l u r' h,
      (hc.setBounds r j l u r' hr.good h).2⟩
  · intro r r' hr h
    have hr' := (hk (d := c.data)).solve r r' hr h
    obtain ⟨-, h2, h3⟩ := hc.solve r r' hr.good h
    exact ⟨hr', h2, hA r' hr' h3⟩
  · intro r r' hr ha _ h
    have : r = r' := Outcome.ok.inj ((separate_plain hn hr.toPlain).symm.trans h)
    subst this
    exact ⟨hr, rfl, ha⟩
  · intro r r' col up hr h
    exact ⟨(hk (d := c.data)).branch r r' col up hr h, (hc.branch r r' col up hr.good h).2⟩

/-- **C90 for SoPlex.**  The same with SoPlex, if the bounds of the integer variables are integral (see
`C77_soplex_crossing_bounds_violated`) and SoPlex accepts the parameter values. -/
theorem C90_soplex_total_correctness_partial (p : Problem) (hp : p.WellFormed) (hf : FiniteIntegers p)
    (hI : IntegralIntegers p) (hB : Bounded p) (eps delta : ℚ) :
    ∀ (x : Setup.External) (set : Soplex.Settings) (user : Setup.ParamsMsg) (lp : LpParameters),
      Setup.newSoplex x = .ok set → (∀ r v, x.accepts.real r v = true) → (∀ r v, x.accepts.int r v = true) →
      Setup.LpWins user.lp lp → Setup.SoplexTakes lp →
      (∃ k ≤ 0, user.runner.bind (·.maxIterations) = some k) →
      (∀ s, user.branching.bind (·.rule) ≠ some (.random s)) →
      0 ≤ user.integralityTolerance.getD (1 / 10 ^ 6) →
      eps ≤ user.integralityTolerance.getD (1 / 10 ^ 6) →
      ∃ c, Setup.create x p user = .ok c ∧ ∀ e : Engine, e.Approximate eps delta → e.SoplexReturns →
        SolvesWithin p eps (user.integralityTolerance.getD (1 / 10 ^ 6)) (2 * delta)
          (solve e c (iterationBound p)) := by
  intro x set user lp hset hx1 hx2 hlp ht hi hr htol heps
  obtain ⟨c, hc⟩ := (Setup.C73_soplex_partial x (hx1 _ _) set hset p hp user lp hlp ht.solver).2 hx1 hx2 ht
  obtain ⟨hn, dir, hrule⟩ := rule_of hp hc hi hr
  obtain ⟨hd, h₀⟩ := created_refines hp hc
  obtain ⟨-, -, -, -, -, h6, -⟩ := Setup.create_ok hc
  have hs := fun e => primalShape (e := e) (c := c) (Good' := PlainSoplex (start c.lpi).program)
    (lp₀ := (start c.lpi).program) (fun _ h => h.good)
  rw [show (start c.lpi).program.cols.length = c.data.lower.length by
    rw [h₀.numCols, hd.lower, List.length_map]; rfl] at hs
  have hdk := Solver.dataOk_of_represents hd
  refine ⟨c, hc, fun e he hret => solvesWithin_of hp hB hc hn he
    (C90_ends_partial p hp hf e x user c dir eps he.nearly hc hrule htol heps)
    (soplex_never_aborts hret hp hI hc (soplex_created hc (by rw [← hlp.eq]; exact ht.solver)) hn hrule htol
      (contract_soplex_near hret he.nearly hp hn hd h₀)
      (Solver.trans_open_near hdk (integralBounds hp hI hd)
        (Solver.branchesBeyond_of_max hdk (hs e) (usesMaxFractional hrule) ?_ ?_)) _)⟩
  · rw [← h6] at htol; exact htol
  · rw [← h6] at heps; exact heps

/-- LP code that answers rightly does so up to any tolerances. -/
theorem Engine.Right.approximate {e : Engine} (he : e.Right) {eps delta : ℚ} (h1 : 0 ≤ eps) (h2 : 0 ≤ delta) :
    e.Approximate eps delta := by
  have key : ∀ {lp : LinearProgram} {o : Prop} {r : Report}, RightAnswer lp o r → ApproximateAnswer lp eps delta o r := by
    intro lp o r h
    refine ⟨fun ho => ?_, h.2⟩
    obtain ⟨hf, hv, hb⟩ := h.1 ho
    refine ⟨⟨⟨_, hf.1, fun c _ => by rw [sub_self, abs_zero]; exact h1⟩, fun r row hr => ?_⟩, _, hv,
      by rw [sub_self, abs_zero]; exact h2, fun y hy => ?_⟩
    · exact Solver.betweenUpTo_of_near (hf.2 r row hr) (by rw [sub_self, abs_zero]; exact h1)
    · have := hb y hy
      split <;> rename_i hm <;> simp only [hm, if_true, Bool.false_eq_true, if_false] at this <;> linarith
  exact ⟨fun n s => key (he.glop n s), fun n g => key (he.soplex n g)⟩

/-- LP code that solves every LP, but reports objective values that are too large by `10⁻⁹`. -/
noncomputable def blurred : Engine :=
  { perfect with
    glop := fun n s => ((perfect.glop n s).1, (perfect.glop n s).2.1, (perfect.glop n s).2.2.1,
      { (perfect.glop n s).2.2.2 with
        objective := .fin (s.iface.lp.value (perfect.glop n s).2.2.2.point + 1 / 10 ^ 9) })
    soplex := fun n g => ((perfect.soplex n g).1, (perfect.soplex n g).2.1,
      { (perfect.soplex n g).2.2 with objective := .fin (g.lp.value (perfect.soplex n g).2.2.point + 1 / 10 ^ 9) }) }

theorem blurred_spec : blurred.Approximate 0 (1 / 10 ^ 9) ∧ ¬ blurred.Right ∧ blurred.GlopReturns ∧
    blurred.SoplexReturns := by
  have key : ∀ {lp : LinearProgram} {o : Prop} {r : Report}, RightAnswer lp o r → ApproximateAnswer lp 0 (1 / 10 ^ 9) o
      { r with objective := .fin (lp.value r.point + 1 / 10 ^ 9) } := by
    intro lp o r h
    refine ⟨fun ho => ?_, h.2⟩
    obtain ⟨hf, hv, hb⟩ := h.1 ho
    have hpt : Report.point { r with objective := .fin (lp.value r.point + 1 / 10 ^ 9) } = r.point := rfl
    rw [hpt]
    refine ⟨⟨⟨_, hf.1, fun c _ => by rw [sub_self, abs_zero]⟩, fun r row hr => ?_⟩, _, rfl,
      by rw [add_sub_cancel_left]; norm_num, fun y hy => ?_⟩
    · exact Solver.betweenUpTo_of_near (hf.2 r row hr) (by rw [sub_self, abs_zero])
    · have := hb y hy
      split <;> rename_i hm <;> simp only [hm, if_true, Bool.false_eq_true, if_false] at this <;> linarith
  refine ⟨⟨fun n s => key (perfect_spec.1.glop n s), fun n g => key (perfect_spec.1.soplex n g)⟩, fun hr => ?_,
    perfect_spec.2, ⟨perfect_soplex.eps, perfect_soplex.clear, perfect_soplex.throws, perfect_soplex.iterations,
      perfect_soplex.fine, perfect_soplex.time, perfect_soplex.values⟩⟩
  let s0 : Glop.Session := { iface := {}, settings := Glop.tenIterations }
  have hp := perfect_spec.1.glop 0 s0
  have ho : (perfect.glop 0 s0).2.1 = .optimal := by
    by_contra hn
    rcases hp.2 hn with h | h
    · exact h (fun _ => 0) ⟨fun c col hc => by simp [s0] at hc, fun r row hr => by simp [s0] at hr⟩
    · obtain ⟨y, -, hy⟩ := h 0
      simp [LinearProgram.value, s0] at hy
  have h1 := ((hr.glop 0 s0).1 ho).2.1
  have h2 := Dbl.fin.inj h1
  have h3 : (blurred.glop 0 s0).2.2.2.point = (perfect.glop 0 s0).2.2.2.point := rfl
  rw [h3] at h2
  norm_num at h2

/-- The hypotheses of C90 are met by LP code that is not exact. -/
example : blurred.Approximate 0 (1 / 10 ^ 9) ∧ ¬ blurred.Right ∧ blurred.NearlyFeasible 0 ∧ blurred.GlopReturns ∧
    blurred.SoplexReturns ∧ exProblem.WellFormed ∧ FiniteIntegers exProblem ∧ Bounded exProblem ∧
    (∃ y, exProblem.Feasible y) ∧
    ∀ x, ∃ c dir, Setup.create x exProblem exUser = .ok c ∧ NoCuts c.runner.params ∧
      c.rule = .maxFractional dir ∧ SolvesWithin exProblem 0 (1 / 10 ^ 6) (2 * (1 / 10 ^ 9))
        (solve blurred c (iterationBound exProblem)) := by
  obtain ⟨h1, h2, h3, h4⟩ := exProblem_spec
  obtain ⟨b1, b2, b3, b4⟩ := blurred_spec
  refine ⟨b1, b2, b1.nearly, b3, b4, h1, h2, h3, h4, fun x => ?_⟩
  obtain ⟨c, hc, hs⟩ := C90_total_correctness exProblem h1 h2 h3 0 (1 / 10 ^ 9) x exUser _ (Setup.lpWins _)
    (by refine ⟨⟨?_, ?_, ?_, ?_, ?_, ?_, ?_, ?_⟩, rfl, ?_, ?_, rfl, rfl⟩ <;>
      simp [exUser, Setup.LpMsg.read, ToleranceOk]) ⟨0, le_rfl, rfl⟩ (by intro s h; cases h) (by norm_num [exUser])
    (by norm_num [exUser])
  obtain ⟨hn, dir, hrule⟩ := rule_of h1 hc ⟨0, le_rfl, rfl⟩ (by intro s h; cases h)
  exact ⟨c, dir, hc, hn, hrule, hs blurred b1 b3⟩

end Program
end MiniMip
