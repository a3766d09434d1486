import Verif.Props.ProgramLimits
import Verif.Props.ProgramEquivalent

/-!
# C111: the result that Solve fills in

`MiniMipResult` (problem.h:92-101) has a status, a stopping reason, two bounds and an error message beside the solutions.
What does the caller find in them when `Solve` has returned, with OK or with an error?
-/

namespace MiniMip

namespace Solver

variable {W : Type}

/-- Nothing but solutions has been written. -/
def OnlySolutions (r : SolveResult) : Prop :=
  r.stoppingReason = none ∧ r.errorMessage = "" ∧ r.bestPrimalBound = none ∧ r.bestDualBound = none

theorem OnlySolutions.addSolution {r : SolveResult} (h : OnlySolutions r) (sol : Solution) :
    OnlySolutions (r.addSolution sol) ∧ (r.addSolution sol).solveStatus = r.solveStatus := by
  unfold SolveResult.addSolution
  split
  · split <;> exact ⟨h, rfl⟩
  · exact ⟨h, rfl⟩

theorem iterate_result {o : Oracle W} {d : MipData} {prm : Params} {s : State W} {st : Step W}
    (h : iterate o d prm s = .ok st) :
    st.state.result = s.result ∨ ∃ sol, st.state.result = s.result.addSolution sol := by
  unfold iterate at h
  split at h
  · cases h; exact .inl rfl
  · simp only [Outcome.bind_eq_ok] at h
    obtain ⟨lb, -, ub, -, w, -, h⟩ := h
    split at h
    · simp only [optimalNode, Outcome.bind_eq_ok] at h
      obtain ⟨tree, -, values, -, integral, -, h⟩ := h
      split at h
      · split at h <;> cases h <;> exact .inr ⟨_, rfl⟩
      · simp only [branchNode, Outcome.bind_eq_ok] at h
        obtain ⟨⟨w, col, up⟩, -, v, -, ⟨t1, n1⟩, -, ⟨t2, n2⟩, -, h⟩ := h
        cases h
        exact .inl rfl
    · unfold infeasibleNode at h
      split at h
      · cases h
      · simp only [Outcome.bind_eq_ok] at h
        obtain ⟨tree, -, h⟩ := h
        split at h <;> cases h <;> exact .inl rfl

/-- What `result()` shows is what the run left, and nothing else was written. -/
theorem resultAfter_spec {o : Oracle W} {d : MipData} {prm : Params} (fuel : Nat) :
    ∀ {s : State W}, OnlySolutions s.result → s.result.solveStatus = none →
      (∀ s', solveFuel o d prm fuel s = some (.ok s') → resultAfter o d prm fuel s = some s'.result ∧
        s'.result.solveStatus = some .optimal ∧ OnlySolutions s'.result) ∧
      (∀ m, solveFuel o d prm fuel s = some (.error m) → ∃ r, resultAfter o d prm fuel s = some r ∧
        r.solveStatus = none ∧ OnlySolutions r) ∧
      (resultAfter o d prm fuel s ≠ none → (∃ s', solveFuel o d prm fuel s = some (.ok s')) ∨
        ∃ m, solveFuel o d prm fuel s = some (.error m)) := by
  induction fuel with
  | zero => intro s _ _; simp [solveFuel, resultAfter]
  | succ n ih =>
    intro s h1 h2
    unfold solveFuel resultAfter
    cases hit : iterate o d prm s with
    | abort => simp
    | ub => simp
    | error m => exact ⟨by simp, fun _ _ => ⟨_, rfl, h2, h1⟩, fun _ => .inr ⟨m, rfl⟩⟩
    | ok st =>
      have key : OnlySolutions st.state.result ∧ st.state.result.solveStatus = none := by
        rcases iterate_result hit with h | ⟨sol, h⟩
        · rw [h]; exact ⟨h1, h2⟩
        · rw [h]; exact ⟨(h1.addSolution sol).1, (h1.addSolution sol).2.trans h2⟩
      cases st with
      | again s' => exact ih key.1 key.2
      | stop s' =>
        refine ⟨fun s'' h => ?_, by simp, fun _ => .inl ⟨_, rfl⟩⟩
        simp only [Option.some.injEq, Outcome.ok.injEq] at h
        subst h
        exact ⟨rfl, rfl, key.1⟩

end Solver

namespace Program

/-- **C111**, the part that holds.  For every problem, all parameters, both interfaces, with and without cuts, and all LP code: after
`Solve` has returned OK, `result()` shows the status `kOptimal` and no error message.

Missing for C111, because it is false: the other fields, the status after an error (`C111_not_set_violated`), and a status that says whether there is
a solution (`C111_infeasible_violated`). -/
theorem C111_status_partial (e : Engine) (c : Setup.Created) (fuel : Nat) (s : Solver.State (Runner World))
    (h : solve e c fuel = some (.ok s)) :
    resultAfter e c fuel = some s.result ∧ s.result.solveStatus = some .optimal ∧ s.result.errorMessage = "" := by
  obtain ⟨h1, h2, h3⟩ := (Solver.resultAfter_spec fuel (o := oracle e c) (d := c.data) (prm := params c) (s := Solver.initial { world := { lp := start c.lpi } })
    ⟨rfl, rfl, rfl, rfl⟩ rfl).1 s h
  exact ⟨h1, h2, h3.2.1⟩

/-- **C111 fails.**  For every problem, all parameters, both interfaces, with and without cuts, and all LP code: after `Solve` has
returned, the stopping reason and both bounds are not initialised; after an error neither is the status, and the error
message is empty. -/
theorem C111_not_set_violated (e : Engine) (c : Setup.Created) (fuel : Nat) :
    (∀ s, solve e c fuel = some (.ok s) → ∃ r, resultAfter e c fuel = some r ∧
      r.stoppingReason = none ∧ r.bestPrimalBound = none ∧ r.bestDualBound = none) ∧
    ∀ m, solve e c fuel = some (.error m) → ∃ r, resultAfter e c fuel = some r ∧
      r.stoppingReason = none ∧ r.bestPrimalBound = none ∧ r.bestDualBound = none ∧ r.solveStatus = none ∧
      r.errorMessage = "" := by
  obtain ⟨g1, g2, -⟩ := Solver.resultAfter_spec fuel (o := oracle e c) (d := c.data) (prm := params c)
    (s := Solver.initial { world := { lp := start c.lpi } }) ⟨rfl, rfl, rfl, rfl⟩ rfl
  refine ⟨fun s h => ?_, fun m h => ?_⟩
  · obtain ⟨h1, -, h3⟩ := g1 s h
    exact ⟨_, h1, h3.1, h3.2.2.1, h3.2.2.2⟩
  · obtain ⟨r, h1, h2, h3⟩ := g2 m h
    exact ⟨r, h1, h3.1, h3.2.2.1, h3.2.2.2, h2, h3.2.1⟩

/-- **C111 fails.**  On every well-formed problem without a feasible point whose integer variables have finite bounds, with tolerance 0 and cuts switched off: `Solve` returns, and then either the status is `kOptimal`, without a solution, or it is not initialised.  It is
never `kInfeasible`. -/
theorem C111_infeasible_violated (p : Problem) (hp : p.WellFormed) (hf : FiniteIntegers p)
    (hno : ∀ y, ¬ p.Feasible y) :
    ∀ x, ∃ c, Setup.create x p { exUser with integralityTolerance := some 0 } = .ok c ∧
      ∀ e : Engine, e.Right → e.GlopReturns → ∃ r, resultAfter e c (iterationBound p) = some r ∧
        (r.solveStatus = some .optimal ∧ r.best = {} ∨ r.solveStatus = none) := by
  intro x
  obtain ⟨c, hc, hs⟩ := C114_total_partial p hp hf x { exUser with integralityTolerance := some 0 } _ (Setup.lpWins _)
    (by refine ⟨⟨?_, ?_, ?_, ?_, ?_, ?_, ?_, ?_⟩, rfl, ?_, ?_, rfl, rfl⟩ <;> simp [exUser, Setup.LpMsg.read, ToleranceOk])
    ⟨0, le_refl _, rfl⟩ (by intro s; simp [exUser]) (by norm_num [exUser])
  refine ⟨c, hc, fun e he hret => ?_⟩
  obtain ⟨g1, g2, -⟩ := Solver.resultAfter_spec (iterationBound p) (o := oracle e c) (d := c.data) (prm := params c)
    (s := Solver.initial { world := { lp := start c.lpi } }) ⟨rfl, rfl, rfl, rfl⟩ rfl
  rcases hs e he hret with ⟨h, -⟩ | ⟨-, s, h, hfe, -⟩
  · obtain ⟨r, h1, h2, -⟩ := g2 _ h
    exact ⟨r, h1, .inr h2⟩
  · obtain ⟨h1, h2, -⟩ := g1 s h
    refine ⟨_, h1, .inl ⟨h2, ?_⟩⟩
    by_contra hb
    exact hno _ (feasible_of_zero (hfe hb))

/-! ### The hypotheses are met -/

/-- `2 x = 1`, `0 ≤ x ≤ 1`, `x` integer. -/
def oddProblem : Problem :=
  { vars := [{ name := "x", objective := 1, lower := .fin 0, upper := .fin 1, isInteger := true }]
    constraints := [{ name := "c", varIndices := [0], coefficients := [2], lhs := .fin 1, rhs := .fin 1 }] }

/-- A problem as in `C111_infeasible_violated`. -/
example : oddProblem.WellFormed ∧ FiniteIntegers oddProblem ∧ ∀ y, ¬ oddProblem.Feasible y := by
  refine ⟨?_, ?_, fun y hy => ?_⟩
  · simp [Problem.WellFormed, oddProblem, Variable.WellFormed, Constraint.WellFormed, Ordered, Dbl.le]
  · intro v hv hi
    simp [oddProblem] at hv
    subst hv
    exact ⟨0, 1, rfl, rfl⟩
  · obtain ⟨k, hk⟩ := (hy.1 0 _ rfl).2 rfl
    have hk : y 0 = k := hk
    have := hy.2 _ (List.mem_singleton.2 rfl)
    simp [Between, Constraint.activity, hk] at this
    have h1 : (1 : ℚ) = 2 * k := by linarith [this.1, this.2]
    have h1 : (1 : Int) = 2 * k := by exact_mod_cast h1
    omega

/-- Runs as in `C111_status_partial` and `C111_not_set_violated`: one returns OK, the other one an error. -/
example : ∀ x, ∃ c, Setup.create x exProblem exUser = .ok c ∧
    (∃ n s, solve perfect c n = some (.ok s)) ∧ ∃ m, solve idle c 1 = some (.error m) := by
  intro x
  obtain ⟨h1, h2, h3, y, hy⟩ := exProblem_spec
  obtain ⟨c, hc, hs⟩ := C78_total_correctness exProblem h1 h2 h3 x exUser _ (Setup.lpWins _)
    (by refine ⟨⟨?_, ?_, ?_, ?_, ?_, ?_, ?_, ?_⟩, rfl, ?_, ?_, rfl, rfl⟩ <;> simp [exUser, Setup.LpMsg.read, ToleranceOk])
    ⟨0, le_refl _, rfl⟩ (by intro s; simp [exUser]) (by norm_num [exUser])
  obtain ⟨hn, dir, hrule⟩ := rule_of h1 hc ⟨0, le_refl _, rfl⟩ (by simp [exUser])
  refine ⟨c, hc, ?_, _, C108_root_stopped_violated (fun _ _ => .inl rfl) (fun _ _ => .inl rfl) h1 (by norm_num [exUser]) hc
    hrule (.inl ⟨created_glop hc rfl, fun _ _ _ => rfl⟩) hn 0⟩
  rcases hs perfect perfect_spec.1 perfect_spec.2 with ⟨-, h⟩ | ⟨s, h, -⟩
  · exact absurd hy (h y)
  · exact ⟨_, s, h⟩

end Program
end MiniMip
