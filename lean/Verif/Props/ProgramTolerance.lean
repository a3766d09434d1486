import Verif.Props.ProgramDirection
import Verif.Props.ProgramRange

/-!
# Property C100: the tolerances the user may set
-/

namespace MiniMip
namespace Program

open Solver (guard point InBounds InRootBounds)

theorem feasibleUpTo_nonneg {p : Problem} {tol : ℚ} {y : Int → ℚ} (h : p.FeasibleUpTo tol y)
    (hi : ∃ v ∈ p.vars, v.isInteger = true) : 0 ≤ tol := by
  obtain ⟨v, hv, hi⟩ := hi
  obtain ⟨n, hn⟩ := List.mem_iff_getElem?.mp hv
  obtain ⟨z, hz⟩ := (h.1 n v hn).2 hi
  exact (abs_nonneg _).trans hz

/-- **C100**, the part that fails: `Create` accepts a negative integrality tolerance, and then `Solve` cannot end well.  For
every feasible problem with an integer variable, every LP code that answers rightly, and every branching rule, `Solve`
without cuts neither returns OK nor an error, however long it runs: it runs forever or ends in undefined behaviour or a
crash.  With cuts or with LP code that only keeps the constraints, no solution is ever found: if `Solve` returns OK, it
calls the problem solved to optimality and has no solution. -/
theorem C100_negative_tolerance_violated (p : Problem) (hp : p.WellFormed) (hi : ∃ v ∈ p.vars, v.isInteger = true)
    (user : Setup.ParamsMsg) (tol : ℚ) (ht : user.integralityTolerance = some tol) (hneg : tol < 0) :
    (∀ x lp, Setup.LpWins user.lp lp → Setup.GlopTakes lp → ∃ c, Setup.create x p user = .ok c) ∧
    (∀ x c, Setup.create x p user = .ok c → ∀ e : Engine, e.Feasible → ∀ fuel s, solve e c fuel = some (.ok s) →
      s.result.solveStatus = some SolveStatus.optimal ∧ s.result.best = {} ∧ s.result.additional = []) ∧
    (∀ y, p.Feasible y → Bounded p → ∀ x c, Setup.create x p user = .ok c → NoCuts c.runner.params →
      ∀ e : Engine, e.Right → ∀ fuel, (∀ s, solve e c fuel ≠ some (.ok s)) ∧ ∀ m, solve e c fuel ≠ some (.error m)) := by
  have none : ∀ x c, Setup.create x p user = .ok c → ∀ e : Engine, e.Feasible → ∀ fuel s,
      solve e c fuel = some (.ok s) → s.result.best = {} ∧ s.result.additional = [] := by
    intro x c hc e he fuel s hs
    obtain ⟨h1, h2⟩ := (C74_solutions_feasible he hp hc).2 fuel s hs
    rw [ht] at h1 h2
    refine ⟨h1.resolve_right fun h => ?_, List.eq_nil_iff_forall_not_mem.mpr fun sol h => ?_⟩
    · exact absurd (feasibleUpTo_nonneg h hi) (not_le.mpr hneg)
    · exact absurd (feasibleUpTo_nonneg (h2 sol h) hi) (not_le.mpr hneg)
  refine ⟨fun x lp h1 h2 => (Setup.C73_glop_partial x p hp user lp h1 h2.solver).1 h2, ?_, ?_⟩
  · intro x c hc e he fuel s hs
    refine ⟨?_, none x c hc e he fuel s hs⟩
    obtain ⟨-, -, ⟨s', -, h⟩ | ⟨m, -, h⟩ | ⟨-, h⟩ | ⟨-, h⟩⟩ := Solver.solveFuel_some hs <;> cases h
    rfl
  · intro y hy hB x c hc hn e he fuel
    obtain ⟨h1, h2⟩ := C75_optimal_partial he hp hB hc hn fuel
    exact ⟨fun s hs => (h1 s hs y hy).1 (none x c hc e he.feasible fuel s hs).1, fun m hm => h2 m hm y hy⟩

/-- Parameters with a negative tolerance, without cuts. -/
def negativeUser : Setup.ParamsMsg :=
  { integralityTolerance := some (-1), cutRunner := some { defaultRunner := some { maxIterations := some 0 } } }

/-- The hypotheses are met together. -/
example : exProblem.WellFormed ∧ (∃ v ∈ exProblem.vars, v.isInteger = true) ∧ negativeUser.integralityTolerance = some (-1) ∧
    (∃ y, exProblem.Feasible y) ∧ Bounded exProblem ∧ perfect.Right ∧
    ∀ x, ∃ c, Setup.create x exProblem negativeUser = .ok c ∧ NoCuts c.runner.params := by
  obtain ⟨h1, h2, h3, h4⟩ := exProblem_spec
  have hi : ∃ v ∈ exProblem.vars, v.isInteger = true := ⟨_, List.mem_cons_self, rfl⟩
  refine ⟨h1, hi, rfl, h4, h3, perfect_spec.1, fun x => ?_⟩
  obtain ⟨c, hc⟩ := (C100_negative_tolerance_violated exProblem h1 hi negativeUser (-1) rfl (by norm_num)).1 x _
    (Setup.lpWins _) (by refine ⟨⟨?_, ?_, ?_, ?_, ?_, ?_, ?_, ?_⟩, rfl, ?_, ?_, rfl, rfl⟩ <;>
      simp [negativeUser, Setup.LpMsg.read, ToleranceOk])
  obtain ⟨-, -, -, hmi, -⟩ := Setup.C58_user_wins_partial x exProblem h1 negativeUser c hc
  exact ⟨c, hc, Or.inl (by rw [hmi.1 0 rfl])⟩

/-! ### A tolerance of at least one half -/

/-- If all optimal points of the relaxation are accepted as integral, `Solve` returns one of them after at most two
iterations. -/
theorem relaxed_accepted {e : Engine} (he : e.Right) {x : Setup.External} {p : Problem}
    (hp : p.WellFormed) (hB : Bounded p) (hfeas : ∃ y, p.RelaxedFeasible y) {user : Setup.ParamsMsg}
    (hnonneg : 0 ≤ user.integralityTolerance.getD (1 / 10 ^ 6))
    (hacc : ∀ y, RelaxedOptimal p y → ∀ (n : Nat) (v : Variable), p.vars[n]? = some v → v.isInteger = true →
      ∃ k : Int, |y n - k| ≤ user.integralityTolerance.getD (1 / 10 ^ 6)) {c : Setup.Created}
    (h : Setup.create x p user = .ok c)
    (hl : ((∃ s g, c.lpi = .glop s g) ∧ e.GlopReturns) ∨ (∃ g, c.lpi = .soplex g) ∧ e.SoplexReturns ∧
      IntegralIntegers p ∧ ∃ dir, c.rule = .maxFractional dir) (hn : NoCuts c.runner.params) :
    ∃ s, solve e c 2 = some (.ok s) ∧ s.result.solveStatus = some SolveStatus.optimal ∧
      RelaxedOptimal p (point s.result.best.values) := by
  have hnever : solve e c 2 = none ∨ (∃ s, solve e c 2 = some (.ok s)) ∨
      solve e c 2 = some (.error "The problem is infeasible or unbounded") := by
    rcases hl with ⟨hl, hret⟩ | ⟨hl, hret, hI, dir, hrule⟩
    · exact C77_glop_never_aborts_partial hret hp h hl hn hnonneg 2
    · exact C77_soplex_never_aborts_partial hret he.feasible hp hI h hl hn hrule hnonneg 2
  obtain ⟨hd, h₀⟩ := created_refines hp h
  obtain ⟨-, -, -, -, -, h6, -⟩ := Setup.create_ok h
  have htol : (params c).tol = user.integralityTolerance.getD (1 / 10 ^ 6) := h6
  have hlen₀ : (start c.lpi).program.cols.length = c.data.lower.length := by
    rw [h₀.numCols, hd.lower, List.length_map]; rfl
  have hs := primalShape (e := e) (c := c) (Good' := Plain (start c.lpi).program)
    (lp₀ := (start c.lpi).program) (fun _ h => h.good)
  rw [hlen₀] at hs
  have hg := plain_start c
  have heq : solve e c 2 = Solver.solveFuel (guard (oracle e c) (Plain (start c.lpi).program)) c.data
      (params c) 2 (Solver.initial { world := { lp := start c.lpi } }) :=
    (Solver.guard_solveFuel (keeps_plain hn) _ _ (by exact hg)).symm
  rw [heq] at hnever ⊢
  have hdata := Solver.dataOk_of_represents hd
  have hc := contract_plain (e := e) he hn (lp₀ := (start c.lpi).program)
  -- every optimal point of the relaxation is taken for integral
  have hint : ∀ values : List ℚ, values.length = c.data.lower.length → RelaxedOptimal p (point values) →
      c.data.solutionIsIntegral values (params c).tol = .ok true := by
    intro values hlv hopt
    obtain ⟨b, h4, h5⟩ := MipData.allIntegral_iff values (params c).tol c.data.integerVariables
      (fun j hj => by rw [hlv]; exact hdata.ints j hj)
    have hb : b = true := h5.2 fun j y hj hy => by
      obtain ⟨n, v, hv, hi, hjn⟩ := (hd.integers j).1 hj
      obtain rfl : j = n := by exact_mod_cast hjn
      rw [htol, ← Solver.point_eq hy]
      exact hacc _ hopt j v hv hi
    rw [MipData.solutionIsIntegral, h4, hb]
  -- what is known of an answer to the LP of the root
  have hroot : ∀ r, (Plain (start c.lpi).program r ∧
      RightAnswer r.world.lp.program (r.world.lp.isOptimal = true) r.world.report) →
      (∀ x, InBounds c.data bounds r x ↔ InRootBounds c.data x) →
      (guard (oracle e c) (Plain (start c.lpi).program)).isOptimal r = true ∧
      ∀ values, (guard (oracle e c) (Plain (start c.lpi).program)).primal r = .ok values →
        values.length = c.data.lower.length ∧ RelaxedOptimal p (point values) ∧
        ∃ q, (guard (oracle e c) (Plain (start c.lpi).program)).objective r = .fin q := by
    rintro r ⟨hr, hans⟩ hbd
    obtain ⟨y, hy⟩ := hfeas
    obtain ⟨hopt, hv'⟩ := node_optimal (e := e) (b := fun _ _ => True) hp hB hd ⟨y, hy, fun _ _ => trivial⟩ h₀ hr hans
      fun x => by rw [hbd x]; exact ⟨fun h => ⟨h, fun _ _ => trivial⟩, fun h => h.1⟩
    refine ⟨hopt, fun values hv => ?_⟩
    obtain ⟨hlv, h1, -, h2⟩ := hv' values hv
    have h2 := fun z hz => h2 z hz fun _ _ => trivial
    have hopt' : r.world.lp.isOptimal = true := (if_pos hr).symm.trans hopt
    exact ⟨hlv, ⟨h1, h2⟩, _, (hans.1 hopt').2.1⟩
  have hfin : ∀ (sols : List Solution) (s : Solver.State (Runner World)), sols ≠ [] →
      (∀ sol ∈ sols, RelaxedOptimal p (point sol.values) ∧ ∃ q, sol.objective = .fin q) →
      s.result = ({} : SolveResult).addAll sols →
      RelaxedOptimal p (point s.result.best.values) := by
    intro sols s hne hall hres
    obtain ⟨-, k, hk, -⟩ := SolveResult.C12_incumbent sols (fun sol h => by
      obtain ⟨-, q, hq⟩ := hall sol h
      exact Solver.proper_of_fin hq) hne
    rw [hres]
    exact (hall _ (List.mem_of_getElem? hk)).1
  obtain ⟨b, hb, hi⟩ := Solver.inv_init (d := c.data) (Good := Plain (start c.lpi).program)
    (bounds := bounds) (w := { world := { lp := start c.lpi } }) hg (startsAt hd h₀)
  have hbox : ∀ r, (∀ x, InBounds c.data bounds r x ↔ InRootBounds c.data x ∧ Solver.InBox c.data b x) →
      ∀ x, InBounds c.data bounds r x ↔ InRootBounds c.data x :=
    fun r hx x => by rw [hx x]; exact ⟨fun h => h.1, fun h => ⟨h, fun n _ => hb n _⟩⟩
  obtain ⟨t1, t2, t3⟩ := Solver.iterate_trans (prm := params c) hdata hs hc hi
  simp only [Solver.solveFuel] at hnever ⊢
  cases hit : Solver.iterate (guard (oracle e c) (Plain (start c.lpi).program)) c.data (params c)
      (Solver.initial { world := { lp := start c.lpi } }) with
  | ub => rw [hit] at hnever; simp at hnever
  | abort => rw [hit] at hnever; simp at hnever
  | error m =>
    obtain ⟨r, ha, hno, hx⟩ := t3 m hit
    rw [(hroot r ha hx).1] at hno; cases hno
  | ok st =>
    cases st with
    | stop s' =>
      refine ⟨_, rfl, rfl, ?_⟩
      obtain ⟨sols', hres, hf⟩ := t2 s' hit
      cases hf with
      | root ha hx hopt hv hin =>
        obtain ⟨-, h2⟩ := hroot _ ha hx
        obtain ⟨-, h3, h4⟩ := h2 _ hv
        exact hfin _ s' (by simp) (by simpa using ⟨h3, h4⟩) hres
    | again s' =>
      obtain ⟨bs', sols', hi', ht'⟩ := t1 s' hit
      rw [hit] at hnever
      cases ht' with
      | drop hperm ha hx hno =>
        obtain ⟨rfl, -⟩ := List.cons_eq_cons.1 (List.singleton_perm.1 hperm)
        rw [(hroot _ ha (hbox _ hx)).1] at hno; cases hno
      | split hperm ha hx hopt hv hin =>
        obtain ⟨rfl, -⟩ := List.cons_eq_cons.1 (List.singleton_perm.1 hperm)
        obtain ⟨hlv, hro, -⟩ := (hroot _ ha (hbox _ hx)).2 _ hv
        rw [hint _ hlv hro] at hin; cases hin
      | record hperm ha hx hopt hv hin =>
        obtain ⟨hb', hbs'⟩ := List.cons_eq_cons.1 (List.singleton_perm.1 hperm)
        subst hb' hbs'
        obtain ⟨-, h3, h4⟩ := (hroot _ ha (hbox _ hx)).2 _ hv
        obtain ⟨u1, u2, u3⟩ := Solver.iterate_trans (prm := params c) hdata hs hc hi'
        simp only at hnever ⊢
        cases hit' : Solver.iterate (guard (oracle e c) (Plain (start c.lpi).program)) c.data (params c) s' with
        | ub => rw [hit'] at hnever; simp at hnever
        | abort => rw [hit'] at hnever; simp at hnever
        | error m =>
          obtain ⟨r, ha, hno, hx⟩ := u3 m hit'
          rw [(hroot r ha hx).1] at hno; cases hno
        | ok st' =>
          cases st' with
          | again s'' =>
            obtain ⟨bs'', sols'', -, ht''⟩ := u1 s'' hit'
            cases ht'' with
            | drop hperm => simp at hperm
            | split hperm => simp at hperm
            | record hperm => simp at hperm
          | stop s'' =>
            refine ⟨_, rfl, rfl, ?_⟩
            obtain ⟨sols'', hres, hf⟩ := u2 s'' hit'
            cases hf with
            | empty => exact hfin _ s'' (by simp) (by simpa using ⟨h3, h4⟩) hres
            | root ha hx hopt hv hin =>
              obtain ⟨-, h2⟩ := hroot _ ha hx
              obtain ⟨-, h5, h6⟩ := h2 _ hv
              refine hfin _ s'' (by simp) ?_ hres
              intro sol hsol
              simp only [List.nil_append, List.cons_append, List.mem_cons, List.not_mem_nil, or_false] at hsol
              rcases hsol with rfl | rfl
              · exact ⟨h3, h4⟩
              · exact ⟨h5, h6⟩

/-- **C100**, the other part that fails: `Create` accepts an integrality tolerance of one half and more, and then `Solve`
ignores that variables are integer.  For every well-formed problem with a feasible and bounded relaxation, without cuts,
with Glop and any branching rule, or with SoPlex, the max-fractional rule and integral finite bounds of the integer
variables, on LP code that answers rightly, `Solve` returns after at most two iterations,
calls the problem solved to optimality, and what it returns is an optimal point of the relaxation.  If all of these are
fractional, it is not feasible. -/
theorem C100_large_tolerance_violated {e : Engine} (he : e.Right) {x : Setup.External} {p : Problem}
    (hp : p.WellFormed) (hB : Bounded p) (hfeas : ∃ y, p.RelaxedFeasible y) {user : Setup.ParamsMsg} {tol : ℚ}
    (ht : user.integralityTolerance = some tol) (hlarge : 1 / 2 ≤ tol) {c : Setup.Created}
    (h : Setup.create x p user = .ok c)
    (hl : ((∃ s g, c.lpi = .glop s g) ∧ e.GlopReturns) ∨ (∃ g, c.lpi = .soplex g) ∧ e.SoplexReturns ∧
      IntegralIntegers p ∧ ∃ dir, c.rule = .maxFractional dir) (hn : NoCuts c.runner.params) :
    ∃ s, solve e c 2 = some (.ok s) ∧ s.result.solveStatus = some SolveStatus.optimal ∧
      RelaxedOptimal p (point s.result.best.values) ∧
      (FractionalOptima p 0 → ¬ p.Feasible (point s.result.best.values)) := by
  have hnonneg : 0 ≤ user.integralityTolerance.getD (1 / 10 ^ 6) := by
    rw [ht]; exact (by norm_num : (0 : ℚ) ≤ 1 / 2).trans hlarge
  obtain ⟨s, h1, h2, hrel⟩ := relaxed_accepted he hp hB hfeas hnonneg
    (fun y _ n _ _ _ => ⟨roundAway (y n), by rw [ht]; exact (Generator.abs_sub_round _).trans hlarge⟩) h hl hn
  refine ⟨s, h1, h2, hrel, fun hfr hf => ?_⟩
  obtain ⟨n, v, hv, hi, hk⟩ := hfr _ hrel.1 hrel.2
  obtain ⟨k, hk'⟩ := (hf.1 n v hv).2 hi
  have := hk k
  rw [hk', sub_self, abs_zero] at this
  exact lt_irrefl _ this

/-- Parameters with a tolerance of one half, without cuts. -/
def largeUser : Setup.ParamsMsg :=
  { integralityTolerance := some (1 / 2), cutRunner := some { defaultRunner := some { maxIterations := some 0 } } }

/-- The hypotheses are met together, by a problem all of whose relaxed optima are fractional. -/
example : behind.WellFormed ∧ Bounded behind ∧ (∃ y, behind.RelaxedFeasible y) ∧ FractionalOptima behind 0 ∧
    largeUser.integralityTolerance = some (1 / 2) ∧ perfect.Right ∧ perfect.GlopReturns ∧
    ∀ x, ∃ c, Setup.create x behind largeUser = .ok c ∧ (∃ s g, c.lpi = .glop s g) ∧ NoCuts c.runner.params := by
  obtain ⟨h1, -, h3, h4, h5, -⟩ := behind_spec
  refine ⟨h1, h3, ⟨_, fun n v hv => (h4.1 n v hv).1, h4.2⟩, fun y hy hz => ?_, rfl, perfect_spec.1, perfect_spec.2,
    fun x => ?_⟩
  · obtain ⟨n, v, hv, hi, hk⟩ := h5 y hy hz
    exact ⟨n, v, hv, hi, fun k => lt_trans (by norm_num) (hk k)⟩
  · obtain ⟨c, hc⟩ := (Setup.C73_glop_partial x behind h1 largeUser _ (Setup.lpWins _) rfl).1
      (by refine ⟨⟨?_, ?_, ?_, ?_, ?_, ?_, ?_, ?_⟩, rfl, ?_, ?_, rfl, rfl⟩ <;>
        simp [largeUser, Setup.LpMsg.read, ToleranceOk])
    obtain ⟨-, -, -, hmi, -⟩ := Setup.C58_user_wins_partial x behind h1 largeUser c hc
    exact ⟨c, hc, created_glop hc rfl, Or.inl (by rw [hmi.1 0 rfl])⟩

end Program
end MiniMip
