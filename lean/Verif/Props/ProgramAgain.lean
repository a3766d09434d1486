import Verif.Props.ProgramUnbounded
import Verif.Props.SolverAgain
import Verif.Props.ProgramWitness

/-!
# C84: calling `Solve` again, for the whole program
-/

namespace MiniMip
namespace Program

open Glop (LinearProgram Extends Refines)
open Solver (guard point)

/-- Without cuts and with Glop: what is known of the start of the search. -/
theorem plainGlop_start {c : Setup.Created} (hl : ∃ s g, c.lpi = .glop s g) :
    PlainGlop (start c.lpi).program { world := { lp := start c.lpi } } := by
  obtain ⟨s, g, hl⟩ := hl
  exact ⟨plain_start c, by rw [hl]; exact ⟨_, rfl⟩⟩

theorem shape_plainGlop {e : Engine} {p : Problem} {c : Setup.Created} (hd : c.data.Represents p)
    (h₀ : Refines (start c.lpi).program p.relaxation) :
    Solver.PrimalShape (guard (oracle e c) (PlainGlop (start c.lpi).program)) c.data.lower.length := by
  have hs := primalShape (e := e) (c := c) (Good' := PlainGlop (start c.lpi).program)
    (lp₀ := (start c.lpi).program) (fun _ h => h.good)
  rwa [h₀.numCols, show p.relaxation.numCols = c.data.lower.length by rw [hd.lower, List.length_map]; rfl] at hs

/-- The world a run that returns OK leaves behind is good. -/
theorem ok_plainGlop {e : Engine} {c : Setup.Created} (hl : ∃ s g, c.lpi = .glop s g) (hn : NoCuts c.runner.params)
    {n : Nat} {s : Solver.State (Runner World)} (h : solve e c n = some (.ok s)) :
    PlainGlop (start c.lpi).program s.world := by
  have hk := keeps_plainGlop (e := e) hn (d := c.data) (lp₀ := (start c.lpi).program)
  obtain ⟨s₁, hr, h⟩ := Solver.solveFuel_some h
  have hg := (Solver.guard_reach hk (params c) (by exact plainGlop_start hl) hr).2
  rcases h with ⟨s₂, h1, h2⟩ | ⟨m, -, h2⟩ | ⟨-, h2⟩ | ⟨-, h2⟩
  · have h2 := Outcome.ok.inj h2
    subst h2
    exact (Solver.guard_iterate hk (params c) hg).2.2 s₂ h1
  all_goals cases h2

/-- With Glop and without cuts, the process aborts in the second call on a whole class of problems: those with a
bounded feasible relaxation and no optimal point of that accepted as integral. -/
theorem C84_second_call_aborts {e : Engine} (he : e.Right) (hret : e.GlopReturns) {x : Setup.External} {p : Problem}
    (hp : p.WellFormed) (hB : Bounded p) (hfeas : ∃ y, p.RelaxedFeasible y) {user : Setup.ParamsMsg}
    (hfrac : FractionalOptima p (user.integralityTolerance.getD (1 / 10 ^ 6)))
    {c : Setup.Created} (h : Setup.create x p user = .ok c) (hl : ∃ s g, c.lpi = .glop s g)
    (hn : NoCuts c.runner.params) (htol : 0 ≤ user.integralityTolerance.getD (1 / 10 ^ 6)) {n : Nat}
    {s : Solver.State (Runner World)} (hok : solve e c n = some (.ok s)) (m : Nat) :
    solveAgain e c s (m + 1) = some .abort := by
  obtain ⟨hd, h₀⟩ := created_refines hp h
  obtain ⟨-, -, -, -, -, h6, -⟩ := Setup.create_ok h
  rw [← h6] at htol hfrac
  have hk := keeps_plainGlop (e := e) hn (d := c.data) (lp₀ := (start c.lpi).program)
  have hs := shape_plainGlop (e := e) hd h₀
  have hdk := Solver.dataOk_of_represents hd
  have hg := plainGlop_start hl
  have hc := contract_right he hn (lp₀ := (start c.lpi).program)
  have hok' := hok
  unfold solve at hok'
  rw [← Solver.guard_solveFuel hk _ _ (by exact hg)] at hok'
  unfold solveAgain
  rw [← Solver.guard_solveFuel hk _ _ (s := Solver.restart s) (show PlainGlop _ s.world from ok_plainGlop hl hn hok)]
  refine Solver.C84_aborts hdk hs (responsive hret hn hd htol h₀) hc hg (startsAt hd h₀)
    (fun r ha hb => (root_fractional hp hB hfeas hfrac hd h₀ ha.1 ha.2 hb).1) hok' ?_ m
  -- the first iteration of the first call goes on
  cases h1 : Solver.solveFuel (guard (oracle e c) (PlainGlop (start c.lpi).program)) c.data (params c) 1
      (Solver.initial { world := { lp := start c.lpi } }) with
  | none => rfl
  | some r =>
    exfalso
    cases n with
    | zero => cases hok'
    | succ n =>
      have h2 := Solver.solveFuel_more h1 (n + 1) (by omega)
      rw [hok'] at h2
      have h2 := Option.some.inj h2
      subst h2
      obtain ⟨b, hb, hi⟩ := Solver.inv_init (d := c.data) (Good := PlainGlop (start c.lpi).program) hg (startsAt hd h₀)
      unfold Solver.solveFuel at h1
      split at h1
      · cases h1
      · rename_i s₁ h3
        obtain ⟨sols, -, hf⟩ := (Solver.iterate_trans hdk hs hc hi).2.1 s₁ h3
        cases hf with
        | root ha hx _ hv hint => exact absurd hint ((root_fractional hp hB hfeas hfrac hd h₀ ha.1 ha.2 hx).2 _ hv)
      all_goals cases h1

/-- **C84 fails.**  `max x`, `-1 ≤ 2 x ≤ 1`, `0 ≤ x ≤ 1` integer, behind a continuous variable, with the default branching
rule and without cuts: whatever LP code that answers rightly, `Solve` returns OK with an optimal solution; called again,
the process aborts. -/
theorem C84_second_call_violated :
    (behind.WellFormed ∧ FiniteIntegers behind ∧ Bounded behind ∧ behind.Feasible (fun _ => 0)) ∧
    ∀ x, ∃ c, Setup.create x behind exUser = .ok c ∧ ∀ e : Engine, e.Right → e.GlopReturns →
      ∃ s, solve e c 4 = some (.ok s) ∧ Solves behind (1 / 10 ^ 6) (solve e c 4) ∧
        ∀ m, solveAgain e c s (m + 1) = some .abort := by
  obtain ⟨h1, h2, h3, h4, h5, -⟩ := behind_spec
  have hN := C78_total_correctness behind h1 h2 h3
  rw [show iterationBound behind = 4 by decide +kernel] at hN
  refine ⟨⟨h1, h2, h3, h4⟩, fun x => ?_⟩
  obtain ⟨c, hc, hsol⟩ := hN x exUser _ (Setup.lpWins _)
    (by refine ⟨⟨?_, ?_, ?_, ?_, ?_, ?_, ?_, ?_⟩, rfl, ?_, ?_, rfl, rfl⟩ <;>
      simp [exUser, Setup.LpMsg.read, ToleranceOk]) ⟨0, le_refl _, rfl⟩ (by simp [exUser]) (by norm_num [exUser])
  refine ⟨c, hc, fun e he hret => ?_⟩
  obtain ⟨hn, -⟩ := rule_of h1 hc ⟨0, le_refl _, rfl⟩ (by simp [exUser])
  have hs := hsol e he hret
  rcases hs with ⟨-, hno⟩ | ⟨s, hok, hrest⟩
  · exact absurd h4 (hno _)
  · exact ⟨s, hok, .inr ⟨s, hok, hrest⟩, C84_second_call_aborts (user := exUser) he hret h1 h3
      ⟨_, fun n v hv => (h4.1 n v hv).1, h4.2⟩ h5 hc (created_glop hc rfl) hn (by norm_num [exUser]) hok⟩

/-- **C84, what holds.**  For every well-formed problem whose integer variables have finite bounds, with the parameters of C78: if every call so far returned OK out of its first iteration, then
the next call has returned after at most `iterationBound p` iterations, with a right outcome.

Missing for C84: calls after a search that branched; see `C84_second_call_violated`. -/
theorem C84_total_partial (p : Problem) (hp : p.WellFormed) (hf : FiniteIntegers p) :
    ∀ (x : Setup.External) (user : Setup.ParamsMsg) (lp : LpParameters),
      Setup.LpWins user.lp lp → Setup.GlopTakes lp →
      (∃ k ≤ 0, user.runner.bind (·.maxIterations) = some k) →
      (∀ s, user.branching.bind (·.rule) ≠ some (.random s)) →
      0 ≤ user.integralityTolerance.getD (1 / 10 ^ 6) →
      ∃ c, Setup.create x p user = .ok c ∧ ∀ e : Engine, e.Right → e.GlopReturns →
        ∀ s, Solver.Called (oracle e c) c.data (params c) { world := { lp := start c.lpi } } s →
          Settles p (user.integralityTolerance.getD (1 / 10 ^ 6))
            (Solver.solveFuel (oracle e c) c.data (params c) (iterationBound p) s) := by
  intro x user lp hlp ht hi hr htol
  obtain ⟨c, h⟩ := (Setup.C73_glop_partial x p hp user lp hlp ht.solver).1 ht
  refine ⟨c, h, fun e he hret s hcalled => ?_⟩
  obtain ⟨hn, dir, hrule⟩ := rule_of hp h hi hr
  have hl := created_glop h (by rw [← hlp.eq]; exact ht.solver)
  by_cases hB : Bounded p
  swap
  · have hfirst : s = Solver.initial { world := { lp := start c.lpi } } := by
      induction hcalled with
      | first => rfl
      | next _ h1 ih =>
        rw [ih] at h1
        exact absurd (bounded_of_ok he.seesUnbounded hp h (fuel := 1) h1) hB
    obtain ⟨c', hc', hall⟩ := C114_total_partial p hp hf x user lp hlp ht hi hr htol
    obtain rfl : c' = c := Outcome.ok.inj (hc'.symm.trans h)
    rw [hfirst]
    exact hall e he hret
  obtain ⟨-, -, -, -, -, h6, -⟩ := Setup.create_ok h
  obtain ⟨hd, h₀⟩ := created_refines hp h
  rw [← h6] at htol ⊢
  rw [← iterationBound_eq hd]
  have hdk := Solver.dataOk_of_represents hd
  have hlen : p.relaxation.numCols = c.data.lower.length := by rw [hd.lower, List.length_map]; rfl
  have hshape : ∀ {Good' : Runner World → Prop}, (∀ r, Good' r → Good (start c.lpi).program r) →
      Solver.PrimalShape (guard (oracle e c) Good') c.data.lower.length := fun hg => by
    have := primalShape (e := e) (c := c) (lp₀ := (start c.lpi).program) hg
    rwa [h₀.numCols, hlen] at this
  have hvars : p.vars.length = c.data.lower.length := by rw [hd.lower]; simp
  -- feasible
  have hgood : Good (start c.lpi).program { world := { lp := start c.lpi } } := Extends.refl _
  obtain ⟨c1, g1⟩ := hcalled.guard keeps_good hgood
  have hfeas : ∀ s', Solver.solveFuel (oracle e c) c.data (params c) (Solver.iterationBound c.data) s = some (.ok s') →
      s'.result.best = {} ∨ p.FeasibleUpTo c.integralityTolerance (point s'.result.best.values) := fun s' hs' =>
    (c1.feasible hd (by rw [hvars]; exact hshape fun _ h => h) (contract_feasible he.feasible hp hd h₀) hgood
      (startsAt hd h₀) (by rw [Solver.guard_solveFuel keeps_good _ _ g1]; exact hs')).1
  -- ends
  have hends := c1.ends hdk (finiteBounds hf hd) (hshape fun _ h => h)
    (contract_of (A := fun w => Solver.BoundedAnswer (guard (oracle e c) (Good (start c.lpi).program))
        c.data bounds { world := w })
      (fun w w' hw hs ho values hv => (answer_feasible he.feasible hp hd h₀ w w' hw hs ho values hv).1)).guard
    (Solver.branchesOnFractional_of_max hdk (hshape fun _ h => h) (usesMaxFractional hrule) htol) hgood (startsAt hd h₀)
  rw [Solver.guard_solveFuel keeps_good _ _ g1] at hends
  -- optimal
  obtain ⟨c2, g2⟩ := hcalled.guard (keeps_plain hn) (plain_start c)
  have hopt := Solver.C84_root_partial hd (by rw [hvars]; exact hshape fun _ h => h.good)
    (contract_optimal he hp hn hB hd h₀) (plain_start c) (startsAt hd h₀) c2 (fuel := Solver.iterationBound c.data)
  rw [Solver.guard_solveFuel (keeps_plain hn) _ _ g2] at hopt
  -- does not abort
  obtain ⟨c3, g3⟩ := hcalled.guard (keeps_plainGlop hn) (plainGlop_start hl)
  have hab := c3.never_aborts hdk (hshape fun _ h => h.good) (responsive hret hn hd htol h₀) (contract_right he hn)
    (plainGlop_start hl) (startsAt hd h₀) (Solver.iterationBound c.data)
  rw [Solver.guard_solveFuel (keeps_plainGlop hn) _ _ g3] at hab
  rcases hab with h1 | ⟨s', h1⟩ | h1
  · exact absurd h1 hends
  · exact .inr ⟨fun hU => hU.not_bounded hB, s', h1, fun hb => (hfeas s' h1).resolve_left hb, hopt.1 s' h1⟩
  · exact .inl ⟨h1, .inl (hopt.2 _ h1)⟩

/-- Every optimal point of the relaxation is accepted as integral. -/
def IntegralOptima (p : Problem) (tol : ℚ) : Prop :=
  ∀ y, p.RelaxedFeasible y →
    (∀ z, p.RelaxedFeasible z →
      if p.isMaximization then p.userObjective z ≤ p.userObjective y else p.userObjective y ≤ p.userObjective z) →
    ∀ (n : Nat) (v : Variable), p.vars[n]? = some v → v.isInteger = true → ∃ k : Int, |y n - k| ≤ tol

/-- With Glop and without cuts, `Solve` can be called any number of times on the problems with a bounded feasible
relaxation all of whose optimal points are accepted as integral: every call returns OK out of its first iteration. -/
theorem C84_integral_partial {e : Engine} (he : e.Right) (hret : e.GlopReturns) {x : Setup.External} {p : Problem}
    (hp : p.WellFormed) (hB : Bounded p) (hfeas : ∃ y, p.RelaxedFeasible y) {user : Setup.ParamsMsg}
    (hint : IntegralOptima p (user.integralityTolerance.getD (1 / 10 ^ 6)))
    {c : Setup.Created} (h : Setup.create x p user = .ok c) (hl : ∃ s g, c.lpi = .glop s g)
    (hn : NoCuts c.runner.params) (htol : 0 ≤ user.integralityTolerance.getD (1 / 10 ^ 6))
    {s : Solver.State (Runner World)}
    (hcalled : Solver.Called (oracle e c) c.data (params c) { world := { lp := start c.lpi } } s) :
    ∃ s', Solver.solveFuel (oracle e c) c.data (params c) 1 s = some (.ok s') ∧
      Solver.Called (oracle e c) c.data (params c) { world := { lp := start c.lpi } } (Solver.restart s') := by
  suffices hs' : ∃ s', Solver.solveFuel (oracle e c) c.data (params c) 1 s = some (.ok s') by
    obtain ⟨s', hs'⟩ := hs'
    exact ⟨s', hs', hcalled.next hs'⟩
  obtain ⟨hd, h₀⟩ := created_refines hp h
  obtain ⟨-, -, -, -, -, h6, -⟩ := Setup.create_ok h
  rw [← h6] at htol hint
  have hk := keeps_plainGlop (e := e) hn (d := c.data) (lp₀ := (start c.lpi).program)
  have hs := shape_plainGlop (e := e) hd h₀
  have hdk := Solver.dataOk_of_represents hd
  have hc := contract_right he hn (lp₀ := (start c.lpi).program)
  obtain ⟨c3, g3⟩ := hcalled.guard hk (plainGlop_start hl)
  rw [← Solver.guard_solveFuel hk _ _ g3]
  obtain ⟨hq, b, sols, hb, hi, -⟩ := c3.inv hdk hs hc (plainGlop_start hl) (startsAt hd h₀)
  rw [← Solver.solveFuel_setStatus _ _ _ none]
  obtain ⟨i1, i2, i3⟩ := Solver.iterate_trans (prm := params c) hdk hs hc hi
  -- the LP of a node with the bounds of the root
  have hroot : ∀ r, PlainGlop (start c.lpi).program r ∧ RightAnswer r.world.lp.program (r.world.lp.isOptimal = true)
      r.world.report → (∀ x, Solver.InBounds c.data bounds r x ↔ Solver.InRootBounds c.data x ∧ Solver.InBox c.data b x) →
      (guard (oracle e c) (PlainGlop (start c.lpi).program)).isOptimal r = true ∧
        ∀ values, (guard (oracle e c) (PlainGlop (start c.lpi).program)).primal r = .ok values →
          c.data.solutionIsIntegral values (params c).tol = .ok true := by
    rintro r ⟨hr, hans⟩ hbd
    obtain ⟨ho, hv⟩ := root_optimal (e := e) hp hB hfeas hd h₀ hr hans fun x => by
      rw [hbd x]; exact ⟨fun h => h.1, fun h => ⟨h, fun n _ => hb n _⟩⟩
    refine ⟨ho, fun values hval => ?_⟩
    obtain ⟨hlv, h1, h2⟩ := hv values hval
    obtain ⟨b', h4, h5⟩ := MipData.allIntegral_iff values (params c).tol c.data.integerVariables
      (fun j hj => by rw [hlv]; exact hdk.ints j hj)
    have hb' : b' = true := h5.2 fun j v hj hx => by
      obtain ⟨n, var, hvar, hvi, hjn⟩ := (hd.integers j).1 hj
      have hnj : j = n := by omega
      subst hnj
      obtain ⟨k, hk⟩ := hint _ h1 h2 _ var hvar hvi
      exact ⟨k, by rw [← Solver.point_eq hx]; exact hk⟩
    rw [hb'] at h4
    exact h4
  have hres := Solver.never_aborts hdk hs (responsive hret hn hd htol h₀) ⟨_, hi.sim⟩
  unfold Solver.solveFuel
  rcases hres with ⟨res, hres⟩ | hres
  · rw [hres]
    cases res with
    | stop s' => exact ⟨_, rfl⟩
    | again s' =>
      exfalso
      obtain ⟨bs', sols', hi', ht⟩ := i1 s' hres
      cases ht with
      | drop h1 h2 h3 h4 =>
        obtain rfl := by simpa using (h1.mem_iff.2 (List.mem_cons_self ..) : _ ∈ [b])
        rw [(hroot _ h2 h3).1] at h4; cases h4
      | record h1 =>
        obtain ⟨t, q, hinv, hbq⟩ := hi'.sim
        have hlen := h1.length_eq
        have hq2 := Solver.root_again (by exact hq) hres
        rw [hinv.queue] at hq2
        rw [hbq] at hlen
        simp at hlen
        subst hlen
        simp at hq2
      | split h1 h2 h3 h4 h5 h6' =>
        obtain rfl := by simpa using (h1.mem_iff.2 (List.mem_cons_self ..) : _ ∈ [b])
        rw [(hroot _ h2 h3).2 _ h5] at h6'; cases h6'
  · exfalso
    obtain ⟨r, ha, hopt, hbd⟩ := i3 _ hres
    rw [(hroot r ha fun x => by rw [hbd x]; exact ⟨fun h => ⟨h, fun n _ => hb n _⟩, fun h => h.1⟩).1] at hopt
    cases hopt

/-- `max x`, `-1 ≤ 2 x ≤ 4`, `0 ≤ x ≤ 9` integer, behind a continuous variable. -/
def whole : Problem := Solver.Line.problem { l := 0, u := 9, a := -1, b := 4, max := true }

/-- A problem that meets the hypotheses of `C84_integral_partial`: `Solve` can be called any number of times. -/
example : whole.WellFormed ∧ FiniteIntegers whole ∧ Bounded whole ∧ (∃ y, whole.RelaxedFeasible y) ∧
    IntegralOptima whole (1 / 10 ^ 6) ∧ ∀ x, ∃ c, Setup.create x whole exUser = .ok c ∧
      NoCuts c.runner.params ∧ ∃ s g, c.lpi = .glop s g := by
  have hfe : ∀ y, whole.RelaxedFeasible y → 0 ≤ y 1 ∧ 2 * y 1 ≤ 4 := by
    rintro y ⟨h1, h2⟩
    have e1 := h1 1 _ rfl
    have e2 := h2 _ (List.mem_singleton.2 rfl)
    rw [Solver.Line.activity _ _ _ (List.mem_singleton.2 rfl)] at e2
    simp only [Between, Dbl.le_fin] at e1 e2
    exact ⟨e1.1, e2.2⟩
  have hrel : whole.RelaxedFeasible fun j => if j = 1 then 2 else 0 := by
    constructor
    · intro n v hv
      match n with
      | 0 => simp [whole, Solver.Line.problem] at hv; subst hv; simp [Between]
      | 1 => simp [whole, Solver.Line.problem] at hv; subst hv; norm_num [Between]
      | n + 2 => simp [whole, Solver.Line.problem] at hv
    · intro k hk
      rw [Solver.Line.activity _ _ _ hk]
      simp [whole, Solver.Line.problem] at hk
      subst hk
      norm_num [Between]
  have hobj : ∀ y, whole.userObjective y = y 1 := fun y =>
    (Solver.Line.userObjective _ y).trans (add_zero _)
  have hmx : whole.isMaximization = true := rfl
  have hwf : whole.WellFormed := Solver.Line.wellFormed (by norm_num) (by norm_num)
  refine ⟨hwf, ?_, ⟨2, ?_⟩, ⟨_, hrel⟩, ?_, fun x => ?_⟩
  · intro v hv hi
    simp [whole, Solver.Line.problem] at hv
    rcases hv with rfl | rfl
    · simp at hi
    · exact ⟨_, _, rfl, rfl⟩
  · intro y hy
    have := hfe y hy
    rw [hobj, if_pos hmx]
    linarith
  · intro y hy hmax n v hv hi
    have h1 := hfe y hy
    have h2 := hmax _ hrel
    rw [if_pos hmx, hobj, hobj, if_pos rfl] at h2
    match n with
    | 0 => simp [whole, Solver.Line.problem] at hv; subst hv; simp at hi
    | 1 =>
      have h3 : y ((1 : Nat) : Int) = 2 := by
        show y 1 = 2
        linarith
      exact ⟨2, by rw [h3]; norm_num⟩
    | n + 2 => simp [whole, Solver.Line.problem] at hv
  · obtain ⟨c, hc⟩ := (Setup.C73_glop_partial x whole hwf exUser _ (Setup.lpWins _) rfl).1
      (by refine ⟨⟨?_, ?_, ?_, ?_, ?_, ?_, ?_, ?_⟩, rfl, ?_, ?_, rfl, rfl⟩ <;>
        simp [exUser, Setup.LpMsg.read, ToleranceOk])
    exact ⟨c, hc, (rule_of hwf hc ⟨0, le_refl _, rfl⟩ (by simp [exUser])).1, created_glop hc rfl⟩

end Program
end MiniMip
