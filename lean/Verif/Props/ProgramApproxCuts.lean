import Verif.Props.ProgramApprox
import Verif.Props.ProgramCuts

/-!
# C90 with cuts: optimality on LP code with tolerances

The cuts are computed exactly, but from whatever rows of the basis inverse the LP code hands out.
-/

namespace MiniMip
namespace Program

open Glop (LinearProgram Refines Extends)
open Solver (Oracle Contract guard cautious point InBounds)

/-- What an answer that is right up to tolerances means for the user's problem. -/
theorem approximateAnswer_of {e : Engine} {eps delta : ℚ} (he : e.Approximate eps delta) {p : Problem}
    (hp : p.WellFormed) (hB : Bounded p) {c : Setup.Created} (hd : c.data.Represents p) {lp₀ : LinearProgram}
    (h₀ : Refines lp₀ p.relaxation) (w w' : World) (hw : Sound p lp₀ w) (hs : w.solve e = .ok w') :
    Solver.ApproximateAnswer (oracle e c) c.data bounds eps delta { world := w' } := by
  have hpr := (solve_world hs).1
  have hgood : Extends lp₀ w'.lp.program := by rw [hpr]; exact hw.good
  have hvalid : ValidRows p w'.lp.program := by rw [hpr]; exact hw.valid
  have hlen : w'.lp.program.cols.length = c.data.lower.length := by
    rw [hgood.numCols, h₀.numCols, hd.lower, List.length_map]; rfl
  have hval : ∀ y, w'.lp.program.value y = c.data.objective.eval y := by
    intro y
    rw [hgood.value, h₀.value, (relaxation_points p hp y).2]
    have := hd.objective y
    have ho := hd.offset
    split <;> rename_i hm <;> simp only [hm, if_true, if_false, Bool.false_eq_true] at this ho <;> linarith
  have hin : ∀ y, p.Feasible y → InBounds c.data bounds { world := w' } y → w'.lp.program.Feasible y := by
    intro y hy hb
    refine ⟨fun n col hcol => ?_, hvalid y hy⟩
    have hlt := (List.getElem?_eq_some_iff.mp hcol).1
    have := hb n (by rw [← hlen]; exact hlt)
    rw [bounds_nat] at this
    simp only [hcol] at this
    exact this
  have hsense : w'.lp.program.maximize = false := by
    rw [hgood.sense, h₀.sense]; rfl
  have hra := he.solve hs
  constructor
  · intro ho values hv
    obtain ⟨h1, z, h2, h3, h5⟩ := hra.1 ho
    have h1 := h1.congr (primal_spec hv).2
    obtain ⟨-, h4, -⟩ := w'.lp.program.congr (primal_spec hv).2
    rw [← h4, hval] at h3
    refine ⟨nearBounds_of hlen h1, rowsNearlyHold_of hp hd h₀ hgood h1.2, z, h2, h3, fun y hy hyb => ?_⟩
    have := h5 y (hin y (((C09_same_optima p c.data hd y).1).1 hy) hyb)
    rw [hsense, if_neg (by simp), hval] at this
    exact this
  · intro ho hsub y hy hyb
    have ho' : ¬ w'.lp.isOptimal = true := by rw [Bool.not_eq_true]; exact ho
    have hyf := ((C09_same_optima p c.data hd y).1).1 hy
    rcases hra.2 ho' with h1 | h1
    · exact h1 y (hin y hyf hyb)
    · have hrel : ∀ z, w'.lp.program.Feasible z → p.RelaxedFeasible z := by
        intro z hz
        have hzb : InBounds c.data bounds { world := w' } z := inBounds_of hlen hz.1
        have hzr := hsub z hzb
        refine ⟨fun n v hv => hzr n v.lower v.upper (by rw [hd.lower]; simp [hv])
          (by rw [hd.upper]; simp [hv]), fun k hk => ?_⟩
        obtain ⟨i, hi⟩ := List.getElem?_of_mem hk
        have hlt : i < p.relaxation.numRows := (List.getElem?_eq_some_iff.mp hi).1
        have hlt' : i < lp₀.rows.length := by rw [h₀.numRows]; exact hlt
        have h3 := h₀.rows i _ (List.getElem?_eq_getElem hlt')
        have h4 := hgood.holds hz (List.getElem?_eq_getElem hlt')
        rw [h3.1, h3.2, h₀.activity hlt, relaxation_activity hp hi] at h4
        simpa [Problem.relaxation, hi] using h4
      obtain ⟨B, hB⟩ := hB
      cases hm : p.isMaximization with
      | false =>
        obtain ⟨z, hz, hlt⟩ := h1 (B - p.offset)
        have hb := hB z (hrel z hz)
        rw [hsense, hgood.value, h₀.value, (relaxation_points p hp z).2] at hlt
        simp only [hm, Bool.false_eq_true, if_false] at hb hlt
        linarith
      | true =>
        obtain ⟨z, hz, hlt⟩ := h1 (-(B - p.offset))
        have hb := hB z (hrel z hz)
        rw [hsense, hgood.value, h₀.value, (relaxation_points p hp z).2] at hlt
        simp only [hm, Bool.false_eq_true, if_false, if_true] at hb hlt
        linarith

/-- **C90 with cuts.**  For every well-formed problem with an objective bounded on the relaxation whose integer
variables have non-negative lower bounds and whose constraints have integral sides, both LP interfaces, every branching
rule and all cut parameters, with integrality tolerance 0: if the LP code answers rightly up to `eps` and `delta` and
hands out rows in order (its rows of the basis inverse may be anything), and `Solve` returns OK, then for every feasible
point of the user's problem there is a recorded solution and the best one is worse by at most `2 * delta`; if it returns
an error, there is no feasible point.

Missing for C90: positive integrality tolerances together with cuts; cuts computed in doubles (C91, C92); and what C75 excludes. -/
theorem C90_with_cuts_partial {e : Engine} {eps delta : ℚ} (he : e.Approximate eps delta) (ho : e.InOrder)
    (hsort : e.Sorted) {x : Setup.External} {p : Problem} (hp : p.WellFormed) (hB : Bounded p)
    (hn : NonnegativeIntegers p) (hs : IntegralSides p) {user : Setup.ParamsMsg}
    (htol : user.integralityTolerance = some 0) {c : Setup.Created} (h : Setup.create x p user = .ok c) (fuel : Nat) :
    (∀ s, solve e c fuel = some (.ok s) → ∀ y, p.Feasible y →
      s.result.best ≠ {} ∧
      if p.isMaximization then p.userObjective y ≤ p.userObjective (point s.result.best.values) + 2 * delta
      else p.userObjective (point s.result.best.values) ≤ p.userObjective y + 2 * delta) ∧
    ∀ m, solve e c fuel = some (.error m) → ∀ y, ¬ p.Feasible y := by
  obtain ⟨hd, h₀⟩ := created_refines hp h
  obtain ⟨-, hdata, -, -, -, h6, -⟩ := Setup.create_ok h
  rw [htol] at h6
  have hv : CutsValid e p c := ⟨⟨ho, hsort, hp, hn, hs, _, hdata⟩, h6⟩
  have hg : Cutting p (start c.lpi).program { world := { lp := start c.lpi } } := by
    refine ⟨⟨Extends.refl _, h₀.stored, ?_, fun _ _ k => List.Pairwise.nil⟩, by simp⟩
    intro y hy r row hr
    have hlt : r < p.relaxation.numRows := by
      rw [← h₀.numRows]; exact (List.getElem?_eq_some_iff.mp hr).1
    have hk : p.constraints[r]? = some p.constraints[r] := List.getElem?_eq_getElem hlt
    obtain ⟨h1, h2⟩ := h₀.rows r row hr
    show Between row.lhs ((start c.lpi).program.activity r y) row.rhs
    rw [h1, h2, h₀.activity hlt, relaxation_activity hp hk]
    simpa [Problem.relaxation, hk] using hy.2 _ (List.mem_of_getElem? hk)
  have hshape : Solver.PrimalShape (guard (cautious (oracle e c) (Allowed c.data))
      (Cutting p (start c.lpi).program)) p.vars.length := by
    intro r values hv'
    by_cases hr : Cutting p (start c.lpi).program r
    · have h' : r.world.primal = .ok values := (if_pos hr).symm.trans hv'
      rw [(primal_spec h').1, hr.sound.good.numCols, h₀.numCols]; rfl
    · have h' := (if_neg hr).symm.trans hv'
      cases h'
  have hlen : p.vars.length = c.data.lower.length := by rw [hd.lower]; simp
  have hcon : Contract (guard (cautious (oracle e c) (Allowed c.data)) (Cutting p (start c.lpi).program))
      (Cutting p (start c.lpi).program) bounds
      (Solver.ApproximateAnswer (guard (cautious (oracle e c) (Allowed c.data)) (Cutting p (start c.lpi).program))
        c.data bounds eps delta) := by
    refine contract_congr (contract_cutting hv h₀
      (A := fun w => Solver.ApproximateAnswer (oracle e c) c.data bounds eps delta { world := w })
      (approximateAnswer_of he hp hB hd h₀) (P := Allowed c.data) (fun _ h => h)).guard ?_
    intro r hr
    have h1 : (guard (cautious (oracle e c) (Allowed c.data)) (Cutting p (start c.lpi).program)).isOptimal r =
        r.world.lp.isOptimal := if_pos hr
    have h2 : (guard (cautious (oracle e c) (Allowed c.data)) (Cutting p (start c.lpi).program)).primal r =
        r.world.primal := if_pos hr
    unfold Solver.ApproximateAnswer
    rw [h1, h2]
    exact Iff.rfl
  have hrun := (Solver.cautious_runs (prm := params c) (Solver.dataOk_of_represents hd)
    (contract_cutting hv h₀ (A := fun w => w.lp.isOptimal = true → NearlyFeasible w.lp.program eps w.report.point)
      (fun w w' _ hw ho => he.nearly.solve hw ho) (P := Allowed c.data) (fun _ h => h))
    (keeps_cutting hv h₀) (by rw [← hlen]; exact hshape)
    (fun r hr hb ha hopt => by
      obtain ⟨⟨x', hx', -⟩, -⟩ := ha hopt
      exact fit_of_bounds hn hd h₀ hr.sound.good hb hx') hg (startsAt hd h₀)).1 fuel
  have := Solver.C89_approximate (prm := params c) hd hshape hcon hg (startsAt hd h₀) (fuel := fuel)
  rw [hrun] at this
  exact ⟨fun s hs => (this.1 s hs).2, this.2⟩

/-- The hypotheses of C90 with cuts are met together, by LP code that is not exact and with the default parameters of the
cut runner. -/
example : blurred.Approximate 0 (1 / 10 ^ 9) ∧ ¬ blurred.Right ∧ blurred.InOrder ∧ blurred.Sorted ∧
    exProblem.WellFormed ∧ Bounded exProblem ∧ NonnegativeIntegers exProblem ∧ IntegralSides exProblem ∧
    (∃ y, exProblem.Feasible y) ∧
    ∀ x, ∃ c, Setup.create x exProblem { integralityTolerance := some 0 } = .ok c := by
  obtain ⟨h1, -, h3, h4⟩ := exProblem_spec
  refine ⟨blurred_spec.1, blurred_spec.2.1, fun _ _ => rfl, fun _ _ _ => List.Pairwise.nil, h1, h3, ?_, ?_, h4,
    fun x => ?_⟩
  · intro v hv hi
    simp [exProblem] at hv
    rcases hv with rfl | rfl <;> norm_num [Dbl.le]
  · intro k hk q hq
    simp [exProblem] at hk
    subst hk
    simp at hq
    exact ⟨7, by rw [← hq]; norm_num⟩
  · exact (Setup.C73_glop_partial x exProblem h1 _ _ (Setup.lpWins _) rfl).1
      (by refine ⟨⟨?_, ?_, ?_, ?_, ?_, ?_, ?_, ?_⟩, rfl, ?_, ?_, rfl, rfl⟩ <;>
        simp [Setup.LpMsg.read, ToleranceOk])

end Program
end MiniMip
