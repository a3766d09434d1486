import Verif.Props.IeeeProgram
import Verif.Props.ProgramApprox

/-!
# C92, feasibility and termination: the whole program with cuts computed in doubles

Wrong cuts may cost the optimum (`C92_default_parameters_violated`), but they neither make `Solve` return points that are
not feasible nor keep it from ending.
-/

namespace MiniMip
namespace Program

open Glop (LinearProgram Refines Extends)
open Solver (Oracle Contract guard point InBounds)

theorem float_readsOnly (e : Engine) (c : Setup.Created) : Runner.ReadsOnly (floatPlugins e c) := by
  constructor
  · intro g hg w reg w' cuts h
    simp only [floatPlugins, List.mem_map] at hg
    obtain ⟨gc, -, rfl⟩ := hg
    simp only [floatGenerate, Outcome.bind_eq_ok] at h
    obtain ⟨l, -, l', -, l'', -, h⟩ := h
    cases h; rfl
  · exact (readsOnly e c).select

/-- Separation in doubles keeps the first LP with the current bounds, and whatever each solve establishes. -/
theorem float_separate_spec {e : Engine} {c : Setup.Created} {lp₀ : LinearProgram} {A : World → Prop}
    (hA : ∀ w w' : World, Extends lp₀ w.lp.program → w.solve e = .ok w' → A w')
    {r r' : Runner World} (h : (floatOracle e c).separate r = .ok r')
    (hr : Extends lp₀ r.world.lp.program) :
    Extends lp₀ r'.world.lp.program ∧ bounds r' = bounds r ∧ (A r.world → A r'.world) := by
  have key : ∀ A : World → Prop,
      (∀ w w' : World, Extends lp₀ w.lp.program → w.solve e = .ok w' → A w') → A r.world →
      (Extends lp₀ r'.world.lp.program ∧ bounds r' = bounds r) ∧ A r'.world := by
    intro A hA ha
    simp only [floatOracle, floatSeparate] at h
    split at h
    · rename_i x hx
      rw [h] at hx
      refine Runner.separateFuel_keeps (float_readsOnly e c)
        (I := fun w => Extends lp₀ w.lp.program ∧ bounds { r' with world := w } = bounds r) (A := A)
        ?_ ?_ _ r r' hx ⟨hr, rfl⟩ ha
      · rintro w row w' ⟨h1, h2⟩ hw
        simp only [floatPlugins, plugins, Outcome.bind_eq_ok] at hw
        obtain ⟨l, hl, hw⟩ := hw
        cases hw
        obtain ⟨name, hs⟩ := addRow_program hl
        obtain ⟨g1, -, g2⟩ := h1.addRow _ _ hs
        exact ⟨g1, (bounds_congr g2).trans h2⟩
      · rintro w w' ⟨h1, h2⟩ hw
        have hw' : w.solve e = .ok w' := hw
        have hp := (solve_world hw').1
        refine ⟨⟨by rw [hp]; exact h1, (bounds_congr fun c => ?_).trans h2⟩, hA w w' h1 hw'⟩
        show w'.lp.program.cols[c]?.map _ = w.lp.program.cols[c]?.map _
        rw [hp]
    · cases h
  refine ⟨(key (fun _ => True) (fun _ _ _ _ => trivial) trivial).1.1,
    (key (fun _ => True) (fun _ _ _ _ => trivial) trivial).1.2, fun ha => (key A hA ha).2⟩

theorem float_contract_of {e : Engine} {c : Setup.Created} {lp₀ : LinearProgram} {A : World → Prop}
    (hA : ∀ w w' : World, Extends lp₀ w.lp.program → w.solve e = .ok w' → A w') :
    Contract (floatOracle e c) (Good lp₀) bounds fun r => A r.world := by
  have h := contract_of (c := c) hA
  refine ⟨h.setBounds, h.solve, ?_, h.branch⟩
  intro r r' hg ha _ h
  obtain ⟨h1, h2, h3⟩ := float_separate_spec (A := A) hA h hg
  exact ⟨h1, h2, h3 ha⟩

theorem float_keeps_good {e : Engine} {c : Setup.Created} {d : MipData} {lp₀ : LinearProgram} :
    Solver.Keeps (floatOracle e c) d (Good lp₀) where
  setBounds := (keeps_good (e := e) (c := c)).setBounds
  solve := (keeps_good (e := e) (c := c) (d := d)).solve
  separate r r' hg _ h :=
    (float_separate_spec (A := fun _ => True) (fun _ _ _ _ => trivial) h hg).1
  branch := (keeps_good (e := e) (c := c) (d := d)).branch

/-- `Solve` (solver.cc:28-155) on a solver just created, with cuts computed in doubles, for LP code that answers with
whatever numbers it has; `floatSolve` is the case where these are correctly rounded. -/
noncomputable def floatRun (e : Engine) (c : Setup.Created) (fuel : Nat) :
    Option (Outcome (Solver.State (Runner World))) :=
  Solver.solveFuel (floatOracle e c) c.data (params c) fuel (Solver.initial { world := { lp := start c.lpi } })

theorem floatSolve_eq (e : Engine) (c : Setup.Created) (fuel : Nat) : floatSolve e c fuel = floatRun e.rounded c fuel :=
  rfl

/-- **C92, feasibility.**  For every well-formed problem, all parameters that `Create` takes, both LP interfaces, all
sorting algorithms, with the cut generators computing in doubles: if the LP code reports points that satisfy the bounds
and rows of the LP up to `eps` whenever it claims to be optimal, then the solutions that `Solve` returns satisfy the
bounds and constraints of the user's problem up to `eps`, and integer variables are integral up to the integrality
tolerance, whatever cuts were generated.

Missing for C92: optimality, which is false with the default parameters. -/
theorem C92_feasible_partial {e : Engine} {eps : ℚ} (he : e.NearlyFeasible eps) {x : Setup.External} {p : Problem}
    (hp : p.WellFormed) {user : Setup.ParamsMsg} {c : Setup.Created} (h : Setup.create x p user = .ok c)
    {fuel : Nat} {s : Solver.State (Runner World)} (hs : floatRun e c fuel = some (.ok s)) :
    (s.result.best = {} ∨
      p.FeasibleWithin eps (user.integralityTolerance.getD (1 / 10 ^ 6)) (point s.result.best.values)) ∧
    ∀ sol ∈ s.result.additional,
      p.FeasibleWithin eps (user.integralityTolerance.getD (1 / 10 ^ 6)) (point sol.values) := by
  obtain ⟨hd, h₀⟩ := created_refines hp h
  have htol : (params c).tol = user.integralityTolerance.getD (1 / 10 ^ 6) := by
    obtain ⟨-, -, -, -, -, h6, -⟩ := Setup.create_ok h
    exact h6
  have hg : Good (start c.lpi).program { world := { lp := start c.lpi } } := Extends.refl _
  have hsh : Solver.PrimalShape (guard (floatOracle e c) (Good (start c.lpi).program)) _ :=
    primalShape (e := e) (c := c) (Good' := Good (start c.lpi).program) (fun _ h => h)
  rw [h₀.numCols] at hsh
  rw [← htol]
  refine Solver.C89_feasible hd hsh (float_contract_of (A := fun w => Solver.NearlyFeasibleAnswer
    (guard (floatOracle e c) (Good (start c.lpi).program)) c.data bounds eps { world := w })
      (answer_near he hp hd h₀)).guard hg (startsAt hd h₀) (fuel := fuel) ?_
  rw [Solver.guard_solveFuel float_keeps_good _ _ (by exact hg)]
  exact hs

/-- **C92, termination.**  For every well-formed problem whose integer variables have finite bounds, both LP interfaces
and all parameters that `Create` takes with the max-fractional rule, with the cut generators computing in doubles: if the
LP code's optimal points satisfy the bounds and rows of the LP up to `eps`, and `eps` is at most the integrality
tolerance, then `Solve` has ended within twice as many iterations as there are integer points within the bounds of the
integer variables, whatever cuts were generated. -/
theorem C92_ends_partial (p : Problem) (hp : p.WellFormed) (hf : FiniteIntegers p) (e : Engine) (x : Setup.External)
    (user : Setup.ParamsMsg) (c : Setup.Created) (dir : Setup.Direction) (eps : ℚ) (he : e.NearlyFeasible eps)
    (h : Setup.create x p user = .ok c) (hr : c.rule = .maxFractional dir)
    (htol : 0 ≤ user.integralityTolerance.getD (1 / 10 ^ 6))
    (heps : eps ≤ user.integralityTolerance.getD (1 / 10 ^ 6)) : floatRun e c (iterationBound p) ≠ none := by
  obtain ⟨-, -, -, -, -, h6, -⟩ := Setup.create_ok h
  obtain ⟨hrep, h₀⟩ := created_refines hp h
  have hs : Solver.PrimalShape (guard (floatOracle e c) (Good (start c.lpi).program)) _ :=
    primalShape (e := e) (c := c) (Good' := Good (start c.lpi).program) (fun _ h => h)
  rw [h₀.numCols] at hs
  have hs' : Solver.PrimalShape (guard (floatOracle e c) (Good (start c.lpi).program)) c.data.lower.length := by
    rw [hrep.lower, List.length_map]; exact hs
  have hg : Good (start c.lpi).program { world := { lp := start c.lpi } } := Extends.refl _
  rw [← h6] at htol heps
  have hu : Solver.UsesMaxFractional (guard (floatOracle e c) (Good (start c.lpi).program)) c.data (params c) :=
    usesMaxFractional (e := e) hr
  have := Solver.C89_ends_partial c.data (Solver.dataOk_of_represents hrep) (finiteBounds hf hrep)
    (Runner World) _ (params c) (Good (start c.lpi).program) bounds
    { world := { lp := start c.lpi } } eps heps htol hs'
    (float_contract_of (A := fun w => Solver.NearlyBoundedAnswer
        (guard (floatOracle e c) (Good (start c.lpi).program)) c.data bounds eps { world := w })
      (fun w w' hw hs ho values hv => (answer_near he hp hrep h₀ w w' hw hs ho values hv).1)).guard
    hu hg (startsAt hrep h₀)
  rw [Solver.guard_solveFuel float_keeps_good _ _ (by exact hg), iterationBound_eq hrep] at this
  exact this

/-! ### Non-vacuity -/

open Classical in
/-- LP code that rounds the best points to doubles, and calls them optimal only if they are feasible up to `eps`. -/
noncomputable def careful (eps : ℚ) : Engine :=
  { perfect.rounded with
    glop := fun n s =>
      ((perfect.rounded.glop n s).1,
        if (perfect.rounded.glop n s).2.1 = .optimal ∧
          NearlyFeasible s.iface.lp eps (perfect.rounded.glop n s).2.2.2.point then .optimal else .imprecise,
        (perfect.rounded.glop n s).2.2.1, (perfect.rounded.glop n s).2.2.2)
    soplex := fun n g =>
      ((perfect.rounded.soplex n g).1,
        { (perfect.rounded.soplex n g).2.1 with
          status := if (perfect.rounded.soplex n g).2.1.status = .optimal ∧
            NearlyFeasible g.lp eps (perfect.rounded.soplex n g).2.2.point then .optimal else .infeasible },
        (perfect.rounded.soplex n g).2.2) }

theorem careful_nearly (eps : ℚ) : (careful eps).NearlyFeasible eps := by
  constructor
  · intro n s h
    simp only [careful] at h ⊢
    by_cases hh : (perfect.rounded.glop n s).2.1 = .optimal ∧
        NearlyFeasible s.iface.lp eps (perfect.rounded.glop n s).2.2.2.point
    · exact hh.2
    · rw [if_neg hh] at h; cases h
  · intro n g h
    simp only [careful] at h ⊢
    by_cases hh : (perfect.rounded.soplex n g).2.1.status = .optimal ∧
        NearlyFeasible g.lp eps (perfect.rounded.soplex n g).2.2.point
    · exact hh.2
    · rw [if_neg hh] at h; cases h

/-- The LP of the counterexample is solved by such code. -/
theorem careful_thirds {s : Glop.Session} (hs : s.iface.lp = thirdsLp) (n : Nat) :
    ((careful 0).glop n s).2.1 = .optimal ∧ ((careful 0).glop n s).2.2.2.point 0 = opt3 := by
  have hr := perfect_spec.1.glop n s
  rw [hs] at hr
  have hmin : thirdsLp.maximize = false := rfl
  have hfeas : ∃ x, thirdsLp.Feasible x := ⟨fun _ => 0, ((thirds_feasible _).1).2 (by norm_num)⟩
  have hopt : (perfect.glop n s).2.1 = .optimal := by
    by_contra hn
    rcases hr.2 hn with h | h
    · exact hfeas.elim h
    · obtain ⟨x, hx, hv⟩ := h (-2)
      have h1 := (thirds_feasible x).1.1 hx
      rw [(thirds_feasible x).2] at hv
      simp only [hmin, Bool.false_eq_true, if_false] at hv
      linarith [h1.2]
  obtain ⟨h1, h2, h3⟩ := hr.1 hopt
  have h4 := (thirds_feasible _).1.1 h1
  have h5 := h3 (fun _ => 4 / 3) (((thirds_feasible _).1).2 (by norm_num))
  rw [(thirds_feasible _).2, (thirds_feasible _).2] at h5
  simp only [hmin, Bool.false_eq_true, if_false] at h5
  have hx : (perfect.glop n s).2.2.2.point 0 = 4 / 3 := by linarith [h4.2]
  have hpt : (perfect.rounded.glop n s).2.2.2.point 0 = opt3 := by
    show (perfect.glop n s).2.2.2.rounded.point 0 = opt3
    rw [Report.rounded_point, hx]
    decide +kernel
  refine ⟨?_, hpt⟩
  refine if_pos ⟨hopt, ?_⟩
  rw [hs]
  obtain ⟨g1, g2⟩ : thirdsLp.Feasible (perfect.rounded.glop n s).2.2.2.point :=
    (thirds_feasible _).1.2 (by rw [hpt]; norm_num [opt3])
  exact ⟨⟨_, g1, fun c _ => by simp⟩, fun r row hr => Solver.betweenUpTo_of_near (g2 r row hr) (by simp)⟩

/-- Non-vacuity: the problem whose optimum is lost with the default parameters.  Such LP code solves its LP, at a point
that is no rational `4/3`; the run ends, and its solutions are feasible. -/
example : (careful 0).NearlyFeasible 0 ∧ thirds.WellFormed ∧ FiniteIntegers thirds ∧
    (∀ n s, s.iface.lp = thirdsLp → ((careful 0).glop n s).2.1 = .optimal) ∧
    ∃ x c dir, Setup.create x thirds {} = .ok c ∧ c.rule = .maxFractional dir ∧
      floatRun (careful 0) c (iterationBound thirds) ≠ none ∧
      ∀ s, floatRun (careful 0) c (iterationBound thirds) = some (.ok s) →
        s.result.best = {} ∨ thirds.FeasibleWithin 0 (1 / 10 ^ 6) (point s.result.best.values) := by
  obtain ⟨x, c, hc⟩ := C92_default_parameters_violated.2.1
  have hrule : ∃ dir, c.rule = .maxFractional dir := by
    obtain ⟨-, -, -, -, -, -, -, ⟨dir, -, -, h⟩, -⟩ := Setup.C58_user_wins_partial x thirds thirds_spec.1 {} c hc
    exact ⟨dir, h (Or.inr rfl)⟩
  obtain ⟨dir, hrule⟩ := hrule
  refine ⟨careful_nearly 0, thirds_spec.1, thirds_spec.2.1, fun n s hs => (careful_thirds hs n).1, x, c, dir, hc, hrule,
    C92_ends_partial thirds thirds_spec.1 thirds_spec.2.1 _ x {} c dir 0 (careful_nearly 0) hc hrule (by norm_num)
      (by norm_num), fun s hs => (C92_feasible_partial (careful_nearly 0) thirds_spec.1 hc hs).1⟩

end Program
end MiniMip
