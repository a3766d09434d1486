import Verif.Props.ProgramCutoff
import Verif.Props.ProgramUnbounded

/-!
# A cut that costs all feasible points

The problem of `ProgramCutoff`, with lower bound 1: the cut that is not valid leaves nothing.
-/

namespace MiniMip
namespace Program

variable {hash : MipData.HashOrder}

open Glop (LinearProgram)
open Solver (point)

/-- `max x`, `2 x ≤ 5/2`, `1 ≤ x ≤ 9`, `x` integer: `x = 1` is the only feasible point. -/
def narrow : Problem :=
  { vars := [{ name := "x", objective := 1, lower := .fin 1, upper := .fin 9, isInteger := true }]
    constraints := [{ name := "c", varIndices := [0], coefficients := [2], rhs := .fin (5 / 2) }]
    isMaximization := true }

/-- Its LP. -/
def narrowLp : LinearProgram :=
  { cols := [⟨.fin 1, .fin 9, -1, "x", [⟨0, 2⟩]⟩], rows := [⟨.ninf, .fin (5 / 2), "c"⟩] }

theorem narrow_created {d : MipData} (hd : MipData.ofProblem hash narrow = .ok d) :
    d.lower = [.fin 1] ∧ d.upper = [.fin 9] ∧ d.integerVariables = [0] ∧ d.isIntegralConstraint = [true] ∧
    d.objective = ⟨[⟨0, -1⟩], false⟩ ∧
    ∀ b g, Glop.populateFromMipData { useScaling := b } d = .ok g → g.lp = narrowLp := by
  obtain ⟨d₀, hd₀, rfl⟩ := MipData.ofProblem_order hd
  have h : (match MipData.ofProblem .id narrow with
    | .ok d => decide (d.lower = [.fin 1]) && decide (d.upper = [.fin 9]) && decide (d.integerVariables = [0]) &&
        decide (d.isIntegralConstraint = [true]) && decide (d.objective = ⟨[⟨0, -1⟩], false⟩) &&
        [true, false].all fun b => (match Glop.populateFromMipData { useScaling := b } d with
          | .ok g => decide (g.lp = narrowLp)
          | _ => true)
    | _ => false) = true := by decide +kernel
  rw [hd₀] at h
  simp only [Bool.and_eq_true, decide_eq_true_eq, List.all_eq_true] at h
  obtain ⟨⟨⟨⟨⟨h1, h2⟩, h3⟩, h4⟩, h6⟩, h5⟩ := h
  refine ⟨h1, h2, by rw [h3]; exact hash.apply_singleton 0, h4, h6, fun b g hg => ?_⟩
  have := h5 b (by cases b <;> simp)
  rw [Glop.populateFromMipData_order] at hg
  rw [hg] at this
  simpa using this

/-- The feasible points and the objective of the LPs. -/
theorem narrow_feasible (y : Int → ℚ) : (narrowLp.Feasible y ↔ 1 ≤ y 0 ∧ y 0 ≤ 5 / 4) ∧ narrowLp.value y = -y 0 := by
  have hact : narrowLp.activity 0 y = 2 * y 0 := by
    simp [LinearProgram.activity, LinearProgram.coefficient, narrowLp, SparseVector.sumAt]
  refine ⟨⟨fun ⟨h1, h2⟩ => ?_, fun ⟨h1, h2⟩ => ⟨?_, ?_⟩⟩, by simp [LinearProgram.value, narrowLp]⟩
  · have h1 := h1 0 _ rfl
    have h2 := h2 0 _ rfl
    rw [hact] at h2
    simp only [Between, Dbl.le_fin] at h1 h2
    exact ⟨h1.1, by linarith [h2.2]⟩
  · intro n col hn
    match n with
    | 0 =>
      cases hn
      simp only [Between, Dbl.le_fin]
      exact ⟨h1, by push_cast; linarith⟩
    | n + 1 => simp [narrowLp] at hn
  · intro n row hn
    match n with
    | 0 =>
      cases hn
      rw [hact]
      simp only [Between, Dbl.le_fin]
      exact ⟨rfl, by linarith⟩
    | n + 1 => simp [narrowLp] at hn

/-- The basis and the inverse of the matrix. -/
theorem narrow_basis {r : Report} (h : r.GlopBasic narrowLp) (hx : r.point 0 = 5 / 4) :
    r.basis.map (glopElement narrowLp) = [.col 0] ∧
    (r.glopInverse 0).values = [1 / 2] ∧ ((r.glopInverse 0).nonZeros = [] ∨ (r.glopInverse 0).nonZeros = [0]) := by
  have hlen := h.basic.length
  have hin : Glop.ColOrRow.col (0 : Nat) ∈ r.basis.map (glopElement narrowLp) := by
    by_contra hn
    have := h.basic.cols 0 _ rfl hn
    simp only [Basic.AtBound, Nat.cast_zero, hx] at this
    norm_num at this
  have hb : r.basis.map (glopElement narrowLp) = [.col 0] := by
    obtain ⟨b, hb⟩ := List.length_eq_one_iff.1 (hlen.trans rfl)
    rw [hb] at hin ⊢
    simpa [eq_comm] using hin
  have hok := h.shape 0 (by decide)
  obtain ⟨v, hv⟩ := List.length_eq_one_iff.1 (hok.length.trans (rfl : narrowLp.rows.length = 1))
  have hinv := h.basic.inverse 0 (by decide) 0 (.col 0) (by rw [hb]; rfl)
  rw [show narrowLp.rows.length = 1 from rfl, Finset.sum_range_one, hv] at hinv
  have hent : narrowLp.basisEntry 0 (.col 0) = 2 := by
    simp [LinearProgram.basisEntry, LinearProgram.coefficient, narrowLp, SparseVector.sumAt]
  rw [hent] at hinv
  simp at hinv
  have hinv : v = 1 / 2 := by linarith
  subst hinv
  refine ⟨hb, hv, ?_⟩
  rcases hok.nonZeros with h1 | ⟨h1, h2, h3⟩
  · exact Or.inl h1
  · right
    have h0 : (0 : Int) ∈ (r.glopInverse 0).nonZeros := by
      by_contra hn
      have := h3 0 hn
      rw [hv] at this
      simp at this
    have hall : ∀ i ∈ (r.glopInverse 0).nonZeros, i = 0 := by
      intro i hi
      obtain ⟨ha, hb⟩ := h2 i hi
      rw [show narrowLp.rows.length = 1 from rfl] at hb
      omega
    match hl : (r.glopInverse 0).nonZeros with
    | [] => rw [hl] at h0; simp at h0
    | [i] => rw [hl] at hall; simpa using hall
    | i :: j :: l =>
      rw [hl] at hall h1
      simp at hall h1
      omega

/-- What the generator reads in the root node. -/
def narrowContext : GenContext where
  lp := { rows := [⟨[⟨0, 2⟩], false⟩], lhs := [.ninf], rhs := [.fin (5 / 2)], lower := [.fin 1], upper := [.fin 9] }
  isInteger := fun j => decide (j ∈ [(0 : Int)])
  integralRow := [true]
  objective := ⟨[⟨0, -1⟩], false⟩
  tol := 0

open Generator in
/-- MIR rounding yields `x / 3 ≤ 1 / 6`, strong CG rounding `x / 2 ≤ 3 / 8`. -/
theorem narrow_round : aggregateByWeight narrowContext.lp tightWeights [true] = .ok tightAgg ∧
    toNonNegative narrowContext.lp tightAgg = .ok (tightAgg, true) ∧
    roundOne narrowContext tightAgg .mir = .ok (some (⟨[⟨0, 1 / 3⟩], false⟩, 1 / 6)) ∧
    roundOne narrowContext tightAgg .strongCG = .ok (some (⟨[⟨0, 1 / 2⟩], false⟩, 3 / 8)) := by
  refine ⟨?_, ?_, ?_, ?_⟩ <;> gen_eval [narrowContext, tightAgg, tightWeights]

open Generator in
/-- The generator produces both. -/
theorem narrow_cuts {s : SolverView} (h1 : s.isSolved = true) (h2 : s.isOptimal = true)
    {y : ℚ} (h3 : s.activities = .ok [y]) (h4 : s.primal = .ok [5 / 4]) (h5 : s.basis = [some 0])
    (h6 : s.bInverted 0 = .ok tightWeights) :
    ∃ n1 n2, generateCuttingPlanes narrowContext s [.mir, .strongCG] 100 =
      .ok [tightCut (1 / 3) (1 / 6) n1, tightCut (1 / 2) (3 / 8) n2] := by
  obtain ⟨ha, ha', hm, hx⟩ := narrow_round
  have hw : rowWeights tightWeights = tightWeights := by gen_eval [tightWeights]
  rw [generate_single (c := narrowContext) (u := [true]) (col := 0) (by norm_num) h1 h2 h3 rfl h4 rfl (by rw [h5]; rfl) rfl
    (by gen_eval [narrowContext]) h6 (by rw [hw]; exact ha) ha']
  have hr1 : removesLPOptimum ⟨[⟨0, 1 / 3⟩], false⟩ (1 / 6) (SparseVector.ofDense [5 / 4]) = true := by gen_eval []
  have hr2 : removesLPOptimum ⟨[⟨0, 1 / 2⟩], false⟩ (3 / 8) (SparseVector.ofDense [5 / 4]) = true := by gen_eval []
  simp only [roundAll, hm, hx, hr1, hr2, Outcome.bind_ok, Outcome.pure_eq, if_true]
  exact ⟨_, _, rfl⟩

/-- What `Create` makes of the problem. -/
structure NarrowCreated (c : Setup.Created) : Prop where
  lower : c.data.lower = [.fin 1]
  upper : c.data.upper = [.fin 9]
  integers : c.data.integerVariables = [0]
  integral : c.data.isIntegralConstraint = [true]
  objective : c.data.objective = ⟨[⟨0, -1⟩], false⟩
  tol : c.integralityTolerance = 0
  generators : c.runner.generators = [⟨100, true, true⟩]
  selector : c.runner.selector = ({} : Setup.HybridMsg).read
  rounds : c.runner.params.maxIterations = 1
  perNode : 0 < c.runner.params.maxNumCutsPerNode
  total : 0 < Runner.toSizeT c.runner.params.maxNumCutsTotal
  rule : c.rule = .maxFractional .unspecified
  backtrack : 1 ≤ c.backtrackLimit

/-- The one round of cuts adds the MIR cut, and the LP has no feasible point any more. -/
theorem narrow_separate {e : Engine} (hret : e.GlopReturns) (hin : e.GlopInTime) (he : e.Right) {c : Setup.Created}
    (hc : NarrowCreated c) {w : World} (h : Solved narrowLp (5 / 4) w) (hb : w.report.GlopBasic narrowLp) :
    ∃ r s, separate e c { world := w } = .ok r ∧ r.world.lp = .glop s ∧ s.status ≠ .optimal := by
  obtain ⟨hb1, hb2, hb3⟩ := narrow_basis hb h.point
  have hctx : context e c w = narrowContext := by
    have hrow : Lp.sparseRow e w.lp = fun r : Nat => Glop.copyToSparse (Glop.transposedRow r 0 narrowLp.cols) := by
      funext r
      simp only [Lp.sparseRow, h.glop, h.program]
    simp only [context, hc.integers, hc.integral, hc.objective, hc.tol, Lp.view, hrow]
    simp only [Lp.program, h.glop, h.program]
    rfl
  obtain ⟨n1, n2, hcuts⟩ := narrow_cuts (s := World.view w) (y := w.report.activities.getD (fun _ => 0) 0)
    (by simp [World.view, h.glop, Lp.isSolved, h.solved])
    (by simp [World.view, h.glop, Lp.isOptimal, Glop.Session.isOptimal, h.optimal])
    (by simp [World.view, World.activities, Glop.getRowActivities, h.glop, h.program, narrowLp])
    (by simpa [World.view] using h.primal rfl)
    (by
      simp only [World.view, World.basis, Glop.getColumnsAndRowsInBasis, h.glop, h.program]
      have hlen : w.report.basis.length = 1 := by simpa using congrArg List.length hb1
      rw [List.take_of_length_le (by rw [hlen]; decide)]
      rw [show (w.report.basis.map fun (col : Int) => if col < narrowLp.cols.length then Glop.ColOrRow.col col
        else .row (col - narrowLp.cols.length)) = [.col 0] from hb1]
      rfl)
    (by
      have hcol : collect (Glop.atLeast (1 / 10 ^ 8)) (fun i => Soplex.denseAt [1 / 2] i) narrowLp.rows.length 0 {} =
          .ok tightWeights := by
        have h : Glop.atLeast (1 / 10 ^ 8) (1 / 2) = true := by norm_num [Glop.atLeast]
        simp only [collect, narrowLp, List.length_singleton]
        rw [show Soplex.denseAt [1 / 2] ((0 : Nat) : Int) = .ok (1 / 2) from rfl]
        simp only [Outcome.bind_ok, h, if_true]
        gen_eval [tightWeights]
      simp only [World.view, World.inverseRow, h.glop, h.tolerance, Glop.getSparseRowOfBInverted, h.program]
      rcases hb3 with h | h
      · rw [h, hb2]
        rw [if_neg (by simp)]
        exact hcol
      · rw [h, hb2]
        rw [if_pos (by simp)]
        simp only [Soplex.addIndexed, show Soplex.denseAt [1 / 2] (0 : Int) = .ok (1 / 2) from rfl, Outcome.bind_ok]
        gen_eval [tightWeights])
  rw [← hctx] at hcuts
  have hmay : Runner.mayRun c.runner.params (plugins e c) { world := w } = true := by
    have h1 : Lp.stop w.lp = false := by rw [h.glop]; exact h.go
    have h2 : Lp.isSolved w.lp = true := by rw [h.glop]; exact h.solved
    have h3 := hc.perNode
    have h4 := hc.total
    simp only [Runner.mayRun, plugins, h1, h2, hc.rounds]
    rw [if_neg (by simp), if_neg (by simp), if_neg (by simp), if_neg (by simpa using h3), if_neg (by simpa using h4.ne')]
  -- the row
  have hadd : ∃ s', Lp.addRow w.lp ⟨(scored (1 / 3) (1 / 6) n1).row, .ninf, .fin (scored (1 / 3) (1 / 6) n1).rhs,
      (scored (1 / 3) (1 / 6) n1).name⟩ = .ok (.glop s') ∧ s'.iface.lp = cutLp 1 9 n1 ∧
      s'.settings = h.session.settings := by
    have h1 := h.program
    have h2 : ∃ g, Glop.addRow h.session.iface (scored (1 / 3) (1 / 6) n1).row .ninf
        (.fin (scored (1 / 3) (1 / 6) n1).rhs) (scored (1 / 3) (1 / 6) n1).name = .ok g ∧ g.lp = cutLp 1 9 n1 := by
      simp only [Glop.addRow, h1]
      exact ⟨_, rfl, rfl⟩
    obtain ⟨g, hg, hlp⟩ := h2
    refine ⟨{ h.session with iface := g }, ?_, hlp, rfl⟩
    simp only [Lp.addRow, h.glop, hg, Outcome.bind_ok, Outcome.pure_eq]
  obtain ⟨s', hadd, hs1, hs2⟩ := hadd
  obtain ⟨s3, hsol, hp3, hset3, hsolved3, hst3, hgo3, hans⟩ := glop_solve hret hin he
    (w := { w with lp := .glop s' }) (s := s') rfl (by rw [hs2]; exact h.limit)
  rw [hp3, hs1] at hans
  have hno := (line_optimum (fun y => (cut_feasible 1 9 n1 y).1) (fun y => (cut_feasible 1 9 n1 y).2) rfl
    hans).2 (by norm_num)
  have hround : ∃ r, Runner.round (plugins e c) { world := w } = .ok (r, true) ∧ r.numCutrounds = 1 ∧
      r.world = { w with lp := .glop s3, report := (e.glop w.solves s').2.2.2, solves := w.solves + 1 } := by
    have hgen : (plugins e c).generators = [fun w _ => do
      let cuts ← Generator.generateCuttingPlanes (context e c w) w.view [.mir, .strongCG] 100
      return (w, cuts)] := by
      simp only [plugins, hc.generators]
      rfl
    have hsel : (plugins e c).select w {} [tightCut (1 / 3) (1 / 6) n1, tightCut (1 / 2) (3 / 8) n2] =
        .ok (w, [scored (1 / 3) (1 / 6) n1]) := by
      simp only [plugins, hc.selector, tight_select, Outcome.bind_ok, Outcome.pure_eq]
    have hrow : (plugins e c).addRow w ⟨(scored (1 / 3) (1 / 6) n1).row, (plugins e c).infinity.neg,
      .fin (scored (1 / 3) (1 / 6) n1).rhs, (scored (1 / 3) (1 / 6) n1).name⟩ = .ok { w with lp := .glop s' } := by
      simp only [plugins, readLhs_neg, hadd, Outcome.bind_ok, Outcome.pure_eq]
    simp only [Runner.round, hgen, Runner.generate, hcuts, Outcome.bind_ok, Outcome.pure_eq, List.isEmpty_cons,
      Bool.false_eq_true, if_false, hsel, Runner.addAll, CutRegistry.addCut, CutData.setIndex, CutData.getIndex,
      List.append_nil, Runner.addRows, CutRegistry.getCut, List.nil_append, List.length_nil, Nat.cast_zero, lt_irrefl,
      Int.toNat_zero, List.getElem?_cons_zero, hrow]
    rw [show (plugins e c).solve = World.solve e from rfl, hsol]
    exact ⟨_, rfl, rfl, rfl⟩
  obtain ⟨r, hr1, hr2, hr3⟩ := hround
  refine ⟨r, s3, ?_, by rw [hr3], hno⟩
  have hmay' : Runner.mayRun c.runner.params (plugins e c) r = false := by
    simp only [Runner.mayRun, hr2, hc.rounds]
    split_ifs <;> simp_all
  unfold separate
  rw [hc.rounds]
  simp [Runner.separateFuel, hmay, hr1, hmay']

/-- The first iteration. -/
theorem narrow_run {e : Engine} (hret : e.GlopReturns) (hin : e.GlopInTime) (he : e.Right) (hbas : e.GlopBasic)
    {c : Setup.Created} (hc : NarrowCreated c) {set : Glop.Settings} {g : Glop.Interface} (hl : c.lpi = .glop set g)
    (hg : g.lp = narrowLp) (htol : set.primalTolerance = .fin (1 / 10 ^ 8)) (hlim : set.maxIterations = -1) (n : Nat) :
    solve e c (n + 1) = some (.error "The problem is infeasible or unbounded") := by
  obtain ⟨s1, hb1, hs1, hset1⟩ := glop_bounds (e := e) (c := c) (r := { world := { lp := start c.lpi } })
    (s := { iface := g, settings := set }) (by rw [hl]; rfl) (by show g.lp.cols.length = 1; rw [hg]; rfl) (.fin 1) (.fin 9)
  rw [show (Glop.Interface.lp _) = narrowLp from hg, show narrowLp.withBounds 0 (.fin 1) (.fin 9) = narrowLp from rfl] at hs1
  obtain ⟨s2, hsol, hp2, hset2, hsolved2, hst2, hgo2, hans⟩ := glop_solve hret hin he
    (w := { lp := .glop s1 }) (s := s1) rfl (by rw [hset1]; exact hlim)
  rw [hp2, hs1] at hans
  obtain ⟨ho, hpt, hv⟩ := (line_optimum (fun y => (narrow_feasible y).1) (fun y => (narrow_feasible y).2) rfl hans).1
    (by norm_num)
  have hbasic := hbas 0 s1 (hst2.symm.trans ho)
  rw [hs1] at hbasic
  obtain ⟨r3, s3, hsep, hl3, hno⟩ := narrow_separate hret hin he hc
    (w := { lp := .glop s2, report := (e.glop 0 s1).2.2.2, solves := 1 })
    ⟨s2, rfl, hp2.trans hs1, by rw [hset2, hset1]; exact htol, by rw [hset2, hset1]; exact hlim, hsolved2, ho, hgo2 ho,
      hpt, hv⟩ hbasic
  have hnode : Solver.solveNode (oracle e c) c.data [.fin 1] [.fin 9] { world := { lp := start c.lpi } } = .ok r3 := by
    have hs : (oracle e c).solve { world := { lp := .glop s1 } } =
        .ok { world := { lp := .glop s2, report := (e.glop 0 s1).2.2.2, solves := 1 } } := by
      simp only [oracle, hsol, Outcome.bind_ok, Outcome.pure_eq]
    have hopt : (oracle e c).isOptimal
        { world := { lp := .glop s2, report := (e.glop 0 s1).2.2.2, solves := 1 } } = true := by
      simp [oracle, Lp.isOptimal, Glop.Session.isOptimal, ho]
    unfold Solver.solveNode
    rw [hc.integers, hb1]
    simp only [Outcome.bind_ok, hs, Outcome.orAbort, hopt, if_true]
    rw [show (oracle e c).separate = separate e c from rfl, hsep]
  have hopt3 : (oracle e c).isOptimal r3 = false := by
    simp [oracle, hl3, Lp.isOptimal, Glop.Session.isOptimal, hno]
  have hl0 : MipTree.init.retrieveLower 0 [.fin 1] = .ok [.fin 1] := by decide +kernel
  have hu0 : MipTree.init.retrieveUpper 0 [.fin 9] = .ok [.fin 9] := by decide +kernel
  have hi1 : Solver.iterate (oracle e c) c.data (params c) (Solver.initial { world := { lp := start c.lpi } }) =
      .error "The problem is infeasible or unbounded" := by
    unfold Solver.iterate
    simp only [Solver.initial, Solver.pop, if_true, List.getLast?_singleton, List.dropLast_singleton, hc.lower,
      hc.upper, hl0, hu0, Outcome.bind_ok, hnode, hopt3, Bool.false_eq_true, if_false, Solver.infeasibleNode]
  simp only [solve, Solver.solveFuel, hi1]

theorem narrow_spec : narrow.WellFormed ∧ FiniteIntegers narrow ∧ Bounded narrow ∧ NonnegativeIntegers narrow ∧
    narrow.Feasible (fun _ => 1) := by
  refine ⟨?_, ?_, ⟨5 / 4, ?_⟩, ?_, ?_, ?_⟩
  · simp [Problem.WellFormed, narrow, Variable.WellFormed, Constraint.WellFormed, Ordered, Dbl.le]
  · intro v hv _
    simp [narrow] at hv
    subst hv
    exact ⟨_, _, rfl, rfl⟩
  · rintro y ⟨-, h2⟩
    have hx := h2 _ (List.mem_singleton.2 rfl)
    simp [Between, Dbl.le, Constraint.activity] at hx
    simp [narrow, Problem.userObjective, objectiveFrom]
    linarith
  · intro v hv _
    simp [narrow] at hv
    subst hv
    rfl
  · intro n v hv
    match n with
    | 0 => simp [narrow] at hv; subst hv; exact ⟨by norm_num [Between], fun _ => ⟨1, by simp⟩⟩
    | n + 1 => simp [narrow] at hv
  · intro k hk
    simp [narrow] at hk
    subst hk
    norm_num [Between, Constraint.activity, Dbl.le]

/-- **C114 fails** with one round of cuts if a constraint has a fractional side, in exact arithmetic.  `max x`, `2 x ≤ 5/2`,
`1 ≤ x ≤ 9`, `x` integer has the feasible point `x = 1` and is bounded.  Whatever Glop that answers rightly, returns, keeps a
basis and stops at no limit, and whatever `std::sort`: the slack of the constraint is taken for integral (mip_data.cc), the
generator derives `x / 3 ≤ 1 / 6` from the LP optimum `5/4` of the root, no point is left, and `Solve` returns the error that
the problem is infeasible or unbounded. -/
theorem C114_fractional_side_violated :
    (narrow.WellFormed ∧ FiniteIntegers narrow ∧ Bounded narrow ∧ NonnegativeIntegers narrow ∧
      narrow.Feasible (fun _ => 1) ∧ ¬ Unbounded narrow) ∧ AsksOneRound oneRoundUser ∧
    (∃ x c, Setup.create x narrow oneRoundUser = .ok c) ∧
    ∀ x c, Setup.create x narrow oneRoundUser = .ok c →
      ∀ e : Engine, e.Right → e.GlopReturns → e.GlopBasic → e.GlopInTime → ∀ n,
        solve e c (n + 1) = some (.error "The problem is infeasible or unbounded") := by
  obtain ⟨q1, q2, q3, q4, q5⟩ := narrow_spec
  refine ⟨⟨q1, q2, q3, q4, q5, fun h => h.not_bounded q3⟩, ⟨⟨1, le_refl _, rfl⟩, by simp [oneRoundUser]⟩,
    ⟨Setup.exExternal, ?_⟩, ?_⟩
  · have htakes : Setup.GlopTakes (oneRoundUser.lp.getD {}).read := by
      refine ⟨⟨?_, ?_, ?_, ?_, ?_, ?_, ?_, ?_⟩, rfl, ?_, ?_, rfl, rfl⟩ <;>
        simp [oneRoundUser, Setup.LpMsg.read, ToleranceOk]
    exact (Setup.C73_glop_partial _ narrow narrow_spec.1 oneRoundUser _ (Setup.lpWins _) rfl).1 htakes
  intro x c hc e he hret hbas hin n
  obtain ⟨-, hd, -, hrun, hrule, htol, hback⟩ := Setup.create_ok hc
  obtain ⟨hlo, hup, hint, hintc, hobj, hlp⟩ := narrow_created hd
  obtain ⟨set, g, hl, hg, htol', hmax⟩ := default_glop hc rfl
  have hT : NarrowCreated c := by
    refine ⟨hlo, hup, hint, hintc, hobj, htol, ?_, ?_, ?_, ?_, ?_, ?_, ?_⟩
    · rw [hrun]; rfl
    · rw [hrun]
    · rw [hrun]; rfl
    · rw [hrun]; decide
    · rw [hrun]; decide +kernel
    · rw [hrule]; rfl
    · rw [hback.2]; decide
  exact narrow_run hret hin he hbas hT hl (hlp _ _ hg) htol' hmax n

end Program
end MiniMip
