import Verif.Props.ProgramRound
import Verif.Props.GeneratorWitness

/-!
# A fractional side

The rows whose variables are integer are taken for rows with an integral slack, whatever their sides
(mip_data.cc), and with the default parameters the program then divides by zero on a problem with one
variable and one constraint.
-/

namespace MiniMip
namespace Program

variable {hash : MipData.HashOrder}

open Glop (LinearProgram)

/-- The calls of Glop do not run into a limit. -/
def Engine.GlopInTime (e : Engine) : Prop :=
  ∀ n s, (∀ k, ((e.glop n s).1 k).limitReached = false) ∧ (e.glop n s).2.2.1 = false

theorem perfect_inTime : perfect.GlopInTime := fun _ _ => ⟨fun _ => rfl, rfl⟩

/-- With the default parameters of the LP solver, `Create` makes Glop with these settings. -/
theorem default_glop {x : Setup.External} {p : Problem} {user : Setup.ParamsMsg} {c : Setup.Created}
    (h : Setup.create x p user = .ok c) (hu : user.lp = none) :
    ∃ s g, c.lpi = .glop s g ∧ Glop.populateFromMipData { useScaling := s.useScaling } c.data = .ok g ∧
      s.primalTolerance = .fin (1 / 10 ^ 8) ∧ s.maxIterations = -1 := by
  obtain ⟨-, -, ⟨l, hl, hl'⟩, -⟩ := Setup.create_ok h
  rw [hu] at hl
  have hex : ∃ s, Setup.createLpSolver x ((none : Option Setup.LpMsg).getD {}).read =
      .ok (.glop s { useScaling := s.useScaling }) ∧ s.primalTolerance = .fin (1 / 10 ^ 8) ∧
      s.maxIterations = -1 := ⟨_, rfl, rfl, rfl⟩
  obtain ⟨s, h1, h2, h3⟩ := hex
  rw [h1] at hl
  cases hl
  simp only [Setup.Lpi.populate, Outcome.bind_eq_ok] at hl'
  obtain ⟨g, hg, hl'⟩ := hl'
  exact ⟨s, g, (Outcome.ok.inj hl').symm, hg, h2, h3⟩

/-- The first solve with Glop of a problem with one variable. -/
theorem first_solve {e : Engine} (hret : e.GlopReturns) (hin : e.GlopInTime) {c : Setup.Created}
    {s : Glop.Settings} {g : Glop.Interface} (hl : c.lpi = .glop s g) (hs : s.maxIterations = -1)
    (hcols : g.lp.cols.length = 1) (l u : Dbl) :
    ∃ r1 s1 s2 : _, Solver.applyBounds (oracle e c) [l] [u] { world := { lp := start c.lpi } } [0] = .ok r1 ∧
      (oracle e c).solve r1 = .ok
        { world := { lp := .glop s2, report := (e.glop 0 s1).2.2.2, solves := 1, draws := 0 } } ∧
      s1.iface.lp = g.lp.withBounds 0 l u ∧ s2.iface.lp = g.lp.withBounds 0 l u ∧ s2.settings = s ∧
      s2.status = (e.glop 0 s1).2.1 ∧ s2.isSolved = true ∧ s2.timeLimitIsExceeded = false ∧
      s2.iterationLimitIsExceeded = false ∧ s2.objectiveLimitIsExceeded = false := by
  have hset : ∃ g1, Glop.setColumnBounds g 0 l u = .ok g1 ∧ g1.lp = g.lp.withBounds 0 l u := by
    refine ⟨_, if_pos ⟨le_rfl, by rw [hcols]; norm_num⟩, rfl⟩
  obtain ⟨g1, hg1, hlp1⟩ := hset
  let s1 : Glop.Session := { iface := g1, settings := s }
  have hok := solveLp_returns g1 (hret 0 s1)
  have hprog : ∀ answers, (Glop.solveLp g1 answers).1.lp = g1.lp := by
    intro answers
    simp only [Glop.solveLp, Glop.solveInternal]
    split_ifs <;> rfl
  have hsol : (Glop.solveLp g1 (e.glop 0 s1).1).1.modified = false ∧
      (Glop.solveLp g1 (e.glop 0 s1).1).1.timeLimitReached = false := by
    simp only [Glop.solveLp, Glop.solveInternal, hret 0 s1, (hin 0 s1).1, Bool.not_true, Bool.false_eq_true,
      if_false, if_true]
    split <;> simp
  refine ⟨{ world := { lp := .glop s1 } }, s1,
    (s1.solveLp true (e.glop 0 s1).1 (e.glop 0 s1).2.1 (e.glop 0 s1).2.2.1).1, ?_, ?_, hlp1, ?_, rfl, rfl,
    ?_, ?_, ?_, ?_⟩
  · simp [Solver.applyBounds, vecGet, oracle, hl, start, Lp.setColumnBounds, hg1, Outcome.orAbort, s1]
  · simp only [oracle, World.solve]
    rw [show (s1.solveLp true (e.glop 0 s1).1 (e.glop 0 s1).2.1 (e.glop 0 s1).2.2.1).2 = true from hok]
    rfl
  · exact (hprog _).trans hlp1
  · simp only [Glop.Session.isSolved, Glop.Session.solveLp, s1, hsol.1, Bool.not_false]
  · exact hsol.2
  · simp only [Glop.Session.iterationLimitIsExceeded, Glop.Session.solveLp, s1, hs]
    simp
  · exact (hin 0 s1).2

/-- `max x`, `x ≤ 3/2`, `0 ≤ x ≤ 9`, `x` integer. -/
def side : Problem :=
  { vars := [{ name := "x", objective := 1, lower := .fin 0, upper := .fin 9, isInteger := true }]
    constraints := [{ name := "c", varIndices := [0], coefficients := [1], rhs := .fin (3 / 2) }]
    isMaximization := true }

/-- Its LP. -/
def sideLp : LinearProgram :=
  { cols := [⟨.fin 0, .fin 9, -1, "x", [⟨0, 1⟩]⟩], rows := [⟨.ninf, .fin (3 / 2), "c"⟩] }

theorem side_created {d : MipData} (hd : MipData.ofProblem hash side = .ok d) :
    d.lower = [.fin 0] ∧ d.upper = [.fin 9] ∧ d.integerVariables = [0] ∧ d.isIntegralConstraint = [true] ∧
    d.objective = ⟨[⟨0, -1⟩], false⟩ ∧
    ∀ b g, Glop.populateFromMipData { useScaling := b } d = .ok g → g.lp = sideLp := by
  obtain ⟨d₀, hd₀, rfl⟩ := MipData.ofProblem_order hd
  have h : (match MipData.ofProblem .id side with
    | .ok d => decide (d.lower = [.fin 0]) && decide (d.upper = [.fin 9]) && decide (d.integerVariables = [0]) &&
        decide (d.isIntegralConstraint = [true]) && decide (d.objective = ⟨[⟨0, -1⟩], false⟩) &&
        [true, false].all fun b => (match Glop.populateFromMipData { useScaling := b } d with
          | .ok g => decide (g.lp = sideLp)
          | _ => true)
    | _ => false) = true := by decide +kernel
  rw [hd₀] at h
  simp only [Bool.and_eq_true, decide_eq_true_eq, List.all_eq_true] at h
  obtain ⟨⟨⟨⟨⟨h1, h2⟩, h3⟩, h4⟩, h6⟩, h5⟩ := h
  refine ⟨h1, h2, by rw [h3]; exact hash.apply_singleton 0, h4, h6, fun b g hg => ?_⟩
  have := h5 b (by cases b <;> simp)
  rw [Glop.populateFromMipData_order] at hg
  rw [hg] at this
  simpa using this

/-- What the generator reads in the root node. -/
def sideContext : GenContext where
  lp := { rows := [⟨[⟨0, 1⟩], false⟩], lhs := [.ninf], rhs := [.fin (3 / 2)], lower := [.fin 0], upper := [.fin 9] }
  isInteger := fun j => decide (j ∈ [(0 : Int)])
  integralRow := [true]
  objective := ⟨[⟨0, -1⟩], false⟩
  tol := 1 / 10 ^ 6

/-- The row of the inverse. -/
def sideWeights : SparseVector := ⟨[⟨0, 1⟩], false⟩

/-- The aggregated row. -/
def sideAgg : AggRow where
  vars := ⟨[⟨0, 1⟩], false⟩
  slackCoefs := ⟨[⟨0, 1⟩], false⟩
  slackSigns := ⟨[⟨0, 1⟩], false⟩
  sideValues := ⟨[⟨0, 3 / 2⟩], false⟩
  rhs := some (3 / 2)

open Generator in
/-- MIR rounding and strong CG rounding yield the cut `0 ≤ -1/2`. -/
theorem side_round : aggregateByWeight sideContext.lp sideWeights [true] = .ok sideAgg ∧
    toNonNegative sideContext.lp sideAgg = .ok (sideAgg, true) ∧
    roundOne sideContext sideAgg .mir = .ok (some (⟨[], false⟩, -1 / 2)) ∧
    roundOne sideContext sideAgg .strongCG = .ok (some (⟨[], false⟩, -1 / 2)) := by
  refine ⟨?_, ?_, ?_, ?_⟩ <;> gen_eval [sideContext, sideAgg, sideWeights]

open Generator in
/-- The generator produces an empty cut. -/
theorem side_cuts {s : SolverView} (h1 : s.isSolved = true) (h2 : s.isOptimal = true)
    {y : ℚ} (h3 : s.activities = .ok [y]) (h4 : s.primal = .ok [3 / 2]) (h5 : s.basis = [some 0])
    (h6 : s.bInverted 0 = .ok sideWeights) :
    ∃ cut cuts, generateCuttingPlanes sideContext s [.mir, .strongCG] 100 = .ok (cut :: cuts) ∧
      cut.numNonZeros = 0 := by
  obtain ⟨ha, ha', hm, hx⟩ := side_round
  rw [generate_single (c := sideContext) (u := [true]) (col := 0) (by norm_num) h1 h2 h3 rfl h4 rfl (by rw [h5]; rfl) rfl
    (by gen_eval [sideContext]) h6 ha ha']
  have hr : removesLPOptimum ⟨[], false⟩ (-1 / 2) (SparseVector.ofDense [3 / 2]) = true := by gen_eval []
  simp only [roundAll, hm, hx, hr, Outcome.bind_ok, Outcome.pure_eq, if_true]
  exact ⟨_, _, rfl, rfl⟩

/-- The feasible points and the objective of the LP. -/
theorem side_feasible (y : Int → ℚ) :
    (sideLp.Feasible y ↔ 0 ≤ y 0 ∧ y 0 ≤ 9 ∧ y 0 ≤ 3 / 2) ∧ sideLp.value y = -y 0 ∧ sideLp.activity 0 y = y 0 := by
  have hact : sideLp.activity 0 y = y 0 := by
    simp [LinearProgram.activity, LinearProgram.coefficient, sideLp, SparseVector.sumAt]
  refine ⟨⟨fun ⟨h1, h2⟩ => ?_, fun ⟨h1, h2, h3⟩ => ⟨?_, ?_⟩⟩, ?_, hact⟩
  · have h1 := h1 0 _ rfl
    have h2 := h2 0 _ rfl
    rw [hact] at h2
    simp only [Between, Dbl.le] at h1 h2
    simp_all
  · intro n col hn
    match n with
    | 0 =>
      cases hn
      simp [Between, Dbl.le]
      exact ⟨h1, h2⟩
    | n + 1 => simp [sideLp] at hn
  · intro n row hn
    match n with
    | 0 =>
      cases hn
      rw [hact]
      simp [Between, Dbl.le]
      linarith
    | n + 1 => simp [sideLp] at hn
  · simp [LinearProgram.value, sideLp]

/-- What a right answer says about the LP of `side`. -/
theorem side_optimum {opt : Prop} {r : Report} (h : RightAnswer sideLp opt r) :
    opt ∧ (opt → r.point 0 = 3 / 2) := by
  obtain ⟨h1, h2⟩ := h
  have hf : sideLp.Feasible fun _ => 3 / 2 := (side_feasible _).1.2 (by norm_num)
  constructor
  · by_contra hn
    rcases h2 hn with h2 | h2
    · exact h2 _ hf
    · obtain ⟨y, hy, hv⟩ := h2 (-2)
      rw [(side_feasible y).1] at hy
      rw [(side_feasible y).2.1] at hv
      simp [sideLp] at hv
      linarith [hy.2.2]
  · intro ho
    obtain ⟨hp, -, hb⟩ := h1 ho
    have := hb _ hf
    rw [(side_feasible _).2.1, (side_feasible _).2.1] at this
    rw [(side_feasible _).1] at hp
    simp [sideLp] at this
    linarith [hp.2.2]

/-- Its basis and the inverse of the matrix. -/
theorem side_basis {r : Report} (h : r.GlopBasic sideLp) (hx : r.point 0 = 3 / 2) :
    r.basis.map (glopElement sideLp) = [.col 0] ∧
    (r.glopInverse 0).values = [1] ∧ ((r.glopInverse 0).nonZeros = [] ∨ (r.glopInverse 0).nonZeros = [0]) := by
  have hlen := h.basic.length
  have hin : Glop.ColOrRow.col (0 : Nat) ∈ r.basis.map (glopElement sideLp) := by
    by_contra hn
    have := h.basic.cols 0 _ rfl hn
    simp only [Basic.AtBound, Nat.cast_zero, hx] at this
    norm_num at this
  have hb : r.basis.map (glopElement sideLp) = [.col 0] := by
    obtain ⟨b, hb⟩ := List.length_eq_one_iff.1 (hlen.trans rfl)
    rw [hb] at hin ⊢
    simpa [eq_comm] using hin
  have hok := h.shape 0 (by decide)
  obtain ⟨v, hv⟩ := List.length_eq_one_iff.1 (hok.length.trans (rfl : sideLp.rows.length = 1))
  have hinv := h.basic.inverse 0 (by decide) 0 (.col 0) (by rw [hb]; rfl)
  rw [show sideLp.rows.length = 1 from rfl, Finset.sum_range_one, hv] at hinv
  have hent : sideLp.basisEntry 0 (.col 0) = 1 := by
    simp [LinearProgram.basisEntry, LinearProgram.coefficient, sideLp, SparseVector.sumAt]
  rw [hent] at hinv
  simp at hinv
  subst hinv
  refine ⟨hb, hv, ?_⟩
  rcases hok.nonZeros with h1 | ⟨h1, h2, h3⟩
  · exact Or.inl h1
  · right
    have h0 : (0 : Int) ∈ (r.glopInverse 0).nonZeros := by
      by_contra hn
      have := h3 0 hn
      rw [hv] at this
      simp at this
    have hall : ∀ i ∈ (r.glopInverse 0).nonZeros, i = 0 := by
      intro i hi
      obtain ⟨ha, hb⟩ := h2 i hi
      rw [show sideLp.rows.length = 1 from rfl] at hb
      omega
    match hl : (r.glopInverse 0).nonZeros with
    | [] => rw [hl] at h0; simp at h0
    | [i] => rw [hl] at hall; simpa using hall
    | i :: j :: l =>
      rw [hl] at hall h1
      simp at hall h1
      omega

/-- A cut without non-zeros stops the run. -/
theorem empty_cut_ub {e : Engine} {c : Setup.Created} {r : Runner World} {g : Setup.GeneratorConfig}
    {gs : List Setup.GeneratorConfig} (hg : c.runner.generators = g :: gs)
    (hsel : c.runner.selector = ({} : Setup.HybridMsg).read)
    (hmay : Runner.mayRun c.runner.params (plugins e c) r = true) {cut : CutData} {cuts : List CutData}
    (hcuts : Generator.generateCuttingPlanes (context e c r.world) r.world.view (rounders g) g.maxNumCuts =
      .ok (cut :: cuts)) (hcut : cut.numNonZeros = 0) : separate e c r = .ub := by
  have hpos : (0 : ℝ) < c.runner.selector.integerSupportWeight := by
    rw [hsel]
    simp [Setup.HybridMsg.read]
  have hub : HybridSelector.selectCuttingPlanes e.sorter c.runner.selector (cut :: cuts) = .ub := by
    simp [HybridSelector.selectCuttingPlanes, HybridSelector.scoreAll, HybridSelector.computeCutScore, hpos, hcut]
  have hround : Runner.round (plugins e c) r = .ub := by
    simp [Runner.round, Runner.generate, plugins, hg, hcuts, hub]
  unfold separate
  simp [Runner.separateFuel, hmay, hround]

theorem side_collect : collect (Glop.atLeast (1 / 10 ^ 8)) (fun i => Soplex.denseAt [1] i) sideLp.rows.length 0 {} =
    .ok sideWeights := by
  have h : Glop.atLeast (1 / 10 ^ 8) 1 = true := by norm_num [Glop.atLeast]
  simp only [collect, sideLp, List.length_singleton]
  rw [show Soplex.denseAt [1] ((0 : Nat) : Int) = .ok 1 from rfl]
  simp only [Outcome.bind_ok, h, if_true]
  rfl

/-- The problem `side` is as good as a problem can be. -/
theorem side_spec : side.WellFormed ∧ FiniteIntegers side ∧ Bounded side ∧ NonnegativeIntegers side ∧
    side.Feasible (fun _ => 1) := by
  refine ⟨?_, ?_, ⟨3 / 2, ?_⟩, ?_, ?_, ?_⟩
  · simp [Problem.WellFormed, side, Variable.WellFormed, Constraint.WellFormed, Ordered, Dbl.le]
  · intro v hv _
    simp [side] at hv
    subst hv
    exact ⟨_, _, rfl, rfl⟩
  · rintro y ⟨-, h2⟩
    have hx := h2 _ (List.mem_singleton.2 rfl)
    simp [Between, Dbl.le, Constraint.activity] at hx
    simpa [side, Problem.userObjective, objectiveFrom] using hx
  · intro v hv _
    simp [side] at hv
    subst hv
    rfl
  · intro n v hv
    match n with
    | 0 => simp [side] at hv; subst hv; exact ⟨by norm_num [Between], fun _ => ⟨1, by simp⟩⟩
    | n + 1 => simp [side] at hv
  · intro k hk
    simp [side] at hk
    subst hk
    norm_num [Between, Constraint.activity, Dbl.le]

/-- **C77 fails** with the default parameters if an integer variable alone makes up a constraint with a
fractional side.  `max x`, `x ≤ 3/2`, `0 ≤ x ≤ 9`, `x` integer is well-formed and `x = 1` is optimal.  Whatever
Glop that answers rightly, returns, keeps a basis and stops at no limit: the generator derives `0 ≤ -1/2`, a cut
without non-zeros, from the LP optimum `3/2` of the root, and the selector divides by the number of its non-zeros
(hybrid_selector.cc:36). -/
theorem C77_fractional_side_violated :
    (side.WellFormed ∧ FiniteIntegers side ∧ Bounded side ∧ NonnegativeIntegers side ∧ side.Feasible (fun _ => 1)) ∧
    (∃ x c, Setup.create x side {} = .ok c) ∧
    ∀ x c, Setup.create x side {} = .ok c → ∀ e : Engine, e.Right → e.GlopReturns → e.GlopBasic → e.GlopInTime →
      ∀ n, solve e c (n + 1) = some .ub := by
  refine ⟨side_spec, ?_, ?_⟩
  · obtain ⟨c, hc⟩ := Setup.C73_default_parameters Setup.exExternal side side_spec.1
    exact ⟨_, c, hc⟩
  intro x c hc e he hret hbas hin n
  obtain ⟨-, hd, -, hrun, -, htol, -⟩ := Setup.create_ok hc
  obtain ⟨hlo, hup, hint, hintc, hobj, hlp⟩ := side_created hd
  obtain ⟨s, g, hl, hg, htol', hmax⟩ := default_glop hc rfl
  have hg := hlp _ _ hg
  obtain ⟨r1, s1, s2, hb, hs, hp1, hp2, hset, hst, hsolved, hlim⟩ :=
    first_solve hret hin hl hmax (by rw [hg]; rfl) (.fin 0) (.fin 9)
  rw [hg] at hp1 hp2
  have hsame : sideLp.withBounds 0 (.fin 0) (.fin 9) = sideLp := rfl
  rw [hsame] at hp1 hp2
  have hans := he.glop 0 s1
  rw [hp1] at hans
  obtain ⟨hopt, hpt⟩ := side_optimum hans
  have hpt := hpt hopt
  have hbasic := hbas 0 s1 hopt
  rw [hp1] at hbasic
  obtain ⟨hb1, hb2, hb3⟩ := side_basis hbasic hpt
  set rep := (e.glop 0 s1).2.2.2 with hrep
  have hstat : s2.status = .optimal := hst.trans hopt
  have hsep : separate e c { world := { lp := .glop s2, report := rep, solves := 1, draws := 0 } } = .ub := by
    have hctx : context e c { lp := .glop s2, report := rep, solves := 1, draws := 0 } = sideContext := by
      have hrow : Lp.sparseRow e (.glop s2) = fun r : Nat => Glop.copyToSparse (Glop.transposedRow r 0 sideLp.cols) := by
        funext r
        simp only [Lp.sparseRow, hp2]
      simp only [context, hint, hintc, hobj, htol, Lp.view, Lp.program, hrow, hp2]
      rfl
    obtain ⟨cut, cuts, hcuts, hcut⟩ := side_cuts
      (s := World.view { lp := .glop s2, report := rep, solves := 1, draws := 0 })
      (y := rep.activities.getD (fun _ => 0) 0) hsolved (by simp [World.view, Lp.isOptimal, Glop.Session.isOptimal, hstat])
      (by simp [World.view, World.activities, Glop.getRowActivities, hp2, sideLp])
      (by
        have : rep.primal.getD (fun _ => 0) 0 = 3 / 2 := hpt
        simp [World.view, World.primal, Glop.getPrimalValues, hp2, sideLp, this])
      (by
        simp only [World.view, World.basis, Glop.getColumnsAndRowsInBasis, hp2]
        have hlen : rep.basis.length = 1 := by simpa using congrArg List.length hb1
        rw [List.take_of_length_le (by rw [hlen]; decide)]
        rw [show (rep.basis.map fun (col : Int) => if col < sideLp.cols.length then Glop.ColOrRow.col col
          else .row (col - sideLp.cols.length)) = [.col 0] from hb1]
        rfl)
      (by
        simp only [World.view, World.inverseRow, hset, htol', Glop.getSparseRowOfBInverted, hp2]
        rcases hb3 with h | h
        · rw [h, hb2]
          rw [if_neg (by simp)]
          exact side_collect
        · rw [h, hb2]
          rfl)
    refine empty_cut_ub (g := ⟨100, true, true⟩) (cuts := cuts) (by rw [hrun]) (by rw [hrun]) ?_ ?_ hcut
    · have h1 : Lp.stop (.glop s2) = false := by
        simp [Lp.stop, hlim, Glop.Session.isPrimalInfeasible, Glop.Session.isPrimalUnbounded, Glop.Session.isDualInfeasible,
          Glop.Session.isDualUnbounded, hstat]
      have h2 : Lp.isSolved (.glop s2) = true := hsolved
      simp only [Runner.mayRun, plugins, h1, h2, hrun]
      decide
    · rw [hctx]
      exact hcuts
  have hit : Solver.iterate (oracle e c) c.data (params c)
      (Solver.initial { world := { lp := start c.lpi } }) = .ub := by
    have hopt' : (oracle e c).isOptimal { world := { lp := .glop s2, report := rep, solves := 1, draws := 0 } } = true := by
      simp [oracle, Lp.isOptimal, Glop.Session.isOptimal, hstat]
    have e1 : MipTree.init.retrieveLower 0 [.fin 0] = .ok [.fin 0] := by decide +kernel
    have e2 : MipTree.init.retrieveUpper 0 [.fin 9] = .ok [.fin 9] := by decide +kernel
    have hnode : Solver.solveNode (oracle e c) c.data [.fin 0] [.fin 9] { world := { lp := start c.lpi } } = .ub := by
      simp only [Solver.solveNode, hint, hb, Outcome.bind_ok, hs, Outcome.orAbort, hopt', if_true]
      rw [show (oracle e c).separate = separate e c from rfl, hsep]
    simp [Solver.iterate, Solver.initial, Solver.pop, hlo, hup, e1, e2, hnode]
  simp only [solve, Solver.solveFuel, hit]

/-- Such LP code exists. -/
example : perfect.Right ∧ perfect.GlopReturns ∧ perfect.GlopBasic ∧ perfect.GlopInTime :=
  ⟨perfect_spec.1, perfect_spec.2, perfect_basic.1, perfect_inTime⟩

end Program
end MiniMip
