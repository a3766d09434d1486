import Verif.Props.IeeeProgram

/-!
# C92: a feasible problem that `Solve` calls infeasible, with the default parameters
-/

namespace MiniMip
namespace Program

variable {hash : MipData.HashOrder}

open Glop (LinearProgram)
open Solver (point)

/-- `max x`, `3 x ≤ 4`, `1 ≤ x ≤ 9`, `x` integer: `x = 1` is the only feasible point. -/
def between : Problem :=
  { vars := [{ name := "x", objective := 1, lower := .fin 1, upper := .fin 9, isInteger := true }]
    constraints := [{ name := "c", varIndices := [0], coefficients := [3], rhs := .fin 4 }]
    isMaximization := true }

/-- Its LP. -/
def betweenLp : LinearProgram :=
  { cols := [⟨.fin 1, .fin 9, -1, "x", [⟨0, 3⟩]⟩], rows := [⟨.ninf, .fin 4, "c"⟩] }

/-- Its LP with the cut `x / 4 ≤ 0`. -/
def emptyLp (name : String) : LinearProgram :=
  { cols := [⟨.fin 1, .fin 9, -1, "x", [⟨0, 3⟩, ⟨1, 1 / 4⟩]⟩]
    rows := [⟨.ninf, .fin 4, "c"⟩, ⟨.ninf, .fin 0, name⟩] }

theorem between_created {d : MipData} (hd : MipData.ofProblem hash between = .ok d) :
    d.lower = [.fin 1] ∧ d.upper = [.fin 9] ∧ d.integerVariables = [0] ∧ d.isIntegralConstraint = [true] ∧
    d.objective = ⟨[⟨0, -1⟩], false⟩ ∧
    ∀ b g, Glop.populateFromMipData { useScaling := b } d = .ok g → g.lp = betweenLp := by
  obtain ⟨d₀, hd₀, rfl⟩ := MipData.ofProblem_order hd
  have h : (match MipData.ofProblem .id between with
    | .ok d => decide (d.lower = [.fin 1]) && decide (d.upper = [.fin 9]) && decide (d.integerVariables = [0]) &&
        decide (d.isIntegralConstraint = [true]) && decide (d.objective = ⟨[⟨0, -1⟩], false⟩) &&
        [true, false].all fun b => (match Glop.populateFromMipData { useScaling := b } d with
          | .ok g => decide (g.lp = betweenLp)
          | _ => true)
    | _ => false) = true := by decide +kernel
  rw [hd₀] at h
  simp only [Bool.and_eq_true, decide_eq_true_eq, List.all_eq_true] at h
  obtain ⟨⟨⟨⟨⟨h1, h2⟩, h3⟩, h4⟩, h6⟩, h5⟩ := h
  refine ⟨h1, h2, by rw [h3]; exact hash.apply_singleton 0, h4, h6, fun b g hg => ?_⟩
  have := h5 b (by cases b <;> simp)
  rw [Glop.populateFromMipData_order] at hg
  rw [hg] at this
  simpa using this

/-- The feasible points and the objective of the LPs. -/
theorem between_feasible (y : Int → ℚ) : (betweenLp.Feasible y ↔ 1 ≤ y 0 ∧ y 0 ≤ 4 / 3) ∧ betweenLp.value y = -y 0 := by
  have hact : betweenLp.activity 0 y = 3 * y 0 := by
    simp [LinearProgram.activity, LinearProgram.coefficient, betweenLp, SparseVector.sumAt]
  refine ⟨⟨fun ⟨h1, h2⟩ => ?_, fun ⟨h1, h2⟩ => ⟨?_, ?_⟩⟩, by simp [LinearProgram.value, betweenLp]⟩
  · have h1 := h1 0 _ rfl
    have h2 := h2 0 _ rfl
    rw [hact] at h2
    simp only [Between, Dbl.le_fin] at h1 h2
    exact ⟨h1.1, by linarith [h2.2]⟩
  · intro n col hn
    match n with
    | 0 =>
      cases hn
      simp only [Between, Dbl.le_fin]
      exact ⟨h1, by push_cast; linarith⟩
    | n + 1 => simp [betweenLp] at hn
  · intro n row hn
    match n with
    | 0 =>
      cases hn
      rw [hact]
      simp only [Between, Dbl.le_fin]
      exact ⟨rfl, by linarith⟩
    | n + 1 => simp [betweenLp] at hn

theorem empty_feasible (name : String) (y : Int → ℚ) :
    ((emptyLp name).Feasible y ↔ 1 ≤ y 0 ∧ y 0 ≤ 0) ∧ (emptyLp name).value y = -y 0 := by
  have hact : (emptyLp name).activity 0 y = 3 * y 0 := by
    simp [LinearProgram.activity, LinearProgram.coefficient, emptyLp, SparseVector.sumAt]
  have hact1 : (emptyLp name).activity 1 y = 1 / 4 * y 0 := by
    simp [LinearProgram.activity, LinearProgram.coefficient, emptyLp, SparseVector.sumAt]
  refine ⟨⟨fun ⟨h1, h2⟩ => ?_, fun ⟨h1, h2⟩ => ⟨?_, ?_⟩⟩, by simp [LinearProgram.value, emptyLp]⟩
  · have h1 := h1 0 _ rfl
    have h2 := h2 1 _ rfl
    rw [hact1] at h2
    simp only [Between, Dbl.le_fin] at h1 h2
    exact ⟨h1.1, by linarith [h2.2]⟩
  · intro n col hn
    match n with
    | 0 =>
      cases hn
      simp only [Between, Dbl.le_fin]
      exact ⟨h1, by push_cast; linarith⟩
    | n + 1 => simp [emptyLp] at hn
  · intro n row hn
    match n with
    | 0 =>
      cases hn
      rw [hact]
      simp only [Between, Dbl.le_fin]
      exact ⟨rfl, by linarith⟩
    | 1 =>
      cases hn
      rw [hact1]
      simp only [Between, Dbl.le_fin]
      exact ⟨rfl, by linarith⟩
    | n + 2 => simp [emptyLp] at hn

/-- The basis and the inverse of the matrix. -/
theorem between_basis {r : Report} (h : r.GlopBasic betweenLp) (hx : r.point 0 = 4 / 3) :
    r.basis.map (glopElement betweenLp) = [.col 0] ∧
    (r.glopInverse 0).values = [1 / 3] ∧ ((r.glopInverse 0).nonZeros = [] ∨ (r.glopInverse 0).nonZeros = [0]) := by
  have hlen := h.basic.length
  have hin : Glop.ColOrRow.col (0 : Nat) ∈ r.basis.map (glopElement betweenLp) := by
    by_contra hn
    have := h.basic.cols 0 _ rfl hn
    simp only [Basic.AtBound, Nat.cast_zero, hx] at this
    norm_num at this
  have hb : r.basis.map (glopElement betweenLp) = [.col 0] := by
    obtain ⟨b, hb⟩ := List.length_eq_one_iff.1 (hlen.trans rfl)
    rw [hb] at hin ⊢
    simpa [eq_comm] using hin
  have hok := h.shape 0 (by decide)
  obtain ⟨v, hv⟩ := List.length_eq_one_iff.1 (hok.length.trans (rfl : betweenLp.rows.length = 1))
  have hinv := h.basic.inverse 0 (by decide) 0 (.col 0) (by rw [hb]; rfl)
  rw [show betweenLp.rows.length = 1 from rfl, Finset.sum_range_one, hv] at hinv
  have hent : betweenLp.basisEntry 0 (.col 0) = 3 := by
    simp [LinearProgram.basisEntry, LinearProgram.coefficient, betweenLp, SparseVector.sumAt]
  rw [hent] at hinv
  simp at hinv
  have hinv : v = 1 / 3 := by linarith
  subst hinv
  refine ⟨hb, hv, ?_⟩
  rcases hok.nonZeros with h1 | ⟨h1, h2, h3⟩
  · exact Or.inl h1
  · right
    have h0 : (0 : Int) ∈ (r.glopInverse 0).nonZeros := by
      by_contra hn
      have := h3 0 hn
      rw [hv] at this
      simp at this
    have hall : ∀ i ∈ (r.glopInverse 0).nonZeros, i = 0 := by
      intro i hi
      obtain ⟨ha, hb⟩ := h2 i hi
      rw [show betweenLp.rows.length = 1 from rfl] at hb
      omega
    match hl : (r.glopInverse 0).nonZeros with
    | [] => rw [hl] at h0; simp at h0
    | [i] => rw [hl] at hall; simpa using hall
    | i :: j :: l =>
      rw [hl] at hall h1
      simp at hall h1
      omega

/-- The LP of `between` as the generator sees it. -/
def low : Ieee.GenContext where
  lp := {
    rows := [⟨[⟨0, .fin 3⟩], false⟩]
    lhs := [.ninf]
    rhs := [.fin 4]
    lower := [.fin 1]
    upper := [.fin 9] }
  isInteger := fun j => decide (j ∈ [(0 : Int)])
  integralRow := [true]
  tol := Ieee.round (1 / 10 ^ 6)

theorem low_agg : Ieee.aggregateByWeight low.lp (Ieee.rowWeights ⟨[⟨0, Ieee.round (1 / 3)⟩], false⟩) [true] =
    .ok Ieee.thirdAgg := by
  rw [Ieee.third_weights]
  simp only [Ieee.aggregateByWeight, Ieee.aggregateLoop, Ieee.aggregateStep, Ieee.addMultiple_fuel]
  decide +kernel

theorem low_nonneg : Ieee.toNonNegative low.lp Ieee.thirdAgg = .ok (Ieee.thirdAgg, true) := by decide +kernel

open Ieee in
theorem low_scg : Ieee.roundOne low thirdAgg .strongCG = .ok (some (⟨[⟨0, .fin (1 / 4)⟩], false⟩, .fin 0)) := by
  refine roundOne_eq (r := { thirdAgg with slackCoefs := ⟨[⟨0, .fin (1 / 4)⟩], false⟩, rhs := .fin 1 })
    (r' := { thirdAgg with slackCoefs := ⟨[⟨0, .fin (1 / 4)⟩], false⟩, rhs := .fin 1 })
    (by decide +kernel) (by decide +kernel) ?_
  simp only [Ieee.substituteSlacks, Ieee.substituteLoop, Ieee.addMultiple_fuel]
  decide +kernel

open Ieee in
theorem low_mir : Ieee.roundOne low thirdAgg .mir = .ok (some (⟨[⟨0, .fin (4503599627370495 / 2 ^ 52)⟩], false⟩,
    .fin (9007199254740989 / 2 ^ 53))) := by
  refine roundOne_eq (r := { thirdAgg with slackCoefs := ⟨[⟨0, .fin (6755399441055743 / 2 ^ 106)⟩], false⟩, rhs := .fin 1 })
    (r' := { thirdAgg with slackCoefs := ⟨[⟨0, .fin (6755399441055743 / 2 ^ 106)⟩], false⟩, rhs := .fin 1 })
    (by decide +kernel) (by decide +kernel) ?_
  simp only [Ieee.substituteSlacks, Ieee.substituteLoop, Ieee.addMultiple_fuel]
  decide +kernel

open Ieee in
/-- The generator produces both. -/
theorem between_cuts {s : Ieee.SolverView} (h1 : s.isSolved = true) (h2 : s.isOptimal = true)
    {y : ℚ} (h3 : s.activities = .ok [.fin y]) (h4 : s.primal = .ok [.fin opt3]) (h5 : s.basis = [some 0])
    (h6 : s.bInverted 0 = .ok ⟨[⟨0, .fin fl3⟩], false⟩) :
    Ieee.generateCuttingPlanes low s [.mir, .strongCG] 100 =
      .ok [⟨⟨[⟨0, .fin (4503599627370495 / 2 ^ 52)⟩], false⟩, .fin (9007199254740989 / 2 ^ 53), "MIR0"⟩,
        ⟨⟨[⟨0, .fin (1 / 4)⟩], false⟩, .fin 0, "SCG1"⟩] := by
  have hr3 : Ieee.round (1 / 3) = .fin fl3 := by decide +kernel
  have hr4 : Ieee.round (4 / 3) = .fin opt3 := by decide +kernel
  have hagg := low_agg
  rw [hr3] at hagg
  have hch : Ieee.chooseSides low.lp 0 [.fin y] = .ok [true] := by
    simp [Ieee.chooseSides, listAt, low, Ieee.chooseSide, Ieee.LpView.isInfinity, Dbl.le, Dbl.neg]
  have hrow : Ieee.tableauRow low s [.mir, .strongCG] [true] (ofDense [.fin opt3]) 0 =
      Ieee.roundAll low (ofDense [.fin opt3]) thirdAgg 0 [.mir, .strongCG] := by
    have h8 : listAt s.basis ((0 : Nat) : Int) = .ok (some 0) := by rw [h5]; rfl
    have h9 : low.isInteger 0 = true := by decide +kernel
    have h10 : Ieee.isIntegerWithinTolerance low.tol ((ofDense [.fin opt3]).value .ieee 0) = false := by decide +kernel
    simp only [Ieee.tableauRow, h8, h9, h10, Outcome.bind_ok, Bool.not_true, Bool.false_eq_true, if_false, h6, hagg,
      low_nonneg]
  have hd1 := third_dot (4503599627370495 / 2 ^ 52) (9007199254740989 / 2 ^ 53) (by decide +kernel)
  have hd2 := third_dot (1 / 4) 0 (by decide +kernel)
  rw [hr4] at hd1 hd2
  simp only [Ieee.generateCuttingPlanes, h1, h2, h3, h4, Outcome.bind_ok, Bool.not_true, Bool.false_eq_true, if_false, hch,
    if_neg (show ¬ (100 : Int) < 0 by omega), show low.lp.rows.length = 1 from rfl, Ieee.tableauLoop, List.length_nil,
    Int.natCast_zero, if_pos (show (0 : Int) < 100 by omega), hrow, Ieee.roundAll, low_mir, low_scg, hd1, hd2, if_true,
    Outcome.pure_eq, List.nil_append]
  decide +kernel

/-- What `Create` makes of the problem. -/
structure BetweenCreated (c : Setup.Created) : Prop where
  lower : c.data.lower = [.fin 1]
  upper : c.data.upper = [.fin 9]
  integers : c.data.integerVariables = [0]
  integral : c.data.isIntegralConstraint = [true]
  objective : c.data.objective = ⟨[⟨0, -1⟩], false⟩
  tol : c.integralityTolerance = 1 / 10 ^ 6
  generators : c.runner.generators = [⟨100, true, true⟩]
  selector : c.runner.selector = ({} : Setup.HybridMsg).read
  params : c.runner.params = {}

/-- The float view of a report with one row and column. -/
theorem between_rows {e : Engine} {c : Setup.Created} (hc : BetweenCreated c) {w : World}
    (h : Solved betweenLp opt3 w) {r : Report} (hr : w.report = r.rounded) (hb : r.GlopBasic betweenLp)
    (hx : r.point 0 = 4 / 3) :
    Ieee.generateCuttingPlanes (floatContext e c w) w.floatView [.mir, .strongCG] 100 =
      .ok [⟨⟨[⟨0, .fin mirA⟩], false⟩, .fin mirB, "MIR0"⟩, ⟨⟨[⟨0, .fin (1 / 4)⟩], false⟩, .fin 0, "SCG1"⟩] := by
  obtain ⟨hb1, hb2, hb3⟩ := between_basis hb hx
  have hctx : floatContext e c w = low := by
    have hrow : Lp.sparseRow e w.lp = fun r : Nat => Glop.copyToSparse (Glop.transposedRow r 0 betweenLp.cols) := by
      funext r
      simp only [Lp.sparseRow, h.glop, h.program]
    simp only [floatContext, Lp.floatView, hc.integers, hc.integral, hc.tol, Lp.view, hrow]
    simp only [Lp.program, h.glop, h.program]
    rfl
  have hprim : w.primal = .ok [opt3] := h.primal rfl
  have hcuts := between_cuts (s := World.floatView w) (y := w.report.activities.getD (fun _ => 0) 0)
    (by simp [World.floatView, h.glop, Lp.isSolved, h.solved])
    (by simp [World.floatView, h.glop, Lp.isOptimal, Glop.Session.isOptimal, h.optimal])
    (by simp [World.floatView, toDbls, World.activities, Glop.getRowActivities, h.glop, h.program, betweenLp])
    (by simp [World.floatView, toDbls, hprim])
    (by
      simp only [World.floatView, World.basis, Glop.getColumnsAndRowsInBasis, h.glop, h.program, hr]
      have hlen : r.basis.length = 1 := by simpa using congrArg List.length hb1
      rw [show r.rounded.basis = r.basis from rfl, List.take_of_length_le (by rw [hlen]; decide)]
      rw [show (r.basis.map fun (col : Int) => if col < betweenLp.cols.length then Glop.ColOrRow.col col
        else .row (col - betweenLp.cols.length)) = [.col 0] from hb1]
      rfl)
    (by
      have hv : (r.rounded.glopInverse 0).values = [fl3] := by
        simp only [Report.rounded, hb2]
        decide +kernel
      have hz : (r.rounded.glopInverse 0).nonZeros = (r.glopInverse 0).nonZeros := rfl
      have hcol : collect (Glop.atLeast (1 / 10 ^ 8)) (fun i => Soplex.denseAt [fl3] i) betweenLp.rows.length 0 {} =
          .ok ⟨[⟨0, fl3⟩], false⟩ := by
        decide +kernel
      have hadd : Soplex.addIndexed [fl3] {} [0] = .ok ⟨[⟨0, fl3⟩], false⟩ := by decide +kernel
      simp only [World.floatView, World.inverseRow, h.glop, h.tolerance, Glop.getSparseRowOfBInverted, h.program, hr, hv,
        hz]
      rcases hb3 with h | h
      · rw [h, if_neg (by simp), hcol]
        rfl
      · rw [h, if_pos (by simp), hadd]
        rfl)
  rw [← hctx] at hcuts
  exact hcuts

/-- The cuts of the first round. -/
theorem between_generate {e : Engine} {c : Setup.Created} (hc : BetweenCreated c) {w : World}
    (h : Solved betweenLp opt3 w) {r : Report} (hr : w.report = r.rounded) (hb : r.GlopBasic betweenLp)
    (hx : r.point 0 = 4 / 3) :
    floatGenerate e c ⟨100, true, true⟩ w = .ok (w, [thirdsCut mirA mirB "MIR0", thirdsCut (1 / 4) 0 "SCG1"]) := by
  have hcuts := between_rows (e := e) hc h hr hb hx
  have hprim : w.primal = .ok [opt3] := h.primal rfl
  have hfc : ∀ a b name, floatCut c (SparseVector.ofDense [opt3]) ⟨⟨[⟨0, .fin a⟩], false⟩, .fin b, name⟩ =
      .ok (thirdsCut a b name) := by
    intro a b name
    simp only [floatCut, ofVec, hc.objective, hc.integers, thirdsCut]
    rfl
  simp only [floatGenerate, show rounders ⟨100, true, true⟩ = [.mir, .strongCG] from rfl, hcuts, hprim, Outcome.bind_ok,
    floatCuts, hfc, Outcome.pure_eq]

theorem between_mayRun {e : Engine} {c : Setup.Created} (hc : BetweenCreated c) {r : Runner World}
    (h1 : r.world.lp.stop = false) (h2 : r.world.lp.isSolved = true) (h3 : r.numCutrounds < 100)
    (h4 : r.numCutsAdded < 100) (h5 : r.registry.activeIndices.length < 100) :
    Runner.mayRun c.runner.params (floatPlugins e c) r = true := by
  have hs : Runner.toSizeT 100 = 100 := by decide +kernel
  simp only [Runner.mayRun, floatPlugins, plugins, h1, h2, hc.params, hs]
  rw [if_neg (by simp), if_neg (by simp), if_neg (by omega), if_neg (by omega), if_neg (by omega)]

/-- Glop says so if an LP has no feasible point. -/
def Engine.GlopNames (e : Engine) : Prop :=
  ∀ n s, (∀ y, ¬ s.iface.lp.Feasible y) → (e.glop n s).2.1 = .primalInfeasible ∨ (e.glop n s).2.1 = .dualUnbounded

/-- The cut rounds: the strong CG cut is added, and the LP has no feasible point any more. -/
theorem between_separate {e : Engine} (hret : e.GlopReturns) (hin : e.GlopInTime) (he : e.Right)
    {c : Setup.Created} (hc : BetweenCreated c) {w : World} (h : Solved betweenLp opt3 w) {rep : Report}
    (hr : w.report = rep.rounded) (hb : rep.GlopBasic betweenLp) (hx : rep.point 0 = 4 / 3) :
    (∃ r s, floatSeparate e.rounded c { world := w } = .ok r ∧ r.world.lp = .glop s ∧ s.status ≠ .optimal) ∨
    (∃ m, floatSeparate e.rounded c { world := w } = .error m) ∧ ¬ e.GlopNames := by
  obtain ⟨n2, hn2⟩ : ∃ n, n = "SCG1" := ⟨_, rfl⟩
  have hgen1 := between_generate (e := e.rounded) hc h hr hb hx
  rw [← hn2] at hgen1
  have hadd : ∃ s', Lp.addRow w.lp ⟨(thirdsScored (1 / 4) 0 n2).row, .ninf, .fin (thirdsScored (1 / 4) 0 n2).rhs,
      (thirdsScored (1 / 4) 0 n2).name⟩ = .ok (.glop s') ∧ s'.iface.lp = emptyLp n2 ∧
      s'.settings = h.session.settings := by
    have h1 := h.program
    have h2 : ∃ g, Glop.addRow h.session.iface (thirdsScored (1 / 4) 0 n2).row .ninf
        (.fin (thirdsScored (1 / 4) 0 n2).rhs) (thirdsScored (1 / 4) 0 n2).name = .ok g ∧ g.lp = emptyLp n2 := by
      simp only [Glop.addRow, h1]
      exact ⟨_, rfl, rfl⟩
    obtain ⟨g, hg, hlp⟩ := h2
    refine ⟨{ h.session with iface := g }, ?_, hlp, rfl⟩
    simp only [Lp.addRow, h.glop, hg, Outcome.bind_ok, Outcome.pure_eq]
  obtain ⟨s', hadd, hs1, hs2⟩ := hadd
  obtain ⟨s3, hsol, hp3, hset3, hsolved3, hst3, hgo3, hans⟩ := rounded_solve hret hin he
    (w := { w with lp := .glop s' }) (s := s') rfl (by rw [hs2]; exact h.limit)
  rw [hp3, hs1] at hans
  have hno := (line_optimum (fun y => (empty_feasible n2 y).1) (fun y => (empty_feasible n2 y).2) rfl hans).2 (by norm_num)
  have hgenerators : (floatPlugins e.rounded c).generators = [fun w _ => floatGenerate e.rounded c ⟨100, true, true⟩ w] := by
    simp only [floatPlugins, hc.generators, List.map_cons, List.map_nil]
  have hround : ∃ r, Runner.round (floatPlugins e.rounded c) { world := w } = .ok (r, true) ∧ r.numCutrounds = 1 ∧
      r.numCutsAdded = 0 ∧ r.registry.activeIndices.length ≤ 1 ∧
      r.world = { w with lp := .glop s3, report := (e.glop w.solves s').2.2.2.rounded, solves := w.solves + 1 } := by
    have hsel : (floatPlugins e.rounded c).select w {} [thirdsCut mirA mirB "MIR0", thirdsCut (1 / 4) 0 n2] =
        .ok (w, [thirdsScored (1 / 4) 0 n2]) := by
      simp only [floatPlugins, plugins, hc.selector, thirds_select, Outcome.bind_ok, Outcome.pure_eq]
    have hrow : (floatPlugins e.rounded c).addRow w ⟨(thirdsScored (1 / 4) 0 n2).row,
        (floatPlugins e.rounded c).infinity.neg, .fin (thirdsScored (1 / 4) 0 n2).rhs,
        (thirdsScored (1 / 4) 0 n2).name⟩ = .ok { w with lp := .glop s' } := by
      simp only [floatPlugins, plugins, readLhs_neg, hadd, Outcome.bind_ok, Outcome.pure_eq]
    simp only [Runner.round, hgenerators, Runner.generate, hgen1, Outcome.bind_ok, Outcome.pure_eq, List.isEmpty_cons,
      Bool.false_eq_true, if_false, hsel, Runner.addAll, CutRegistry.addCut, CutData.setIndex, CutData.getIndex,
      List.append_nil, Runner.addRows, CutRegistry.getCut, List.nil_append, List.length_nil, Nat.cast_zero, lt_irrefl,
      Int.toNat_zero, List.getElem?_cons_zero, hrow]
    rw [show (floatPlugins e.rounded c).solve = World.solve e.rounded from rfl, hsol]
    exact ⟨_, rfl, rfl, rfl, by simp, rfl⟩
  obtain ⟨r, hr1, hr2, hr3, hr4, hr5⟩ := hround
  have hmay1 : Runner.mayRun c.runner.params (floatPlugins e.rounded c) { world := w } = true :=
    between_mayRun hc (by show w.lp.stop = false; rw [h.glop]; exact h.go)
      (by show w.lp.isSolved = true; rw [h.glop]; exact h.solved) (by norm_num) (by norm_num) (by simp)
  have hsep : floatSeparate e.rounded c { world := w } =
      (match Runner.separateFuel c.runner.params (floatPlugins e.rounded c) 100 r with
      | some x => x
      | none => .ub) := by
    unfold floatSeparate
    rw [hc.params, show ((({} : RunnerParams).maxIterations - ({ world := w } : Runner World).numCutrounds).toNat + 1) = 101 from rfl]
    rw [hc.params] at hmay1
    rw [Runner.separateFuel, if_pos hmay1, hr1]
    rfl
  have hlp : r.world.lp = .glop s3 := by rw [hr5]
  cases hstop : r.world.lp.stop with
  | true =>
    left
    refine ⟨r, s3, ?_, hlp, hno⟩
    have hmay2 : Runner.mayRun c.runner.params (floatPlugins e.rounded c) r = false := by
      simp only [Runner.mayRun, floatPlugins, plugins, hstop, if_true]
    rw [hsep, show (100 : Nat) = 99 + 1 from rfl, Runner.separateFuel, hmay2]
    rfl
  | false =>
    right
    have hmay2 : Runner.mayRun c.runner.params (floatPlugins e.rounded c) r = true :=
      between_mayRun hc hstop (by rw [hlp]; exact hsolved3) (by omega) (by omega) (by omega)
    have hgen2 : floatGenerate e.rounded c ⟨100, true, true⟩ r.world =
        .error "CutGenerator called on non-optimal LP." := by
      have h1 : r.world.floatView.isSolved = true := by
        simp only [World.floatView, hlp, Lp.isSolved, hsolved3]
      have h2 : r.world.floatView.isOptimal = false := by
        simp only [World.floatView, hlp, Lp.isOptimal, Glop.Session.isOptimal, hno, decide_false]
      simp [floatGenerate, Ieee.generateCuttingPlanes, h1, h2]
    refine ⟨⟨"CutGenerator called on non-optimal LP.", ?_⟩, fun hnames => ?_⟩
    · have hround2 : Runner.round (floatPlugins e.rounded c) r = .error "CutGenerator called on non-optimal LP." := by
        simp [Runner.round, hgenerators, Runner.generate, hgen2]
      rw [hsep, show (100 : Nat) = 99 + 1 from rfl, Runner.separateFuel, hmay2, if_pos rfl, hround2]
    · have := hnames w.solves s' (by rw [hs1]; exact fun y hy => by have := (empty_feasible n2 y).1.1 hy; linarith)
      rw [hlp] at hstop
      rw [← hst3] at this
      simp [Lp.stop, Glop.Session.isPrimalInfeasible] at hstop
      tauto

/-- The first iteration. -/
theorem between_run {e : Engine} (hret : e.GlopReturns) (hin : e.GlopInTime) (he : e.Right) (hbas : e.GlopBasic)
    {c : Setup.Created} (hc : BetweenCreated c) {set : Glop.Settings} {g : Glop.Interface} (hl : c.lpi = .glop set g)
    (hg : g.lp = betweenLp) (htol : set.primalTolerance = .fin (1 / 10 ^ 8)) (hlim : set.maxIterations = -1)
    (fuel : Nat) (hfuel : 0 < fuel) :
    floatSolve e c fuel = some (.error "The problem is infeasible or unbounded") ∨
    floatSolve e c fuel = some .abort ∧ ¬ e.GlopNames := by
  obtain ⟨s1, hb1, hs1, hset1⟩ := float_bounds (e := e.rounded) (c := c) (r := { world := { lp := start c.lpi } })
    (s := { iface := g, settings := set }) (by rw [hl]; rfl) (by show g.lp.cols.length = 1; rw [hg]; rfl) (.fin 1) (.fin 9)
  rw [show (Glop.Interface.lp _) = betweenLp from hg, show betweenLp.withBounds 0 (.fin 1) (.fin 9) = betweenLp from rfl] at hs1
  obtain ⟨s2, hsol, hp2, hset2, hsolved2, hst2, hgo2, hans⟩ := rounded_solve hret hin he
    (w := { lp := .glop s1 }) (s := s1) rfl (by rw [hset1]; exact hlim)
  rw [hp2, hs1] at hans
  obtain ⟨ho, hpt, hv⟩ := (line_optimum (fun y => (between_feasible y).1) (fun y => (between_feasible y).2) rfl hans).1
    (by norm_num)
  have hbasic := hbas 0 s1 (hst2.symm.trans ho)
  rw [hs1] at hbasic
  have hsep := between_separate hret hin he hc
    (w := { lp := .glop s2, report := (e.glop 0 s1).2.2.2.rounded, solves := 1 })
    ⟨s2, rfl, hp2.trans hs1, by rw [hset2, hset1]; exact htol, by rw [hset2, hset1]; exact hlim, hsolved2, ho, hgo2 ho,
      by show Report.point (Report.rounded _) 0 = _; rw [Report.rounded_point, hpt]; decide +kernel,
      by
        show (Report.rounded _).objective = _
        simp only [Report.rounded, hv]
        decide +kernel⟩ rfl hbasic hpt
  have hs : (floatOracle e.rounded c).solve { world := { lp := .glop s1 } } =
      .ok { world := { lp := .glop s2, report := (e.glop 0 s1).2.2.2.rounded, solves := 1 } } := by
    simp only [floatOracle, oracle, hsol, Outcome.bind_ok, Outcome.pure_eq]
  have hopt : (floatOracle e.rounded c).isOptimal
      { world := { lp := .glop s2, report := (e.glop 0 s1).2.2.2.rounded, solves := 1 } } = true := by
    simp [floatOracle, oracle, Lp.isOptimal, Glop.Session.isOptimal, ho]
  have hl0 : MipTree.init.retrieveLower 0 [.fin 1] = .ok [.fin 1] := by decide +kernel
  have hu0 : MipTree.init.retrieveUpper 0 [.fin 9] = .ok [.fin 9] := by decide +kernel
  have hiter : ∀ out, floatSeparate e.rounded c
      { world := { lp := .glop s2, report := (e.glop 0 s1).2.2.2.rounded, solves := 1 } } = out →
      Solver.iterate (floatOracle e.rounded c) c.data (params c) (Solver.initial { world := { lp := start c.lpi } }) =
        (do
          let w ← out.orAbort
          if (floatOracle e.rounded c).isOptimal w then
            Solver.optimalNode (floatOracle e.rounded c) c.data (params c)
              (Solver.initial { world := { lp := start c.lpi } }) 0 [] w
          else Solver.infeasibleNode (params c) (Solver.initial { world := { lp := start c.lpi } }) 0 [] w) := by
    rintro out rfl
    unfold Solver.iterate
    simp only [Solver.initial, Solver.pop, if_true, List.getLast?_singleton, List.dropLast_singleton, hc.lower,
      hc.upper, hl0, hu0, Outcome.bind_ok]
    unfold Solver.solveNode
    rw [hc.integers, hb1]
    simp only [Outcome.bind_ok, hs, Outcome.orAbort, hopt, if_true]
    rfl
  obtain ⟨k, rfl⟩ : ∃ k, fuel = k + 1 := ⟨fuel - 1, by omega⟩
  rcases hsep with ⟨r, s, h1, h2, h3⟩ | ⟨⟨m, h1⟩, h2⟩
  · left
    have ho3 : (floatOracle e.rounded c).isOptimal r = false := by
      simp [floatOracle, oracle, h2, Lp.isOptimal, Glop.Session.isOptimal, h3]
    have := hiter _ h1
    simp only [Outcome.orAbort, Outcome.bind_ok, ho3, Bool.false_eq_true, if_false, Solver.infeasibleNode, if_true] at this
    simp only [floatSolve, Solver.solveFuel, this]
  · right
    have := hiter _ h1
    simp only [Outcome.orAbort, Outcome.bind_abort] at this
    exact ⟨by simp only [floatSolve, Solver.solveFuel, this], h2⟩

theorem between_spec : between.WellFormed ∧ FiniteIntegers between ∧ Bounded between ∧ NonnegativeIntegers between ∧
    between.Feasible (fun _ => 1) := by
  refine ⟨?_, ?_, ⟨4 / 3, ?_⟩, ?_, ?_, ?_⟩
  · simp [Problem.WellFormed, between, Variable.WellFormed, Constraint.WellFormed, Ordered, Dbl.le]
  · intro v hv _
    simp [between] at hv
    subst hv
    exact ⟨_, _, rfl, rfl⟩
  · rintro y ⟨-, h2⟩
    have hx := h2 _ (List.mem_singleton.2 rfl)
    simp [Between, Dbl.le, Constraint.activity] at hx
    simp [between, Problem.userObjective, objectiveFrom]
    linarith
  · intro v hv _
    simp [between] at hv
    subst hv
    rfl
  · intro n v hv
    match n with
    | 0 => simp [between] at hv; subst hv; exact ⟨by norm_num [Between], fun _ => ⟨1, by simp⟩⟩
    | n + 1 => simp [between] at hv
  · intro k hk
    simp [between] at hk
    subst hk
    norm_num [Between, Constraint.activity, Dbl.le]

/-- **C92 fails** with the default parameters on a feasible problem.  `max x`, `3 x ≤ 4`, `1 ≤ x ≤ 9`, `x` integer has
integral data and the feasible point `x = 1`.  Whatever Glop that answers rightly up to rounding to doubles, returns, keeps a
basis and stops at no limit, and whatever `std::sort`: the strong CG cut of `C92_default_parameters_violated` makes the LP
of the root infeasible, by a margin that no tolerance of an LP solver bridges, and `Solve` returns the error
that the problem is infeasible or unbounded.  (If Glop does not say which of the two, the next round of cuts fails and the
process ends.) -/
theorem C92_infeasible_violated :
    (between.WellFormed ∧ FiniteIntegers between ∧ Bounded between ∧ NonnegativeIntegers between ∧
      between.Feasible (fun _ => 1)) ∧
    (∃ x c, Setup.create x between {} = .ok c) ∧
    ∀ x c, Setup.create x between {} = .ok c →
      ∀ e : Engine, e.Right → e.GlopReturns → e.GlopBasic → e.GlopInTime → ∀ fuel, 0 < fuel →
        (e.GlopNames → floatSolve e c fuel = some (.error "The problem is infeasible or unbounded")) ∧
        ∀ s, floatSolve e c fuel ≠ some (.ok s) := by
  refine ⟨between_spec, ⟨Setup.exExternal, ?_⟩, ?_⟩
  · have htakes : Setup.GlopTakes ((({} : Setup.ParamsMsg).lp).getD {}).read := by
      refine ⟨⟨?_, ?_, ?_, ?_, ?_, ?_, ?_, ?_⟩, rfl, ?_, ?_, rfl, rfl⟩ <;>
        simp [Setup.LpMsg.read, ToleranceOk]
    exact (Setup.C73_glop_partial _ between between_spec.1 {} _ (Setup.lpWins _) rfl).1 htakes
  intro x c hc e he hret hbas hin fuel hfuel
  obtain ⟨-, hd, -, hrun, hrule, htol, hback⟩ := Setup.create_ok hc
  obtain ⟨hlo, hup, hint, hintc, hobj, hlp⟩ := between_created hd
  obtain ⟨set, g, hl, hg, htol', hmax⟩ := default_glop hc rfl
  have hT : BetweenCreated c := by
    refine ⟨hlo, hup, hint, hintc, hobj, htol, ?_, ?_, ?_⟩
    · rw [hrun]; rfl
    · rw [hrun]
    · rw [hrun]; rfl
  rcases between_run hret hin he hbas hT hl (hlp _ _ hg) htol' hmax fuel hfuel with h | ⟨h1, h2⟩
  · exact ⟨fun _ => h, fun s hs => by rw [h] at hs; cases hs⟩
  · exact ⟨fun h => absurd h h2, fun s hs => by rw [h1] at hs; cases hs⟩

/-- Such LP code exists. -/
noncomputable def naming : Engine :=
  { perfect with
    glop := fun n s =>
      let a := perfect.glop n s
      (a.1, (open Classical in if (∀ y, ¬ s.iface.lp.Feasible y) then .primalInfeasible else a.2.1), a.2.2) }

theorem naming_status (n : Nat) (s : Glop.Session) :
    (naming.glop n s).2.1 = .optimal ↔ (perfect.glop n s).2.1 = .optimal := by
  simp only [naming]
  split
  · rename_i h
    constructor
    · intro h'; cases h'
    · intro ho
      exact absurd ((perfect_spec.1.glop n s).1 ho).1 (h _)
  · rfl

example : naming.Right ∧ naming.GlopReturns ∧ naming.GlopBasic ∧ naming.GlopInTime ∧ naming.GlopNames := by
  refine ⟨⟨fun n s => ?_, fun n g => perfect_spec.1.soplex n g⟩, fun n s => perfect_spec.2 n s, fun n s h => ?_,
    fun n s => perfect_inTime n s, fun n s h => ?_⟩
  · have := perfect_spec.1.glop n s
    rw [← naming_status] at this
    exact this
  · exact perfect_basic.1 n s ((naming_status n s).1 h)
  · left
    simp only [naming]
    rw [if_pos h]

end Program
end MiniMip
