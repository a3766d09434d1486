import Verif.Model.IeeeProgramSelector
import Verif.Props.IeeeSelector
import Verif.Props.ProgramPlugins

/-!
# C92 with the whole cut code in doubles: cuts generated, measured and selected in doubles
-/

namespace MiniMip

theorem RDbl.ofDbl_inj {a b : Dbl} (h : RDbl.ofDbl a = RDbl.ofDbl b) : a = b := by
  cases a <;> cases b <;> simp [RDbl.ofDbl] at h ⊢
  exact_mod_cast h

theorem RDbl.toDbl_ofDbl (d : Dbl) : (RDbl.ofDbl d).toDbl = d := by
  have h : ∃ x, RDbl.ofDbl x = RDbl.ofDbl d := ⟨d, rfl⟩
  rw [RDbl.toDbl, dif_pos h]
  exact RDbl.ofDbl_inj h.choose_spec

namespace Program

open Glop (LinearProgram)
open Solver (point)

/-! ## What is handed over -/

/-- Cuts keep all numbers between generator, selector and registry. -/
theorem toVec_ofVec {v : Ieee.Vec} {row : SparseVector} (h : ofVec v = some row) : toVec row = v := by
  have key : ∀ (l : List (AEntry Dbl)) (m : List Entry), (l.mapM fun e => match e.value with
      | .fin q => some (⟨e.index, q⟩ : Entry)
      | _ => none) = some m → (m.map fun e => (⟨e.index, .fin e.value⟩ : AEntry Dbl)) = l := by
    intro l
    induction l with
    | nil => intro m h; simp at h; subst h; rfl
    | cons x r ih =>
      intro m h
      obtain ⟨i, q⟩ := x
      rw [List.mapM_cons, Option.bind_eq_bind, Option.bind_eq_some_iff] at h
      obtain ⟨y, hy, h⟩ := h
      rw [Option.bind_eq_bind, Option.bind_eq_some_iff] at h
      obtain ⟨m', h1, h⟩ := h
      cases h
      cases q <;> cases hy
      rw [List.map_cons, ih m' h1]
  simp only [ofVec, Option.bind_eq_bind, Option.bind_eq_some_iff] at h
  obtain ⟨l, h1, h2⟩ := h
  cases h2
  simp only [toVec, key _ _ h1]

theorem toCutF_ofCutF {c : Ieee.CutF} {d : CutData} (h : ofCutF c = .ok d) : toCutF d = c := by
  unfold ofCutF at h
  split at h
  · rename_i row rhs hr hb
    cases h
    obtain ⟨a1, a2, a3, a4, a5, a6, a7, a8, a9, a10⟩ := c
    simp only at hr hb
    have hm : a10.map (RDbl.toDbl ∘ RDbl.ofDbl) = a10 := by
      cases a10 <;> simp [RDbl.toDbl_ofDbl]
    simp only [toCutF, toVec_ofVec hr, RDbl.toDbl_ofDbl, hb, Option.map_map, hm]
  · cases h

theorem toCutF_ofCutFs {l : List Ieee.CutF} {m : List CutData} (h : ofCutFs l = .ok m) : m.map toCutF = l := by
  induction l generalizing m with
  | nil => cases h; rfl
  | cons x r ih =>
    simp only [ofCutFs, Outcome.bind_eq_ok] at h
    obtain ⟨d, h1, l', h2, h3⟩ := h
    cases h3
    rw [List.map_cons, toCutF_ofCutF h1, ih h2]

theorem doubleRun_custom (s : Ieee.SqrtCode) (t : Ieee.Selector.Sorter) (q : Ieee.Selector.Params) (e : Engine)
    (c : Setup.Created) (fuel : Nat) :
    doubleRun s t q e c fuel = customSolve e c (doublePlugins s t q e c).generators (doublePlugins s t q e c).select
      fuel := rfl

/-! ## Plug-ins that fall for the strong CG cut of `3 x ≤ 4` -/

/-- In the first round the cut `x / 4 ≤ 0` is selected, and in the second there are no cuts. -/
structure TakesQuarter (gen : World → CutRegistry → Outcome (World × List CutData))
    (select : World → CutRegistry → List CutData → Outcome (World × List CutData)) : Prop where
  first : ∀ (w : World) (rep : Report), Solved thirdsLp opt3 w → w.report = rep.rounded → rep.GlopBasic thirdsLp → rep.point 0 = 4 / 3 →
    ∃ x l k, gen w {} = .ok (w, x :: l) ∧ select w {} (x :: l) = .ok (w, [k]) ∧ k.row = ⟨[⟨0, 1 / 4⟩], false⟩ ∧
      k.rhs = 0
  second : ∀ (name : String) (w : World) (reg : CutRegistry), Solved (quarterLp name) 0 w → w.report.basis.length = 2 → gen w reg = .ok (w, [])

variable {gen : World → CutRegistry → Outcome (World × List CutData)}
  {select : World → CutRegistry → List CutData → Outcome (World × List CutData)}

theorem custom_mayRun {e : Engine} {c : Setup.Created} (hc : ThirdsCreated c) {r : Runner World}
    (h1 : r.world.lp.stop = false) (h2 : r.world.lp.isSolved = true) (h3 : r.numCutrounds < 100)
    (h4 : r.numCutsAdded < 100) (h5 : r.registry.activeIndices.length < 100) :
    Runner.mayRun c.runner.params (customPlugins e c [gen] select) r = true := by
  have hs : Runner.toSizeT 100 = 100 := by decide +kernel
  simp only [Runner.mayRun, customPlugins, plugins, h1, h2, hc.params, hs]
  rw [if_neg (by simp), if_neg (by simp), if_neg (by omega), if_neg (by omega), if_neg (by omega)]

theorem custom_bounds {e : Engine} {c : Setup.Created} {r : Runner World} {s : Glop.Session}
    (hr : r.world.lp = .glop s) (hc : s.iface.lp.cols.length = 1) (l u : Dbl) :
    ∃ s', Solver.applyBounds (customOracle e c [gen] select) [l] [u] r [0] =
        .ok { r with world := { r.world with lp := .glop s' } } ∧
      s'.iface.lp = s.iface.lp.withBounds 0 l u ∧ s'.settings = s.settings := by
  obtain ⟨s', h1, h2⟩ := glop_bounds (e := e) (c := c) hr hc l u
  refine ⟨s', ?_, h2⟩
  rw [← h1]
  rfl

/-- The cut rounds: the strong CG cut is added, then there are no more cuts. -/
theorem custom_thirds_separate {e : Engine} (hret : e.GlopReturns) (hin : e.GlopInTime) (he : e.Right) (hbas : e.GlopBasic)
    {c : Setup.Created} (hc : ThirdsCreated c) (hT : TakesQuarter gen select) {w : World} (h : Solved thirdsLp opt3 w) {rep : Report}
    (hr : w.report = rep.rounded) (hb : rep.GlopBasic thirdsLp) (hx : rep.point 0 = 4 / 3) :
    ∃ r name, customSeparate e.rounded c [gen] select { world := w } = .ok r ∧ Nonempty (Solved (quarterLp name) 0 r.world) := by
  obtain ⟨x, l, k, hgen1, hsel, hk1, hk2⟩ := hT.first w rep h hr hb hx
  obtain ⟨n2, hn2⟩ : ∃ n, n = k.name := ⟨_, rfl⟩
  have hadd : ∃ s', Lp.addRow w.lp ⟨k.row, .ninf, .fin k.rhs,
      k.name⟩ = .ok (.glop s') ∧ s'.iface.lp = quarterLp n2 ∧
      s'.settings = h.session.settings := by
    have h1 := h.program
    have h2 : ∃ g, Glop.addRow h.session.iface k.row .ninf
        (.fin k.rhs) k.name = .ok g ∧ g.lp = quarterLp n2 := by
      rw [← hn2, hk1, hk2]
      simp only [Glop.addRow, h1]
      exact ⟨_, rfl, rfl⟩
    obtain ⟨g, hg, hlp⟩ := h2
    refine ⟨{ h.session with iface := g }, ?_, hlp, rfl⟩
    simp only [Lp.addRow, h.glop, hg, Outcome.bind_ok, Outcome.pure_eq]
  obtain ⟨s', hadd, hs1, hs2⟩ := hadd
  obtain ⟨s3, hsol, hp3, hset3, hsolved3, hst3, hgo3, hans⟩ := rounded_solve hret hin he
    (w := { w with lp := .glop s' }) (s := s') rfl (by rw [hs2]; exact h.limit)
  rw [hp3, hs1] at hans
  obtain ⟨ho, hpt, hv⟩ := (line_optimum (fun y => (quarter_feasible n2 y).1) (fun y => (quarter_feasible n2 y).2) rfl
    hans).1 (by norm_num)
  have hbas2 := hbas w.solves s' (hst3.symm.trans ho)
  have hlen2 : (e.glop w.solves s').2.2.2.basis.length = 2 := by
    have := hbas2.basic.length
    rw [hs1] at this
    simpa [quarterLp] using this
  have hz : Ieee.rnd 0 = 0 := by decide +kernel
  have hround : ∃ r, Runner.round (customPlugins e.rounded c [gen] select) { world := w } = .ok (r, true) ∧ r.numCutrounds = 1 ∧
      r.numCutsAdded = 0 ∧ r.registry.activeIndices.length ≤ 1 ∧
      r.world = { w with lp := .glop s3, report := (e.glop w.solves s').2.2.2.rounded, solves := w.solves + 1 } := by
    have hrow : (customPlugins e.rounded c [gen] select).addRow w ⟨k.row,
        (customPlugins e.rounded c [gen] select).infinity.neg, .fin k.rhs,
        k.name⟩ = .ok { w with lp := .glop s' } := by
      simp only [customPlugins, plugins, readLhs_neg, hadd, Outcome.bind_ok, Outcome.pure_eq]
    rw [← show (customPlugins e.rounded c [gen] select).select = select from rfl] at hsel
    simp only [Runner.round, show (customPlugins e.rounded c [gen] select).generators = [gen] from rfl, Runner.generate, hgen1, Outcome.bind_ok, Outcome.pure_eq, List.isEmpty_cons,
      Bool.false_eq_true, if_false, hsel, Runner.addAll, CutRegistry.addCut, CutData.setIndex, CutData.getIndex,
      List.append_nil, Runner.addRows, CutRegistry.getCut, List.nil_append, List.length_nil, Nat.cast_zero, lt_irrefl,
      Int.toNat_zero, List.getElem?_cons_zero, hrow]
    rw [show (customPlugins e.rounded c [gen] select).solve = World.solve e.rounded from rfl, hsol]
    exact ⟨_, rfl, rfl, rfl, by simp, rfl⟩
  obtain ⟨r, hr1, hr2, hr3, hr4, hr5⟩ := hround
  have hS : Solved (quarterLp n2) 0 r.world := by
    rw [hr5]
    refine ⟨s3, rfl, hp3.trans hs1, by rw [hset3, hs2]; exact h.tolerance, by rw [hset3, hs2]; exact h.limit, hsolved3,
      ho, hgo3 ho, ?_, ?_⟩
    · show Report.point (Report.rounded _) 0 = 0
      rw [Report.rounded_point, hpt, hz]
    · show (Report.rounded _).objective = _
      simp only [Report.rounded, hv, neg_zero, hz]
  have hgen2 := hT.second n2 r.world r.registry hS (by rw [hr5]; exact hlen2)
  have hround2 : Runner.round (customPlugins e.rounded c [gen] select) r = .ok (r, false) := by
    simp only [Runner.round, show (customPlugins e.rounded c [gen] select).generators = [gen] from rfl, Runner.generate, hgen2, Outcome.bind_ok, Outcome.pure_eq, List.isEmpty_nil,
      if_true]
  have hmay1 : Runner.mayRun c.runner.params (customPlugins e.rounded c [gen] select) { world := w } = true :=
    custom_mayRun hc (by show w.lp.stop = false; rw [h.glop]; exact h.go)
      (by show w.lp.isSolved = true; rw [h.glop]; exact h.solved) (by norm_num) (by norm_num) (by simp)
  have hmay2 : Runner.mayRun c.runner.params (customPlugins e.rounded c [gen] select) r = true :=
    custom_mayRun hc (by rw [hS.glop]; exact hS.go) (by rw [hS.glop]; exact hS.solved) (by omega) (by omega) (by omega)
  refine ⟨r, n2, ?_, ⟨hS⟩⟩
  unfold customSeparate
  rw [hc.params, show ((({} : RunnerParams).maxIterations - ({ world := w } : Runner World).numCutrounds).toNat + 1) = 101 from rfl]
  rw [hc.params] at hmay1 hmay2
  simp [Runner.separateFuel, hmay1, hmay2, hr1, hround2]

/-- The result before the status is set. -/
theorem custom_thirds_run {e : Engine} (hret : e.GlopReturns) (hin : e.GlopInTime) (he : e.Right) (hbas : e.GlopBasic)
    {c : Setup.Created} (hc : ThirdsCreated c) {set : Glop.Settings} {g : Glop.Interface} (hT : TakesQuarter gen select) (hl : c.lpi = .glop set g)
    (hg : g.lp = thirdsLp) (htol : set.primalTolerance = .fin (1 / 10 ^ 8)) (hlim : set.maxIterations = -1) :
    ∃ s, customSolve e.rounded c [gen] select 1 = some (.ok s) ∧ s.result.solveStatus = some .optimal ∧ s.result.best = ⟨[0], .fin (-0)⟩ ∧
      thirds.constraints.length < s.world.world.lp.program.rows.length := by
  obtain ⟨s1, hb1, hs1, hset1⟩ := custom_bounds (gen := gen) (select := select) (e := e.rounded) (c := c) (r := { world := { lp := start c.lpi } })
    (s := { iface := g, settings := set }) (by rw [hl]; rfl) (by show g.lp.cols.length = 1; rw [hg]; rfl) (.fin 0) (.fin 9)
  rw [show (Glop.Interface.lp _) = thirdsLp from hg, show thirdsLp.withBounds 0 (.fin 0) (.fin 9) = thirdsLp from rfl] at hs1
  obtain ⟨s2, hsol, hp2, hset2, hsolved2, hst2, hgo2, hans⟩ := rounded_solve hret hin he
    (w := { lp := .glop s1 }) (s := s1) rfl (by rw [hset1]; exact hlim)
  rw [hp2, hs1] at hans
  obtain ⟨ho, hpt, hv⟩ := (line_optimum (fun y => (thirds_feasible y).1) (fun y => (thirds_feasible y).2) rfl hans).1
    (by norm_num)
  have hbasic := hbas 0 s1 (hst2.symm.trans ho)
  rw [hs1] at hbasic
  obtain ⟨r3, name, hsep, ⟨h3⟩⟩ := custom_thirds_separate hret hin he hbas hc hT
    (w := { lp := .glop s2, report := (e.glop 0 s1).2.2.2.rounded, solves := 1 })
    ⟨s2, rfl, hp2.trans hs1, by rw [hset2, hset1]; exact htol, by rw [hset2, hset1]; exact hlim, hsolved2, ho, hgo2 ho,
      by show Report.point (Report.rounded _) 0 = _; rw [Report.rounded_point, hpt]; decide +kernel,
      by
        show (Report.rounded _).objective = _
        simp only [Report.rounded, hv]
        decide +kernel⟩ rfl hbasic hpt
  have hnode : Solver.solveNode (customOracle e.rounded c [gen] select) c.data [.fin 0] [.fin 9] { world := { lp := start c.lpi } } =
      .ok r3 := by
    have hs : (customOracle e.rounded c [gen] select).solve { world := { lp := .glop s1 } } =
        .ok { world := { lp := .glop s2, report := (e.glop 0 s1).2.2.2.rounded, solves := 1 } } := by
      simp only [customOracle, oracle, hsol, Outcome.bind_ok, Outcome.pure_eq]
    have hopt : (customOracle e.rounded c [gen] select).isOptimal
        { world := { lp := .glop s2, report := (e.glop 0 s1).2.2.2.rounded, solves := 1 } } = true := by
      simp [customOracle, oracle, Lp.isOptimal, Glop.Session.isOptimal, ho]
    unfold Solver.solveNode
    rw [hc.integers, hb1]
    simp only [Outcome.bind_ok, hs, Outcome.orAbort, hopt, if_true]
    rw [show (customOracle e.rounded c [gen] select).separate = customSeparate e.rounded c [gen] select from rfl, hsep]
  have hopt3 : (customOracle e.rounded c [gen] select).isOptimal r3 = true := by
    simp [customOracle, oracle, h3.glop, Lp.isOptimal, Glop.Session.isOptimal, h3.optimal]
  have hprim3 : (customOracle e.rounded c [gen] select).primal r3 = .ok [0] := h3.primal rfl
  have hobj3 : (customOracle e.rounded c [gen] select).objective r3 = .fin (-0) := h3.value
  have hzero : c.data.solutionIsIntegral [0] (1 / 10 ^ 6) = .ok true := by
    unfold MipData.solutionIsIntegral
    rw [hc.integers]
    decide +kernel
  have htol' : (params c).tol = 1 / 10 ^ 6 := hc.tol
  obtain ⟨t1, ht1⟩ : ∃ t1, MipTree.init.setLpData 0 (.fin (-0)) = .ok t1 := by
    have h : (match MipTree.init.setLpData 0 (.fin (-0)) with
      | .ok _ => true
      | _ => false) = true := by decide +kernel
    split at h
    · rename_i t ht; exact ⟨t, ht⟩
    · cases h
  have hi1 : Solver.iterate (customOracle e.rounded c [gen] select) c.data (params c)
      (Solver.initial { world := { lp := start c.lpi } }) =
      .ok (.stop { queue := [], backjump := false, infeasible := 0, tree := t1, result := found, world := r3 }) := by
    have hl0 : MipTree.init.retrieveLower 0 [.fin 0] = .ok [.fin 0] := by decide +kernel
    have hu0 : MipTree.init.retrieveUpper 0 [.fin 9] = .ok [.fin 9] := by decide +kernel
    unfold Solver.iterate
    simp only [Solver.initial, Solver.pop, if_true, List.getLast?_singleton, List.dropLast_singleton, hc.lower,
      hc.upper, hl0, hu0, Outcome.bind_ok, hnode, hopt3]
    unfold Solver.optimalNode
    simp only [hobj3, ht1, Outcome.bind_ok, hprim3, Outcome.orAbort, htol', hzero, if_true]
    rfl
  refine ⟨⟨[], false, 0, t1, { found with solveStatus := some .optimal }, r3⟩, ?_, rfl, rfl, ?_⟩
  · simp only [customSolve, Solver.solveFuel, hi1]
  · show thirds.constraints.length < r3.world.lp.program.rows.length
    rw [h3.glop]
    show thirds.constraints.length < h3.session.iface.lp.rows.length
    rw [h3.program]
    simp [thirds, quarterLp]


/-! ## The cuts of `3 x ≤ 4` in the selector -/

open Ieee (SqrtCode CutF rnd) in
/-- The cut `a x ≤ b` at the LP optimum of `3 x ≤ 4`. -/
def quarterCut (s : SqrtCode) (a b : ℚ) (name : String) : CutF :=
  Ieee.createCut s (Ieee.Selector.single 0 (-1)) (fun j => decide (j ∈ [(0 : Int)])) (Ieee.Selector.single 0 opt3)
    (Ieee.Selector.single 0 a) (.fin b) name false

/-- The squared norm of the MIR cut in doubles. -/
def mirSq : ℚ := 9007199254740988 / 2 ^ 53

/-- Its root is near one. -/
theorem mir_root (s : Ieee.SqrtCode) : 7 / 8 ≤ s.root mirSq ∧ s.root mirSq ≤ 9 / 8 := by
  have hd : Ieee.IsDouble mirSq := by
    refine ⟨⟨9007199254740988, -53, by norm_num, by norm_num, ?_⟩, ?_⟩
    · unfold mirSq; norm_num
    · have : |mirSq| ≤ 1 := by unfold mirSq; norm_num
      exact Ieee.le_maxFinite (this.trans (by norm_num))
  have h := s.error mirSq hd (by norm_num [mirSq])
  have h1 : Real.sqrt (mirSq : ℝ) ≤ 1 := by
    apply Real.sqrt_le_one.2
    norm_num [mirSq]
  have h2 : 15 / 16 ≤ Real.sqrt (mirSq : ℝ) := by
    apply Real.le_sqrt_of_sq_le
    norm_num [mirSq]
  have h' := abs_le.1 h
  have h3 : (1 : ℝ) / 2 ^ 53 * Real.sqrt mirSq ≤ 1 / 16 := by
    have : (1 : ℝ) / 2 ^ 53 * Real.sqrt mirSq ≤ 1 / 2 ^ 53 * 1 := mul_le_mul_of_nonneg_left h1 (by positivity)
    refine this.trans (by norm_num)
  constructor
  · have : ((7 / 8 : ℚ) : ℝ) ≤ s.root mirSq := by push_cast; linarith
    exact_mod_cast this
  · have : (s.root mirSq : ℝ) ≤ ((9 / 8 : ℚ) : ℝ) := by push_cast; linarith
    exact_mod_cast this

/-- A rounding that stays below a double. -/
theorem round_below {x B : ℚ} (h0 : 0 ≤ x) (h : x ≤ B) (hB : Ieee.rnd B = B) (h1 : B ≤ 2 ^ 53) :
    ∃ z, Ieee.round x = .fin z ∧ 0 ≤ z ∧ z ≤ B := by
  refine ⟨Ieee.rnd x, ?_, Ieee.rnd_nonneg h0, ?_⟩
  · apply Ieee.round_fin
    rw [abs_of_nonneg h0]
    exact (h.trans h1).trans (pow_le_pow_right₀ (by norm_num) (by norm_num))
  · have := Ieee.rnd_mono h
    rwa [hB] at this

/-- The score of the strong CG cut. -/
def bestScore : ℚ := 6905519428634761 / 2 ^ 52

open Ieee Ieee.Selector in
theorem scg_score (s : SqrtCode) (name : String) :
    computeCutScore {} (quarterCut s (1 / 4) 0 name) = .ok (.fin bestScore) := by
  have hroot : s.sqrt (.fin (1 / 16)) = .fin (1 / 4) := by
    have := s.exact (1 / 4) ⟨1, -2, by norm_num, by norm_num, by norm_num⟩ (by norm_num)
    show (if (1 / 16 : ℚ) < 0 then Dbl.nan else .fin (s.root (1 / 16))) = _
    rw [if_neg (by norm_num), show (1 / 16 : ℚ) = 1 / 4 * (1 / 4) by norm_num, this]
  have a1 : add (.fin 0) (mul (.fin (1 / 4)) (.fin (1 / 4))) = .fin (1 / 16) := by decide +kernel
  have a2 : add (.fin 0) (mul (.fin (-1)) (.fin (-1))) = .fin 1 := by decide +kernel
  have a3 : mul (.fin (1 / 16)) (.fin 1) = .fin (1 / 16) := by decide +kernel
  have he : (quarterCut s (1 / 4) 0 name).efficacy = .fin opt3 := by
    show Ieee.computeEfficacy s (single 0 (1 / 4)) (.fin 0) (single 0 opt3) = _
    unfold Ieee.computeEfficacy
    rw [single_dot, single_dot, if_pos rfl, if_pos rfl, a1, hroot]
    decide +kernel
  have hp : (quarterCut s (1 / 4) 0 name).objectiveParallelism = .fin 1 := by
    show parallelism s (single 0 (1 / 4)) (single 0 (-1)) = _
    unfold parallelism
    rw [single_dot, single_dot, single_dot, if_pos rfl, if_pos rfl, if_pos rfl, a1, a2, a3, hroot]
    decide +kernel
  have h1 : Dbl.lt (.fin 0) (Ieee.round (1 / 10)) = true := by decide +kernel
  have h2 : Dbl.lt (.fin 0) (.fin 1) = true := by decide +kernel
  have h3 : (quarterCut s (1 / 4) 0 name).numIntegers = 1 := rfl
  have h4 : (quarterCut s (1 / 4) 0 name).numNonZeros = 1 := rfl
  simp only [computeCutScore, h1, h2, h3, h4, if_true, one_ne_zero, if_false, he, hp]
  exact congrArg _ (by decide +kernel)

open Ieee Ieee.Selector in
theorem mir_score (s : SqrtCode) (name : String) :
    ∃ z, computeCutScore {} (quarterCut s mirA mirB name) = .ok (.fin z) ∧ z ≤ 1 := by
  obtain ⟨r1, r2⟩ := mir_root s
  have hroot : s.sqrt (.fin mirSq) = .fin (s.root mirSq) := by
    show (if mirSq < 0 then Dbl.nan else .fin (s.root mirSq)) = _
    rw [if_neg (by norm_num [mirSq])]
  have a1 : add (.fin 0) (mul (.fin mirA) (.fin mirA)) = .fin mirSq := by decide +kernel
  have a2 : add (.fin 0) (mul (.fin (-1)) (.fin (-1))) = .fin 1 := by decide +kernel
  have a3 : mul (.fin mirSq) (.fin 1) = .fin mirSq := by decide +kernel
  have a4 : sub (add (.fin 0) (mul (.fin mirA) (.fin opt3))) (.fin mirB) = .fin (3002399751580331 / 2 ^ 53) := by
    decide +kernel
  have a5 : abs (add (.fin 0) (mul (.fin mirA) (.fin (-1)))) = .fin mirA := by decide +kernel
  have hne : s.root mirSq ≠ 0 := by linarith
  have hpos : 0 < s.root mirSq := by linarith
  obtain ⟨e, e1, e2, e3⟩ := round_below (x := 3002399751580331 / 2 ^ 53 / s.root mirSq) (B := 1 / 2)
    (div_nonneg (by norm_num) hpos.le) (by rw [div_le_iff₀ hpos]; norm_num; linarith) (by decide +kernel) (by norm_num)
  obtain ⟨q, q1, q2, q3⟩ := round_below (x := mirA / s.root mirSq) (B := 5 / 4)
    (div_nonneg (by norm_num [mirA]) hpos.le) (by rw [div_le_iff₀ hpos]; norm_num [mirA]; linarith) (by decide +kernel)
    (by norm_num)
  have he : (quarterCut s mirA mirB name).efficacy = .fin e := by
    show Ieee.computeEfficacy s (single 0 mirA) (.fin mirB) (single 0 opt3) = _
    unfold Ieee.computeEfficacy
    rw [single_dot, single_dot, if_pos rfl, if_pos rfl, a1, hroot, a4]
    show (if s.root mirSq = 0 then _ else Ieee.round _) = _
    rw [if_neg hne, e1]
  have hp : (quarterCut s mirA mirB name).objectiveParallelism = .fin q := by
    show parallelism s (single 0 mirA) (single 0 (-1)) = _
    unfold parallelism
    rw [single_dot, single_dot, single_dot, if_pos rfl, if_pos rfl, if_pos rfl, a1, a2, a3, hroot, a5]
    show (if s.root mirSq = 0 then _ else Ieee.round _) = _
    rw [if_neg hne, q1]
  have hw : Ieee.round (1 / 10) = .fin (3602879701896397 / 2 ^ 55) := by decide +kernel
  have h1 : Dbl.lt (.fin 0) (Ieee.round (1 / 10)) = true := by decide +kernel
  have h2 : Dbl.lt (.fin 0) (.fin 1) = true := by decide +kernel
  have h3 : (quarterCut s mirA mirB name).numIntegers = 1 := rfl
  have h4 : (quarterCut s mirA mirB name).numNonZeros = 1 := rfl
  have h5 : mul (Ieee.round (1 / 10)) (.fin ((1 : Int).tdiv 1 : Int)) = .fin (3602879701896397 / 2 ^ 55) := by
    decide +kernel
  obtain ⟨x, x1, x2, x3⟩ := round_below (x := 1 * e) (B := 1 / 2) (by linarith) (by linarith) (by decide +kernel)
    (by norm_num)
  obtain ⟨y, y1, y2, y3⟩ := round_below (x := 3602879701896397 / 2 ^ 55 * q) (B := 1 / 4)
    (mul_nonneg (by norm_num) q2) (by nlinarith) (by decide +kernel) (by norm_num)
  obtain ⟨v, v1, v2, v3⟩ := round_below (x := x + 3602879701896397 / 2 ^ 55) (B := 3 / 4) (by linarith)
    (by norm_num; linarith) (by decide +kernel) (by norm_num)
  obtain ⟨z, z1, z2, z3⟩ := round_below (x := v + y) (B := 1) (by linarith) (by linarith) (by decide +kernel) (by norm_num)
  refine ⟨z, ?_, z3⟩
  simp only [computeCutScore, h1, h2, h3, h4, if_true, one_ne_zero, if_false, he, hp, h5]
  rw [hw]
  refine congrArg _ ?_
  rw [show mul (.fin 1) (.fin e) = .fin x from x1, show mul (.fin (3602879701896397 / 2 ^ 55)) (.fin q) = .fin y from y1,
    show add (.fin x) (.fin (3602879701896397 / 2 ^ 55)) = .fin v from v1]
  exact z1

open Ieee Ieee.Selector in
/-- The selector takes the strong CG cut, whose score is larger, and drops the other, which is parallel. -/
theorem quarter_select (s : SqrtCode) (t : Sorter) (n1 n2 : String) :
    selectCuttingPlanes s t {} [quarterCut s mirA mirB n1, quarterCut s (1 / 4) 0 n2] =
      .ok [{ quarterCut s (1 / 4) 0 n2 with score := some (.fin bestScore) }] := by
  obtain ⟨z, h1, hz⟩ := mir_score s n1
  have h2 := scg_score s n2
  obtain ⟨r1, r2⟩ := mir_root s
  set A : CutF := { quarterCut s mirA mirB n1 with score := some (.fin z) } with hA
  set B : CutF := { quarterCut s (1 / 4) 0 n2 with score := some (.fin bestScore) } with hB
  have hweak : StrictWeak [A, B] := by
    left
    intro c hc
    rcases List.mem_pair.1 hc with rfl | rfl <;> simp [scoreOf, hA, hB]
  have hsort : t.sort [A, B] = [B, A] := by
    have hp := t.perm [A, B]
    have hs := t.sorted [A, B] hweak
    rcases pair_perm hp with h | h
    · rw [h] at hs
      have h3 := (List.pairwise_cons.1 hs).1 B (by simp)
      have h4 : Dbl.lt (.fin z) (.fin bestScore) = true := by
        rw [Dbl.lt_fin]
        refine lt_of_le_of_lt hz ?_
        unfold bestScore
        norm_num
      change Dbl.lt (.fin z) (.fin bestScore) = false at h3
      rw [h4] at h3
      cases h3
    · exact h
  have hpos : 0 < s.root mirSq := by linarith
  have hkeep : keep s {} B [A] = [] := by
    have q1 : squaredNorm (single 0 mirA) = .fin mirSq := by decide +kernel
    have q2 : squaredNorm (single 0 (1 / 4)) = .fin (1 / 16) := by decide +kernel
    have hroot1 : s.sqrt (.fin mirSq) = .fin (s.root mirSq) := by
      show (if mirSq < 0 then Dbl.nan else .fin (s.root mirSq)) = _
      rw [if_neg (by norm_num [mirSq])]
    have hroot2 : s.sqrt (.fin (1 / 16)) = .fin (1 / 4) := by
      have := s.exact (1 / 4) ⟨1, -2, by norm_num, by norm_num, by norm_num⟩ (by norm_num)
      show (if (1 / 16 : ℚ) < 0 then Dbl.nan else .fin (s.root (1 / 16))) = _
      rw [if_neg (by norm_num), show (1 / 16 : ℚ) = 1 / 4 * (1 / 4) by norm_num, this]
    have hd : (single 0 (1 / 4)).dotProduct .ieee (single 0 mirA) = .fin (mirA / 4) := by
      rw [single_dot, if_pos rfl]
      decide +kernel
    have hm : mul (.fin (1 / 4)) (.fin (s.root mirSq)) = .fin (rnd (1 / 4 * s.root mirSq)) := by
      refine round_fin ?_
      rw [abs_of_nonneg (by linarith)]
      exact le_trans (by linarith) one_le_big
    have b1 : 3 / 16 ≤ rnd (1 / 4 * s.root mirSq) := by
      have := rnd_mono (x := 3 / 16) (y := 1 / 4 * s.root mirSq) (by linarith)
      rwa [show rnd (3 / 16) = 3 / 16 by decide +kernel] at this
    have b2 : rnd (1 / 4 * s.root mirSq) ≤ 5 / 16 := by
      have := rnd_mono (x := 1 / 4 * s.root mirSq) (y := 5 / 16) (by linarith)
      rwa [show rnd (5 / 16) = 5 / 16 by decide +kernel] at this
    set P := rnd (1 / 4 * s.root mirSq) with hP
    have hP0 : 0 < P := by linarith
    have hM : 15 / 16 ≤ mirA ∧ mirA ≤ 1 := by constructor <;> norm_num [mirA]
    have hcos : cosAngle s (single 0 (1 / 4)) (single 0 mirA) = .fin (rnd (mirA / 4 / P)) := by
      unfold cosAngle
      rw [q1, q2, hroot1, hroot2, hd, hm]
      show (if P = 0 then _ else Ieee.round _) = _
      rw [if_neg hP0.ne']
      refine round_fin ?_
      rw [abs_of_nonneg (div_nonneg (by linarith) hP0.le)]
      refine le_trans ?_ (le_trans (by norm_num : (2 : ℚ) ≤ 2 ^ 1) (pow_le_pow_right₀ (by norm_num) (by norm_num)))
      rw [div_le_iff₀ hP0]
      linarith
    have hc : 1 / 2 ≤ rnd (mirA / 4 / P) := by
      have := rnd_mono (x := 1 / 2) (y := mirA / 4 / P) (by rw [le_div_iff₀ hP0]; linarith)
      rwa [show rnd (1 / 2) = 1 / 2 by decide +kernel] at this
    have hthr : sub (.fin 1) (Ieee.round (9 / 10)) = .fin (900719925474099 / 2 ^ 53) := by decide +kernel
    have horth : twoCutsAreOrthogonal s {} B A = true := by
      have hf : A.forced = false := rfl
      simp only [twoCutsAreOrthogonal, hf, Bool.false_eq_true, if_false, hthr]
      rw [show cosAngle s B.row A.row = .fin (rnd (mirA / 4 / P)) from hcos]
      show Dbl.lt _ (.fin |rnd (mirA / 4 / P)|) = true
      rw [Dbl.lt_fin, abs_of_nonneg (by linarith)]
      refine lt_of_lt_of_le ?_ hc
      norm_num
    unfold keep
    rw [List.filter_cons_of_neg (by rw [horth]; simp), List.filter_nil]
  have hthr : ¬ Dbl.lt (scoreOf B) ({} : Params).scoreThreshold = true := by
    show ¬ Dbl.lt (.fin bestScore) (Ieee.round (1 / 1000000)) = true
    decide +kernel
  have hnil : t.sort [] = [] := List.perm_nil.1 (t.perm [])
  have hmax : ({} : Params).maxNumCuts = -1 := rfl
  simp only [selectCuttingPlanes, scoreAll, h1, h2, Outcome.bind_ok, Outcome.pure_eq]
  show selectLoop s t _ [A, B] [] = _
  rw [selectLoop, if_pos hweak]
  split
  · rename_i h; rw [hsort] at h; cases h
  · rename_i c rest h
    rw [hsort] at h
    simp only [List.cons.injEq] at h
    obtain ⟨rfl, rfl⟩ := h
    rw [if_neg hthr, hmax, if_neg (by simp), hkeep]
    rw [selectLoop, if_pos (show StrictWeak [] from Or.inl (by simp))]
    split
    · rfl
    · rename_i h; rw [hnil] at h; cases h

/-- Generator and selector of the default parameters fall for the strong CG cut. -/
theorem double_takes (s : Ieee.SqrtCode) (t : Ieee.Selector.Sorter) {e : Engine} {c : Setup.Created}
    (hc : ThirdsCreated c) :
    TakesQuarter (fun w _ => doubleGenerate s e c ⟨100, true, true⟩ w) (doubleSelect s t {}) := by
  constructor
  · intro w rep h hr hb hx
    have hcuts := thirds_rows (e := e) hc h hr hb hx
    have hprim : w.primal = .ok [opt3] := h.primal rfl
    have hd : ∀ a b name, doubleCut s c (SparseVector.ofDense [opt3]) ⟨⟨[⟨0, .fin a⟩], false⟩, .fin b, name⟩ =
        quarterCut s a b name := by
      intro a b name
      simp only [doubleCut, opt3_dense, hc.objective, hc.integers, quarterCut]
      rfl
    have ho : ∀ a b name, ∃ k, ofCutF (quarterCut s a b name) = .ok k := fun a b name => ⟨_, rfl⟩
    obtain ⟨k1, hk1⟩ := ho mirA mirB "MIR0"
    obtain ⟨k2, hk2⟩ := ho (1 / 4) 0 "SCG1"
    have hk : ∃ k, ofCutF { quarterCut s (1 / 4) 0 "SCG1" with score := some (.fin bestScore) } = .ok k ∧
        k.row = ⟨[⟨0, 1 / 4⟩], false⟩ ∧ k.rhs = 0 := ⟨_, rfl, rfl, rfl⟩
    obtain ⟨k, hk, hk3, hk4⟩ := hk
    refine ⟨k1, [k2], k, ?_, ?_, hk3, hk4⟩
    rotate_left
    · simp only [doubleSelect, List.map_cons, List.map_nil, toCutF_ofCutF hk1, toCutF_ofCutF hk2, quarter_select,
        Outcome.bind_ok, Outcome.pure_eq, ofCutFs, hk]
    · simp only [doubleGenerate, show rounders ⟨100, true, true⟩ = [.mir, .strongCG] from rfl, hcuts, hprim,
        Outcome.bind_ok, List.map_cons, List.map_nil, hd, ofCutFs, hk1, hk2, Outcome.pure_eq]
  · intro name w reg h hb
    have hprim : w.primal = .ok [0] := h.primal rfl
    simp only [doubleGenerate, show rounders ⟨100, true, true⟩ = [.mir, .strongCG] from rfl, quarter_rows hc h hb, hprim,
      Outcome.bind_ok, List.map_nil, ofCutFs, Outcome.pure_eq]

/-! ## The properties -/

theorem double_reads (s : Ieee.SqrtCode) (t : Ieee.Selector.Sorter) (q : Ieee.Selector.Params) (e : Engine)
    (c : Setup.Created) :
    (∀ g ∈ (doublePlugins s t q e c).generators, ∀ w reg w' cuts, g w reg = .ok (w', cuts) → w' = w) ∧
    ∀ w reg l w' cuts, (doublePlugins s t q e c).select w reg l = .ok (w', cuts) → w' = w := by
  constructor
  · intro g hg w reg w' cuts h
    simp only [doublePlugins, List.mem_map] at hg
    obtain ⟨k, -, rfl⟩ := hg
    simp only [doubleGenerate, Outcome.bind_eq_ok] at h
    obtain ⟨_, -, _, -, _, -, h⟩ := h
    cases h
    rfl
  · intro w reg l w' cuts h
    simp only [doublePlugins, doubleSelect, Outcome.bind_eq_ok] at h
    obtain ⟨_, -, _, -, h⟩ := h
    cases h
    rfl

/-- **C92, feasibility** of the whole program with cuts generated, measured and selected in doubles.  For every
well-formed problem, all parameters that `Create` takes, both LP interfaces, all square roots and sorting algorithms: if
the LP code reports points that satisfy the bounds and rows of the LP up to `eps` whenever it claims
to be optimal, then the solutions that `Solve` returns satisfy the bounds and constraints of the user's problem up to
`eps`, and integer variables are integral up to the integrality tolerance.

Missing for C92: optimality, which is false with the default parameters. -/
theorem C92_doubles_feasible_partial (s : Ieee.SqrtCode) (t : Ieee.Selector.Sorter) (q : Ieee.Selector.Params) {e : Engine}
    {eps : ℚ} (he : e.NearlyFeasible eps) {x : Setup.External} {p : Problem} (hp : p.WellFormed)
    {user : Setup.ParamsMsg} {c : Setup.Created} (h : Setup.create x p user = .ok c) {fuel : Nat}
    {st : Solver.State (Runner World)} (hs : doubleRun s t q e c fuel = some (.ok st)) :
    (st.result.best = {} ∨
      p.FeasibleWithin eps (user.integralityTolerance.getD (1 / 10 ^ 6)) (point st.result.best.values)) ∧
    ∀ sol ∈ st.result.additional,
      p.FeasibleWithin eps (user.integralityTolerance.getD (1 / 10 ^ 6)) (point sol.values) :=
  C98_feasible he hp h (double_reads s t q e c).1 (double_reads s t q e c).2 hs

/-- **C92, termination** of the whole program with cuts generated, measured and selected in doubles, as `C92_ends_partial`.
-/
theorem C92_doubles_ends_partial (s : Ieee.SqrtCode) (t : Ieee.Selector.Sorter) (q : Ieee.Selector.Params) (p : Problem)
    (hp : p.WellFormed) (hf : FiniteIntegers p) (e : Engine) (x : Setup.External) (user : Setup.ParamsMsg)
    (c : Setup.Created) (dir : Setup.Direction) (eps : ℚ) (he : e.NearlyFeasible eps)
    (h : Setup.create x p user = .ok c) (hr : c.rule = .maxFractional dir)
    (htol : 0 ≤ user.integralityTolerance.getD (1 / 10 ^ 6))
    (heps : eps ≤ user.integralityTolerance.getD (1 / 10 ^ 6)) :
    doubleRun s t q e c (iterationBound p) ≠ none :=
  C98_ends p hp hf e x user c dir eps he h hr htol heps (double_reads s t q e c).1
    (double_reads s t q e c).2

/-- **C92 fails with all of the cut code in doubles.**  As `C92_default_parameters_violated`, with the measures and the
selector in doubles too: whatever correctly rounded square root, whatever `std::sort`, whatever Glop that answers rightly
up to rounding, returns, keeps a basis and stops at no limit, `Solve` with the default parameters reports `x = 0` as
optimal for `max x`, `3 x ≤ 4`, `0 ≤ x ≤ 9`, `x` integer, with a cut in the LP. -/
theorem C92_doubles_violated :
    (thirds.WellFormed ∧ FiniteIntegers thirds ∧ Bounded thirds ∧ NonnegativeIntegers thirds ∧
      thirds.Feasible (fun _ => 1)) ∧
    (∃ x c, Setup.create x thirds {} = .ok c) ∧
    ∀ x c, Setup.create x thirds {} = .ok c → ∀ (s : Ieee.SqrtCode) (t : Ieee.Selector.Sorter),
      ∀ e : Engine, e.Right → e.GlopReturns → e.GlopBasic → e.GlopInTime →
        ∃ st, doubleSolve s t {} e c 1 = some (.ok st) ∧ st.result.solveStatus = some .optimal ∧
          thirds.userObjective (point st.result.best.values) < thirds.userObjective (fun _ => 1) ∧
          thirds.constraints.length < st.world.world.lp.program.rows.length := by
  refine ⟨thirds_spec, C92_default_parameters_violated.2.1, ?_⟩
  intro x c hc s t e he hret hbas hin
  obtain ⟨-, hd, -, hrun, hrule, htol, hback⟩ := Setup.create_ok hc
  obtain ⟨hlo, hup, hint, hintc, hobj, hlp⟩ := thirds_created hd
  obtain ⟨set, g, hl, hg, htol', hmax⟩ := default_glop hc rfl
  have hT : ThirdsCreated c := by
    refine ⟨hlo, hup, hint, hintc, hobj, htol, ?_, ?_, ?_⟩
    · rw [hrun]; rfl
    · rw [hrun]
    · rw [hrun]; rfl
  have hgen : (doublePlugins s t {} e.rounded c).generators =
      [fun w _ => doubleGenerate s e.rounded c ⟨100, true, true⟩ w] := by
    simp only [doublePlugins, hT.generators, List.map_cons, List.map_nil]
  obtain ⟨st, h1, h2, h3, h4⟩ := custom_thirds_run hret hin he hbas hT (double_takes s t (e := e.rounded) hT) hl
    (hlp _ _ hg) htol' hmax
  refine ⟨st, ?_, h2, ?_, h4⟩
  · rw [doubleSolve, doubleRun_custom, hgen]
    exact h1
  · rw [h3]
    simp [thirds, Problem.userObjective, objectiveFrom, point]

/-- Such square roots, sorting algorithms and LP code exist. -/
example : Nonempty Ieee.SqrtCode ∧ Nonempty Ieee.Selector.Sorter ∧ perfect.Right ∧ perfect.GlopReturns ∧
    perfect.GlopBasic ∧ perfect.GlopInTime :=
  ⟨⟨Ieee.exSqrt⟩, ⟨Ieee.Selector.exSorter⟩, perfect_spec.1, perfect_spec.2, perfect_basic.1, perfect_inTime⟩

/-- Non-vacuity of feasibility and termination, on the same problem. -/
example (s : Ieee.SqrtCode) (t : Ieee.Selector.Sorter) : (careful 0).NearlyFeasible 0 ∧
    ∃ x c dir, Setup.create x thirds {} = .ok c ∧ c.rule = .maxFractional dir ∧
      doubleRun s t {} (careful 0) c (iterationBound thirds) ≠ none ∧
      ∀ st, doubleRun s t {} (careful 0) c (iterationBound thirds) = some (.ok st) →
        st.result.best = {} ∨ thirds.FeasibleWithin 0 (1 / 10 ^ 6) (point st.result.best.values) := by
  obtain ⟨x, c, hc⟩ := C92_default_parameters_violated.2.1
  have hrule : ∃ dir, c.rule = .maxFractional dir := by
    obtain ⟨-, -, -, -, -, -, -, ⟨dir, -, -, h⟩, -⟩ := Setup.C58_user_wins_partial x thirds thirds_spec.1 {} c hc
    exact ⟨dir, h (Or.inr rfl)⟩
  obtain ⟨dir, hrule⟩ := hrule
  refine ⟨careful_nearly 0, x, c, dir, hc, hrule,
    C92_doubles_ends_partial s t {} thirds thirds_spec.1 thirds_spec.2.1 _ x {} c dir 0 (careful_nearly 0) hc hrule (by norm_num)
      (by norm_num), fun st h => ?_⟩
  exact (C92_doubles_feasible_partial s t {} (careful_nearly 0) thirds_spec.1 hc h).1

end Program
end MiniMip
