import Verif.Model.IeeeProgram
import Verif.Props.IeeeGenerator
import Verif.Props.ProgramCutoff

/-!
# C92: the whole program with cuts generated in floating-point arithmetic
-/

namespace MiniMip
namespace Program

variable {hash : MipData.HashOrder}

open Glop (LinearProgram)
open Solver (point)

/-! ### LP code that answers with doubles -/

theorem Report.rounded_point (r : Report) (j : Int) : r.rounded.point j = Ieee.rnd (r.point j) := by
  simp only [Report.point, Report.rounded]
  cases r.primal with
  | none => simp [show Ieee.rnd 0 = 0 by decide +kernel]
  | some f => rfl

/-- Solving with Glop. -/
theorem rounded_solve {e : Engine} (hret : e.GlopReturns) (hin : e.GlopInTime) (he : e.Right) {w : World}
    {s : Glop.Session} (hw : w.lp = .glop s) (hs : s.settings.maxIterations = -1) :
    ∃ s', w.solve e.rounded =
        .ok { w with lp := .glop s', report := (e.glop w.solves s).2.2.2.rounded, solves := w.solves + 1 } ∧
      s'.iface.lp = s.iface.lp ∧ s'.settings = s.settings ∧ s'.isSolved = true ∧
      s'.status = (e.glop w.solves s).2.1 ∧ (s'.status = .optimal → Lp.stop (.glop s') = false) ∧
      RightAnswer s'.iface.lp (s'.status = .optimal) (e.glop w.solves s).2.2.2 := by
  obtain ⟨s', h1, h2⟩ := glop_solve hret hin he hw hs
  refine ⟨s', ?_, h2⟩
  simp only [World.solve, hw] at h1 ⊢
  simp only [Engine.rounded]
  split at h1
  · rename_i hok
    refine (if_pos hok).trans ?_
    simp only [Outcome.ok.injEq, World.mk.injEq, Lp.glop.injEq] at h1 ⊢
    exact ⟨h1.1, trivial, trivial, trivial⟩
  · cases h1

/-- Setting the bounds of the only column. -/
theorem float_bounds {e : Engine} {c : Setup.Created} {r : Runner World} {s : Glop.Session}
    (hr : r.world.lp = .glop s) (hc : s.iface.lp.cols.length = 1) (l u : Dbl) :
    ∃ s', Solver.applyBounds (floatOracle e c) [l] [u] r [0] =
        .ok { r with world := { r.world with lp := .glop s' } } ∧
      s'.iface.lp = s.iface.lp.withBounds 0 l u ∧ s'.settings = s.settings := by
  obtain ⟨s', h1, h2⟩ := glop_bounds (e := e) (c := c) hr hc l u
  refine ⟨s', ?_, h2⟩
  rw [← h1]
  rfl

/-! ### The problem -/

/-- `max x`, `3 x ≤ 4`, `0 ≤ x ≤ 9`, `x` integer. -/
def thirds : Problem :=
  { vars := [{ name := "x", objective := 1, lower := .fin 0, upper := .fin 9, isInteger := true }]
    constraints := [{ name := "c", varIndices := [0], coefficients := [3], rhs := .fin 4 }]
    isMaximization := true }

/-- Its LP. -/
def thirdsLp : LinearProgram :=
  { cols := [⟨.fin 0, .fin 9, -1, "x", [⟨0, 3⟩]⟩], rows := [⟨.ninf, .fin 4, "c"⟩] }

/-- Its LP with the cut `x / 4 ≤ 0`. -/
def quarterLp (name : String) : LinearProgram :=
  { cols := [⟨.fin 0, .fin 9, -1, "x", [⟨0, 3⟩, ⟨1, 1 / 4⟩]⟩]
    rows := [⟨.ninf, .fin 4, "c"⟩, ⟨.ninf, .fin 0, name⟩] }

theorem thirds_created {d : MipData} (hd : MipData.ofProblem hash thirds = .ok d) :
    d.lower = [.fin 0] ∧ d.upper = [.fin 9] ∧ d.integerVariables = [0] ∧ d.isIntegralConstraint = [true] ∧
    d.objective = ⟨[⟨0, -1⟩], false⟩ ∧
    ∀ b g, Glop.populateFromMipData { useScaling := b } d = .ok g → g.lp = thirdsLp := by
  obtain ⟨d₀, hd₀, rfl⟩ := MipData.ofProblem_order hd
  have h : (match MipData.ofProblem .id thirds with
    | .ok d => decide (d.lower = [.fin 0]) && decide (d.upper = [.fin 9]) && decide (d.integerVariables = [0]) &&
        decide (d.isIntegralConstraint = [true]) && decide (d.objective = ⟨[⟨0, -1⟩], false⟩) &&
        [true, false].all fun b => (match Glop.populateFromMipData { useScaling := b } d with
          | .ok g => decide (g.lp = thirdsLp)
          | _ => true)
    | _ => false) = true := by decide +kernel
  rw [hd₀] at h
  simp only [Bool.and_eq_true, decide_eq_true_eq, List.all_eq_true] at h
  obtain ⟨⟨⟨⟨⟨h1, h2⟩, h3⟩, h4⟩, h6⟩, h5⟩ := h
  refine ⟨h1, h2, by rw [h3]; exact hash.apply_singleton 0, h4, h6, fun b g hg => ?_⟩
  have := h5 b (by cases b <;> simp)
  rw [Glop.populateFromMipData_order] at hg
  rw [hg] at this
  simpa using this

/-- The feasible points and the objective of the LPs. -/
theorem thirds_feasible (y : Int → ℚ) : (thirdsLp.Feasible y ↔ 0 ≤ y 0 ∧ y 0 ≤ 4 / 3) ∧ thirdsLp.value y = -y 0 := by
  have hact : thirdsLp.activity 0 y = 3 * y 0 := by
    simp [LinearProgram.activity, LinearProgram.coefficient, thirdsLp, SparseVector.sumAt]
  refine ⟨⟨fun ⟨h1, h2⟩ => ?_, fun ⟨h1, h2⟩ => ⟨?_, ?_⟩⟩, by simp [LinearProgram.value, thirdsLp]⟩
  · have h1 := h1 0 _ rfl
    have h2 := h2 0 _ rfl
    rw [hact] at h2
    simp only [Between, Dbl.le_fin] at h1 h2
    exact ⟨h1.1, by linarith [h2.2]⟩
  · intro n col hn
    match n with
    | 0 =>
      cases hn
      simp only [Between, Dbl.le_fin]
      exact ⟨h1, by push_cast; linarith⟩
    | n + 1 => simp [thirdsLp] at hn
  · intro n row hn
    match n with
    | 0 =>
      cases hn
      rw [hact]
      simp only [Between, Dbl.le_fin]
      exact ⟨rfl, by linarith⟩
    | n + 1 => simp [thirdsLp] at hn

theorem quarter_feasible (name : String) (y : Int → ℚ) :
    ((quarterLp name).Feasible y ↔ 0 ≤ y 0 ∧ y 0 ≤ 0) ∧ (quarterLp name).value y = -y 0 := by
  have hact : (quarterLp name).activity 0 y = 3 * y 0 := by
    simp [LinearProgram.activity, LinearProgram.coefficient, quarterLp, SparseVector.sumAt]
  have hact1 : (quarterLp name).activity 1 y = 1 / 4 * y 0 := by
    simp [LinearProgram.activity, LinearProgram.coefficient, quarterLp, SparseVector.sumAt]
  refine ⟨⟨fun ⟨h1, h2⟩ => ?_, fun ⟨h1, h2⟩ => ⟨?_, ?_⟩⟩, by simp [LinearProgram.value, quarterLp]⟩
  · have h1 := h1 0 _ rfl
    have h2 := h2 1 _ rfl
    rw [hact1] at h2
    simp only [Between, Dbl.le_fin] at h1 h2
    exact ⟨h1.1, by linarith [h2.2]⟩
  · intro n col hn
    match n with
    | 0 =>
      cases hn
      simp only [Between, Dbl.le_fin]
      exact ⟨h1, by push_cast; linarith⟩
    | n + 1 => simp [quarterLp] at hn
  · intro n row hn
    match n with
    | 0 =>
      cases hn
      rw [hact]
      simp only [Between, Dbl.le_fin]
      exact ⟨rfl, by linarith⟩
    | 1 =>
      cases hn
      rw [hact1]
      simp only [Between, Dbl.le_fin]
      exact ⟨rfl, by linarith⟩
    | n + 2 => simp [quarterLp] at hn

/-- The basis and the inverse of the matrix. -/
theorem thirds_basis {r : Report} (h : r.GlopBasic thirdsLp) (hx : r.point 0 = 4 / 3) :
    r.basis.map (glopElement thirdsLp) = [.col 0] ∧
    (r.glopInverse 0).values = [1 / 3] ∧ ((r.glopInverse 0).nonZeros = [] ∨ (r.glopInverse 0).nonZeros = [0]) := by
  have hlen := h.basic.length
  have hin : Glop.ColOrRow.col (0 : Nat) ∈ r.basis.map (glopElement thirdsLp) := by
    by_contra hn
    have := h.basic.cols 0 _ rfl hn
    simp only [Basic.AtBound, Nat.cast_zero, hx] at this
    norm_num at this
  have hb : r.basis.map (glopElement thirdsLp) = [.col 0] := by
    obtain ⟨b, hb⟩ := List.length_eq_one_iff.1 (hlen.trans rfl)
    rw [hb] at hin ⊢
    simpa [eq_comm] using hin
  have hok := h.shape 0 (by decide)
  obtain ⟨v, hv⟩ := List.length_eq_one_iff.1 (hok.length.trans (rfl : thirdsLp.rows.length = 1))
  have hinv := h.basic.inverse 0 (by decide) 0 (.col 0) (by rw [hb]; rfl)
  rw [show thirdsLp.rows.length = 1 from rfl, Finset.sum_range_one, hv] at hinv
  have hent : thirdsLp.basisEntry 0 (.col 0) = 3 := by
    simp [LinearProgram.basisEntry, LinearProgram.coefficient, thirdsLp, SparseVector.sumAt]
  rw [hent] at hinv
  simp at hinv
  have hinv : v = 1 / 3 := by linarith
  subst hinv
  refine ⟨hb, hv, ?_⟩
  rcases hok.nonZeros with h1 | ⟨h1, h2, h3⟩
  · exact Or.inl h1
  · right
    have h0 : (0 : Int) ∈ (r.glopInverse 0).nonZeros := by
      by_contra hn
      have := h3 0 hn
      rw [hv] at this
      simp at this
    have hall : ∀ i ∈ (r.glopInverse 0).nonZeros, i = 0 := by
      intro i hi
      obtain ⟨ha, hb⟩ := h2 i hi
      rw [show thirdsLp.rows.length = 1 from rfl] at hb
      omega
    match hl : (r.glopInverse 0).nonZeros with
    | [] => rw [hl] at h0; simp at h0
    | [i] => rw [hl] at hall; simpa using hall
    | i :: j :: l =>
      rw [hl] at hall h1
      simp at hall h1
      omega

/-! ### The cuts -/

/-- The double nearest to 1/3. -/
def fl3 : ℚ := 6004799503160661 / 2 ^ 54

/-- The double nearest to 4/3. -/
def opt3 : ℚ := 6004799503160661 / 2 ^ 52

open Ieee in
/-- The generator produces both. -/
theorem thirds_cuts {s : Ieee.SolverView} (h1 : s.isSolved = true) (h2 : s.isOptimal = true)
    {y : ℚ} (h3 : s.activities = .ok [.fin y]) (h4 : s.primal = .ok [.fin opt3]) (h5 : s.basis = [some 0])
    (h6 : s.bInverted 0 = .ok ⟨[⟨0, .fin fl3⟩], false⟩) :
    Ieee.generateCuttingPlanes third s [.mir, .strongCG] 100 =
      .ok [⟨⟨[⟨0, .fin (4503599627370495 / 2 ^ 52)⟩], false⟩, .fin (9007199254740989 / 2 ^ 53), "MIR0"⟩,
        ⟨⟨[⟨0, .fin (1 / 4)⟩], false⟩, .fin 0, "SCG1"⟩] := by
  have hr3 : Ieee.round (1 / 3) = .fin fl3 := by decide +kernel
  have hr4 : Ieee.round (4 / 3) = .fin opt3 := by decide +kernel
  have hagg := third_agg
  rw [hr3] at hagg
  have hch : Ieee.chooseSides third.lp 0 [.fin y] = .ok [true] := by
    simp [Ieee.chooseSides, listAt, third, Ieee.chooseSide, Ieee.LpView.isInfinity, Dbl.le, Dbl.neg]
  have hrow : Ieee.tableauRow third s [.mir, .strongCG] [true] (ofDense [.fin opt3]) 0 =
      Ieee.roundAll third (ofDense [.fin opt3]) thirdAgg 0 [.mir, .strongCG] := by
    have h8 : listAt s.basis ((0 : Nat) : Int) = .ok (some 0) := by rw [h5]; rfl
    have h9 : third.isInteger 0 = true := by decide +kernel
    have h10 : Ieee.isIntegerWithinTolerance third.tol ((ofDense [.fin opt3]).value .ieee 0) = false := by decide +kernel
    simp only [Ieee.tableauRow, h8, h9, h10, Outcome.bind_ok, Bool.not_true, Bool.false_eq_true, if_false, h6, hagg,
      third_nonneg]
  have hd1 := third_dot (4503599627370495 / 2 ^ 52) (9007199254740989 / 2 ^ 53) (by decide +kernel)
  have hd2 := third_dot (1 / 4) 0 (by decide +kernel)
  rw [hr4] at hd1 hd2
  simp only [Ieee.generateCuttingPlanes, h1, h2, h3, h4, Outcome.bind_ok, Bool.not_true, Bool.false_eq_true, if_false, hch,
    if_neg (show ¬ (100 : Int) < 0 by omega), show third.lp.rows.length = 1 from rfl, Ieee.tableauLoop, List.length_nil,
    Int.natCast_zero, if_pos (show (0 : Int) < 100 by omega), hrow, Ieee.roundAll, third_mir, third_scg, hd1, hd2, if_true,
    Outcome.pure_eq, List.nil_append]
  decide +kernel

/-- A cut `a x ≤ b` as the generator creates it. -/
noncomputable def thirdsCut (a b : ℚ) (name : String) : CutData :=
  createCut ⟨[⟨0, -1⟩], false⟩ (fun j => decide (j ∈ [(0 : Int)])) (SparseVector.ofDense [opt3]) ⟨[⟨0, a⟩], false⟩ b name false

theorem opt3_dense : SparseVector.ofDense [opt3] = ⟨[⟨0, opt3⟩], false⟩ := by decide +kernel

/-- Their scores. -/
theorem thirds_score {a b : ℚ} (ha : 0 < a) (name : String) :
    HybridSelector.computeCutScore ({} : Setup.HybridMsg).read (thirdsCut a b name) =
      .ok (.fin (((opt3 - b / a : ℚ) : ℝ) + 1 / 10 + 1 / 10)) := by
  have hdot : ∀ p q : ℚ, SparseVector.dotProduct ⟨[⟨0, p⟩], false⟩ ⟨[⟨0, q⟩], false⟩ = p * q := by
    intro p q
    simp [SparseVector.dotProduct, SparseVector.dotWalk]
  have ha' : (0 : ℝ) < (a : ℝ) := by exact_mod_cast ha
  have hs : Real.sqrt ((a * a : ℚ) : ℝ) = a := by
    rw [Rat.cast_mul]
    exact Real.sqrt_mul_self ha'.le
  have heff : (thirdsCut a b name).efficacy = .fin ((opt3 - b / a : ℚ) : ℝ) := by
    simp only [thirdsCut, createCut, computeEfficacy, opt3_dense, hdot, hs]
    rw [RDbl.div_pos ha']
    congr 1
    push_cast
    field_simp
  have hpar : (thirdsCut a b name).objectiveParallelism = .fin 1 := by
    simp only [thirdsCut, createCut, hdot]
    rw [show (a * a * (-1 * -1) : ℚ) = a * a by ring, hs]
    rw [RDbl.div_pos ha']
    push_cast
    rw [mul_neg_one, abs_neg, abs_of_pos ha', div_self ha'.ne']
  have hn : (thirdsCut a b name).numNonZeros = 1 ∧ (thirdsCut a b name).numIntegers = 1 := ⟨rfl, rfl⟩
  simp [HybridSelector.computeCutScore, Setup.HybridMsg.read, heff, hpar, hn, RDbl.scale, RDbl.add]

/-- A scored cut. -/
noncomputable def thirdsScored (a b : ℚ) (name : String) : CutData :=
  (thirdsCut a b name).setScore (.fin (((opt3 - b / a : ℚ) : ℝ) + 1 / 10 + 1 / 10))

theorem thirds_weak {l : List CutData} (h : ∀ c ∈ l, ∃ a b n, c = thirdsScored a b n) :
    HybridSelector.StrictWeak l := by
  left
  intro c hc
  obtain ⟨a, b, n, rfl⟩ := h c hc
  simp [HybridSelector.scoreOf, thirdsScored, CutData.setScore]

/-- The coefficient and the right-hand side of the MIR cut. -/
def mirA : ℚ := 4503599627370495 / 2 ^ 52

/-- The coefficient and the right-hand side of the MIR cut. -/
def mirB : ℚ := 9007199254740989 / 2 ^ 53

/-- The selector takes the strong CG cut, whose score is larger, and drops the other, which is parallel. -/
theorem thirds_select (sorter : HybridSelector.Sorter) (n1 n2 : String) :
    HybridSelector.selectCuttingPlanes sorter ({} : Setup.HybridMsg).read
      [thirdsCut mirA mirB n1, thirdsCut (1 / 4) 0 n2] = .ok [thirdsScored (1 / 4) 0 n2] := by
  have h1 := thirds_score (a := mirA) (b := mirB) (by norm_num [mirA]) n1
  have h2 := thirds_score (a := 1 / 4) (b := 0) (by norm_num) n2
  have hweak : HybridSelector.StrictWeak [thirdsScored mirA mirB n1, thirdsScored (1 / 4) 0 n2] := by
    apply thirds_weak
    intro c hc
    rcases List.mem_pair.1 hc with rfl | rfl
    · exact ⟨_, _, _, rfl⟩
    · exact ⟨_, _, _, rfl⟩
  have hsort : sorter.sort [thirdsScored mirA mirB n1, thirdsScored (1 / 4) 0 n2] =
      [thirdsScored (1 / 4) 0 n2, thirdsScored mirA mirB n1] := by
    have hp := sorter.perm [thirdsScored mirA mirB n1, thirdsScored (1 / 4) 0 n2]
    have hs := sorter.sorted [thirdsScored mirA mirB n1, thirdsScored (1 / 4) 0 n2] hweak
    rcases pair_perm hp with h | h
    · rw [h] at hs
      simp only [List.pairwise_cons, List.mem_singleton, forall_eq, HybridSelector.scoreOf, thirdsScored,
        CutData.setScore, Option.getD_some, RDbl.lt] at hs
      exact absurd (by push_cast; norm_num [mirA, mirB, opt3]) hs.1
    · exact h
  have hkeep : HybridSelector.keep ({} : Setup.HybridMsg).read (thirdsScored (1 / 4) 0 n2)
      [thirdsScored mirA mirB n1] = [] := by
    have hdot : ∀ p q : ℚ, SparseVector.dotProduct ⟨[⟨0, p⟩], false⟩ ⟨[⟨0, q⟩], false⟩ = p * q := by
      intro p q
      simp [SparseVector.dotProduct, SparseVector.dotWalk]
    have s1 : Real.sqrt ((mirA * mirA : ℚ) : ℝ) = mirA := by
      rw [Rat.cast_mul]; exact Real.sqrt_mul_self (by norm_num [mirA])
    have s2 : Real.sqrt ((1 / 4 * (1 / 4) : ℚ) : ℝ) = 1 / 4 := by
      rw [Rat.cast_mul]; push_cast; exact Real.sqrt_mul_self (by norm_num)
    have hcos : HybridSelector.cosAngle (thirdsScored (1 / 4) 0 n2) (thirdsScored mirA mirB n1) = some 1 := by
      simp only [HybridSelector.cosAngle, HybridSelector.squaredNorm, thirdsScored, CutData.setScore, thirdsCut, createCut,
        List.map_cons, List.map_nil, List.sum_cons, List.sum_nil, add_zero, s1, s2, hdot]
      rw [if_neg (by norm_num [mirA])]
      norm_num [mirA]
    have hf : (thirdsScored mirA mirB n1).forced = false := rfl
    simp only [HybridSelector.keep, List.filter_cons, List.filter_nil, HybridSelector.twoCutsAreOrthogonal, hf, hcos,
      Setup.HybridMsg.read]
    norm_num
  have hthr : ¬ (HybridSelector.scoreOf (thirdsScored (1 / 4) 0 n2)).lt
      (.fin (({} : Setup.HybridMsg).read).scoreThreshold) := by
    simp only [HybridSelector.scoreOf, thirdsScored, CutData.setScore, Option.getD_some, Setup.HybridMsg.read, RDbl.lt]
    norm_num [opt3]
  have hnil : sorter.sort [] = [] := List.perm_nil.1 (sorter.perm [])
  have hmax : (({} : Setup.HybridMsg).read).maxNumCuts = -1 := rfl
  simp only [HybridSelector.selectCuttingPlanes, HybridSelector.scoreAll, h1, h2, Outcome.bind_ok, Outcome.pure_eq]
  show HybridSelector.selectLoop sorter _ [thirdsScored mirA mirB n1, thirdsScored (1 / 4) 0 n2] [] = _
  rw [HybridSelector.selectLoop, if_pos hweak]
  split
  · rename_i h; rw [hsort] at h; cases h
  · rename_i c rest h
    rw [hsort] at h
    simp only [List.cons.injEq] at h
    obtain ⟨rfl, rfl⟩ := h
    rw [if_neg hthr, hmax, if_neg (by simp), hkeep]
    rw [HybridSelector.selectLoop, if_pos (thirds_weak (by simp))]
    split
    · rfl
    · rename_i h; rw [hnil] at h; cases h

/-! ### The run -/

/-- What `Create` makes of the problem. -/
structure ThirdsCreated (c : Setup.Created) : Prop where
  lower : c.data.lower = [.fin 0]
  upper : c.data.upper = [.fin 9]
  integers : c.data.integerVariables = [0]
  integral : c.data.isIntegralConstraint = [true]
  objective : c.data.objective = ⟨[⟨0, -1⟩], false⟩
  tol : c.integralityTolerance = 1 / 10 ^ 6
  generators : c.runner.generators = [⟨100, true, true⟩]
  selector : c.runner.selector = ({} : Setup.HybridMsg).read
  params : c.runner.params = {}

/-- The float view of a report with one row and column. -/
theorem thirds_rows {e : Engine} {c : Setup.Created} (hc : ThirdsCreated c) {w : World}
    (h : Solved thirdsLp opt3 w) {r : Report} (hr : w.report = r.rounded) (hb : r.GlopBasic thirdsLp)
    (hx : r.point 0 = 4 / 3) :
    Ieee.generateCuttingPlanes (floatContext e c w) w.floatView [.mir, .strongCG] 100 =
      .ok [⟨⟨[⟨0, .fin mirA⟩], false⟩, .fin mirB, "MIR0"⟩, ⟨⟨[⟨0, .fin (1 / 4)⟩], false⟩, .fin 0, "SCG1"⟩] := by
  obtain ⟨hb1, hb2, hb3⟩ := thirds_basis hb hx
  have hctx : floatContext e c w = Ieee.third := by
    have hrow : Lp.sparseRow e w.lp = fun r : Nat => Glop.copyToSparse (Glop.transposedRow r 0 thirdsLp.cols) := by
      funext r
      simp only [Lp.sparseRow, h.glop, h.program]
    simp only [floatContext, Lp.floatView, hc.integers, hc.integral, hc.tol, Lp.view, hrow]
    simp only [Lp.program, h.glop, h.program]
    rfl
  have hprim : w.primal = .ok [opt3] := h.primal rfl
  have hcuts := thirds_cuts (s := World.floatView w) (y := w.report.activities.getD (fun _ => 0) 0)
    (by simp [World.floatView, h.glop, Lp.isSolved, h.solved])
    (by simp [World.floatView, h.glop, Lp.isOptimal, Glop.Session.isOptimal, h.optimal])
    (by simp [World.floatView, toDbls, World.activities, Glop.getRowActivities, h.glop, h.program, thirdsLp])
    (by simp [World.floatView, toDbls, hprim])
    (by
      simp only [World.floatView, World.basis, Glop.getColumnsAndRowsInBasis, h.glop, h.program, hr]
      have hlen : r.basis.length = 1 := by simpa using congrArg List.length hb1
      rw [show r.rounded.basis = r.basis from rfl, List.take_of_length_le (by rw [hlen]; decide)]
      rw [show (r.basis.map fun (col : Int) => if col < thirdsLp.cols.length then Glop.ColOrRow.col col
        else .row (col - thirdsLp.cols.length)) = [.col 0] from hb1]
      rfl)
    (by
      have hv : (r.rounded.glopInverse 0).values = [fl3] := by
        simp only [Report.rounded, hb2]
        decide +kernel
      have hz : (r.rounded.glopInverse 0).nonZeros = (r.glopInverse 0).nonZeros := rfl
      have hcol : collect (Glop.atLeast (1 / 10 ^ 8)) (fun i => Soplex.denseAt [fl3] i) thirdsLp.rows.length 0 {} =
          .ok ⟨[⟨0, fl3⟩], false⟩ := by
        decide +kernel
      have hadd : Soplex.addIndexed [fl3] {} [0] = .ok ⟨[⟨0, fl3⟩], false⟩ := by decide +kernel
      simp only [World.floatView, World.inverseRow, h.glop, h.tolerance, Glop.getSparseRowOfBInverted, h.program, hr, hv,
        hz]
      rcases hb3 with h | h
      · rw [h, if_neg (by simp), hcol]
        rfl
      · rw [h, if_pos (by simp), hadd]
        rfl)
  rw [← hctx] at hcuts
  exact hcuts

/-- The cuts of the first round. -/
theorem thirds_generate {e : Engine} {c : Setup.Created} (hc : ThirdsCreated c) {w : World}
    (h : Solved thirdsLp opt3 w) {r : Report} (hr : w.report = r.rounded) (hb : r.GlopBasic thirdsLp)
    (hx : r.point 0 = 4 / 3) :
    floatGenerate e c ⟨100, true, true⟩ w = .ok (w, [thirdsCut mirA mirB "MIR0", thirdsCut (1 / 4) 0 "SCG1"]) := by
  have hcuts := thirds_rows (e := e) hc h hr hb hx
  have hprim : w.primal = .ok [opt3] := h.primal rfl
  have hfc : ∀ a b name, floatCut c (SparseVector.ofDense [opt3]) ⟨⟨[⟨0, .fin a⟩], false⟩, .fin b, name⟩ =
      .ok (thirdsCut a b name) := by
    intro a b name
    simp only [floatCut, ofVec, hc.objective, hc.integers, thirdsCut]
    rfl
  simp only [floatGenerate, show rounders ⟨100, true, true⟩ = [.mir, .strongCG] from rfl, hcuts, hprim, Outcome.bind_ok,
    floatCuts, hfc, Outcome.pure_eq]

/-- In the second round there is nothing to cut off: the LP optimum is integral. -/
theorem quarter_rows {e : Engine} {c : Setup.Created} (hc : ThirdsCreated c) {w : World} {name : String}
    (h : Solved (quarterLp name) 0 w) (hb : w.report.basis.length = 2) :
    Ieee.generateCuttingPlanes (floatContext e c w) w.floatView [.mir, .strongCG] 100 = .ok [] := by
  have hprim : w.primal = .ok [0] := h.primal rfl
  obtain ⟨y1, y2, hact⟩ : ∃ y1 y2 : ℚ, w.activities = .ok [y1, y2] := by
    simp [World.activities, Glop.getRowActivities, h.glop, h.program, quarterLp, List.range_succ]
  have hbasis : w.basis.length = 2 := by
    simp [World.basis, Glop.getColumnsAndRowsInBasis, h.glop, h.program, quarterLp, hb]
  obtain ⟨b1, b2, hbs⟩ := List.length_eq_two.1 hbasis
  have htol : (floatContext e c w).tol = Ieee.round (1 / 10 ^ 6) := by simp only [floatContext, hc.tol]
  have hint : (floatContext e c w).isInteger = fun j => decide (j ∈ [(0 : Int)]) := by
    simp only [floatContext, hc.integers]
  have hlp : (floatContext e c w).lp.lhs = [.ninf, .ninf] ∧ (floatContext e c w).lp.rhs = [.fin 4, .fin 0] ∧
      (floatContext e c w).lp.rows.length = 2 ∧ (floatContext e c w).lp.infinity = .pinf := by
    simp [floatContext, Lp.floatView, Lp.view, Lp.program, h.glop, h.program, quarterLp, Lp.infinity]
  obtain ⟨hl1, hl2, hl3, hl4⟩ := hlp
  have hch : Ieee.chooseSides (floatContext e c w).lp 0 [.fin y1, .fin y2] = .ok [true, true] := by
    simp [Ieee.chooseSides, listAt, hl1, hl2, Ieee.chooseSide, Ieee.LpView.isInfinity, hl4, Dbl.le, Dbl.neg]
  have hrow : ∀ k : Nat, k < 2 → Ieee.tableauRow (floatContext e c w) w.floatView [.mir, .strongCG] [true, true]
      (Ieee.ofDense [.fin 0]) k = .ok [] := by
    intro k hk
    have hat : ∃ b, listAt w.floatView.basis (k : Int) = .ok b := by
      simp only [World.floatView, hbs, listAt]
      match k with
      | 0 => exact ⟨b1, rfl⟩
      | 1 => exact ⟨b2, rfl⟩
      | k + 2 => omega
    obtain ⟨b, hb⟩ := hat
    simp only [Ieee.tableauRow, hb, Outcome.bind_ok]
    match b with
    | none => rfl
    | some col =>
      simp only [hint, htol]
      by_cases hcol : col = 0
      · subst hcol
        have : Ieee.isIntegerWithinTolerance (Ieee.round (1 / 10 ^ 6))
            ((Ieee.ofDense [.fin 0]).value .ieee 0) = true := by decide +kernel
        rw [this]
        simp
      · simp [hcol]
  have h1 : w.floatView.isSolved = true := by simp [World.floatView, h.glop, Lp.isSolved, h.solved]
  have h2 : w.floatView.isOptimal = true := by
    simp [World.floatView, h.glop, Lp.isOptimal, Glop.Session.isOptimal, h.optimal]
  have h3 : w.floatView.activities = .ok [.fin y1, .fin y2] := by simp [World.floatView, toDbls, hact]
  have h4 : w.floatView.primal = .ok [.fin 0] := by simp [World.floatView, toDbls, hprim]
  simp only [Ieee.generateCuttingPlanes, h1, h2, h3, h4, Outcome.bind_ok, Bool.not_true, Bool.false_eq_true, if_false,
    hch, if_neg (show ¬ (100 : Int) < 0 by omega), hl3, Ieee.tableauLoop, List.length_nil, Int.natCast_zero,
    if_pos (show (0 : Int) < 100 by omega), hrow 0 (by omega), hrow 1 (by omega), List.append_nil]

theorem quarter_generate {e : Engine} {c : Setup.Created} (hc : ThirdsCreated c) {w : World} {name : String}
    (h : Solved (quarterLp name) 0 w) (hb : w.report.basis.length = 2) :
    floatGenerate e c ⟨100, true, true⟩ w = .ok (w, []) := by
  have hprim : w.primal = .ok [0] := h.primal rfl
  have hgen := quarter_rows (e := e) hc h hb
  simp only [floatGenerate, show rounders ⟨100, true, true⟩ = [.mir, .strongCG] from rfl, hgen, hprim, Outcome.bind_ok,
    floatCuts, Outcome.pure_eq]

theorem default_mayRun {e : Engine} {c : Setup.Created} (hc : ThirdsCreated c) {r : Runner World}
    (h1 : r.world.lp.stop = false) (h2 : r.world.lp.isSolved = true) (h3 : r.numCutrounds < 100)
    (h4 : r.numCutsAdded < 100) (h5 : r.registry.activeIndices.length < 100) :
    Runner.mayRun c.runner.params (floatPlugins e c) r = true := by
  have hs : Runner.toSizeT 100 = 100 := by decide +kernel
  simp only [Runner.mayRun, floatPlugins, plugins, h1, h2, hc.params, hs]
  rw [if_neg (by simp), if_neg (by simp), if_neg (by omega), if_neg (by omega), if_neg (by omega)]

/-- The cut rounds: the strong CG cut is added, then there are no more cuts. -/
theorem thirds_separate {e : Engine} (hret : e.GlopReturns) (hin : e.GlopInTime) (he : e.Right) (hbas : e.GlopBasic)
    {c : Setup.Created} (hc : ThirdsCreated c) {w : World} (h : Solved thirdsLp opt3 w) {rep : Report}
    (hr : w.report = rep.rounded) (hb : rep.GlopBasic thirdsLp) (hx : rep.point 0 = 4 / 3) :
    ∃ r name, floatSeparate e.rounded c { world := w } = .ok r ∧ Nonempty (Solved (quarterLp name) 0 r.world) := by
  obtain ⟨n2, hn2⟩ : ∃ n, n = "SCG1" := ⟨_, rfl⟩
  have hgen1 := thirds_generate (e := e.rounded) hc h hr hb hx
  rw [← hn2] at hgen1
  have hadd : ∃ s', Lp.addRow w.lp ⟨(thirdsScored (1 / 4) 0 n2).row, .ninf, .fin (thirdsScored (1 / 4) 0 n2).rhs,
      (thirdsScored (1 / 4) 0 n2).name⟩ = .ok (.glop s') ∧ s'.iface.lp = quarterLp n2 ∧
      s'.settings = h.session.settings := by
    have h1 := h.program
    have h2 : ∃ g, Glop.addRow h.session.iface (thirdsScored (1 / 4) 0 n2).row .ninf
        (.fin (thirdsScored (1 / 4) 0 n2).rhs) (thirdsScored (1 / 4) 0 n2).name = .ok g ∧ g.lp = quarterLp n2 := by
      simp only [Glop.addRow, h1]
      exact ⟨_, rfl, rfl⟩
    obtain ⟨g, hg, hlp⟩ := h2
    refine ⟨{ h.session with iface := g }, ?_, hlp, rfl⟩
    simp only [Lp.addRow, h.glop, hg, Outcome.bind_ok, Outcome.pure_eq]
  obtain ⟨s', hadd, hs1, hs2⟩ := hadd
  obtain ⟨s3, hsol, hp3, hset3, hsolved3, hst3, hgo3, hans⟩ := rounded_solve hret hin he
    (w := { w with lp := .glop s' }) (s := s') rfl (by rw [hs2]; exact h.limit)
  rw [hp3, hs1] at hans
  obtain ⟨ho, hpt, hv⟩ := (line_optimum (fun y => (quarter_feasible n2 y).1) (fun y => (quarter_feasible n2 y).2) rfl
    hans).1 (by norm_num)
  have hbas2 := hbas w.solves s' (hst3.symm.trans ho)
  have hlen2 : (e.glop w.solves s').2.2.2.basis.length = 2 := by
    have := hbas2.basic.length
    rw [hs1] at this
    simpa [quarterLp] using this
  have hz : Ieee.rnd 0 = 0 := by decide +kernel
  have hgenerators : (floatPlugins e.rounded c).generators = [fun w _ => floatGenerate e.rounded c ⟨100, true, true⟩ w] := by
    simp only [floatPlugins, hc.generators, List.map_cons, List.map_nil]
  have hround : ∃ r, Runner.round (floatPlugins e.rounded c) { world := w } = .ok (r, true) ∧ r.numCutrounds = 1 ∧
      r.numCutsAdded = 0 ∧ r.registry.activeIndices.length ≤ 1 ∧
      r.world = { w with lp := .glop s3, report := (e.glop w.solves s').2.2.2.rounded, solves := w.solves + 1 } := by
    have hsel : (floatPlugins e.rounded c).select w {} [thirdsCut mirA mirB "MIR0", thirdsCut (1 / 4) 0 n2] =
        .ok (w, [thirdsScored (1 / 4) 0 n2]) := by
      simp only [floatPlugins, plugins, hc.selector, thirds_select, Outcome.bind_ok, Outcome.pure_eq]
    have hrow : (floatPlugins e.rounded c).addRow w ⟨(thirdsScored (1 / 4) 0 n2).row,
        (floatPlugins e.rounded c).infinity.neg, .fin (thirdsScored (1 / 4) 0 n2).rhs,
        (thirdsScored (1 / 4) 0 n2).name⟩ = .ok { w with lp := .glop s' } := by
      simp only [floatPlugins, plugins, readLhs_neg, hadd, Outcome.bind_ok, Outcome.pure_eq]
    simp only [Runner.round, hgenerators, Runner.generate, hgen1, Outcome.bind_ok, Outcome.pure_eq, List.isEmpty_cons,
      Bool.false_eq_true, if_false, hsel, Runner.addAll, CutRegistry.addCut, CutData.setIndex, CutData.getIndex,
      List.append_nil, Runner.addRows, CutRegistry.getCut, List.nil_append, List.length_nil, Nat.cast_zero, lt_irrefl,
      Int.toNat_zero, List.getElem?_cons_zero, hrow]
    rw [show (floatPlugins e.rounded c).solve = World.solve e.rounded from rfl, hsol]
    exact ⟨_, rfl, rfl, rfl, by simp, rfl⟩
  obtain ⟨r, hr1, hr2, hr3, hr4, hr5⟩ := hround
  have hS : Solved (quarterLp n2) 0 r.world := by
    rw [hr5]
    refine ⟨s3, rfl, hp3.trans hs1, by rw [hset3, hs2]; exact h.tolerance, by rw [hset3, hs2]; exact h.limit, hsolved3,
      ho, hgo3 ho, ?_, ?_⟩
    · show Report.point (Report.rounded _) 0 = 0
      rw [Report.rounded_point, hpt, hz]
    · show (Report.rounded _).objective = _
      simp only [Report.rounded, hv, neg_zero, hz]
  have hgen2 := quarter_generate (e := e.rounded) hc hS (by rw [hr5]; exact hlen2)
  have hround2 : Runner.round (floatPlugins e.rounded c) r = .ok (r, false) := by
    simp only [Runner.round, hgenerators, Runner.generate, hgen2, Outcome.bind_ok, Outcome.pure_eq, List.isEmpty_nil,
      if_true]
  have hmay1 : Runner.mayRun c.runner.params (floatPlugins e.rounded c) { world := w } = true :=
    default_mayRun hc (by show w.lp.stop = false; rw [h.glop]; exact h.go)
      (by show w.lp.isSolved = true; rw [h.glop]; exact h.solved) (by norm_num) (by norm_num) (by simp)
  have hmay2 : Runner.mayRun c.runner.params (floatPlugins e.rounded c) r = true :=
    default_mayRun hc (by rw [hS.glop]; exact hS.go) (by rw [hS.glop]; exact hS.solved) (by omega) (by omega) (by omega)
  refine ⟨r, n2, ?_, ⟨hS⟩⟩
  unfold floatSeparate
  rw [hc.params, show ((({} : RunnerParams).maxIterations - ({ world := w } : Runner World).numCutrounds).toNat + 1) = 101 from rfl]
  rw [hc.params] at hmay1 hmay2
  simp [Runner.separateFuel, hmay1, hmay2, hr1, hround2]

/-- The result before the status is set. -/
theorem thirds_run {e : Engine} (hret : e.GlopReturns) (hin : e.GlopInTime) (he : e.Right) (hbas : e.GlopBasic)
    {c : Setup.Created} (hc : ThirdsCreated c) {set : Glop.Settings} {g : Glop.Interface} (hl : c.lpi = .glop set g)
    (hg : g.lp = thirdsLp) (htol : set.primalTolerance = .fin (1 / 10 ^ 8)) (hlim : set.maxIterations = -1) :
    ∃ s, floatSolve e c 1 = some (.ok s) ∧ s.result.solveStatus = some .optimal ∧ s.result.best = ⟨[0], .fin (-0)⟩ := by
  obtain ⟨s1, hb1, hs1, hset1⟩ := float_bounds (e := e.rounded) (c := c) (r := { world := { lp := start c.lpi } })
    (s := { iface := g, settings := set }) (by rw [hl]; rfl) (by show g.lp.cols.length = 1; rw [hg]; rfl) (.fin 0) (.fin 9)
  rw [show (Glop.Interface.lp _) = thirdsLp from hg, show thirdsLp.withBounds 0 (.fin 0) (.fin 9) = thirdsLp from rfl] at hs1
  obtain ⟨s2, hsol, hp2, hset2, hsolved2, hst2, hgo2, hans⟩ := rounded_solve hret hin he
    (w := { lp := .glop s1 }) (s := s1) rfl (by rw [hset1]; exact hlim)
  rw [hp2, hs1] at hans
  obtain ⟨ho, hpt, hv⟩ := (line_optimum (fun y => (thirds_feasible y).1) (fun y => (thirds_feasible y).2) rfl hans).1
    (by norm_num)
  have hbasic := hbas 0 s1 (hst2.symm.trans ho)
  rw [hs1] at hbasic
  obtain ⟨r3, name, hsep, ⟨h3⟩⟩ := thirds_separate hret hin he hbas hc
    (w := { lp := .glop s2, report := (e.glop 0 s1).2.2.2.rounded, solves := 1 })
    ⟨s2, rfl, hp2.trans hs1, by rw [hset2, hset1]; exact htol, by rw [hset2, hset1]; exact hlim, hsolved2, ho, hgo2 ho,
      by show Report.point (Report.rounded _) 0 = _; rw [Report.rounded_point, hpt]; decide +kernel,
      by
        show (Report.rounded _).objective = _
        simp only [Report.rounded, hv]
        decide +kernel⟩ rfl hbasic hpt
  have hnode : Solver.solveNode (floatOracle e.rounded c) c.data [.fin 0] [.fin 9] { world := { lp := start c.lpi } } =
      .ok r3 := by
    have hs : (floatOracle e.rounded c).solve { world := { lp := .glop s1 } } =
        .ok { world := { lp := .glop s2, report := (e.glop 0 s1).2.2.2.rounded, solves := 1 } } := by
      simp only [floatOracle, oracle, hsol, Outcome.bind_ok, Outcome.pure_eq]
    have hopt : (floatOracle e.rounded c).isOptimal
        { world := { lp := .glop s2, report := (e.glop 0 s1).2.2.2.rounded, solves := 1 } } = true := by
      simp [floatOracle, oracle, Lp.isOptimal, Glop.Session.isOptimal, ho]
    unfold Solver.solveNode
    rw [hc.integers, hb1]
    simp only [Outcome.bind_ok, hs, Outcome.orAbort, hopt, if_true]
    rw [show (floatOracle e.rounded c).separate = floatSeparate e.rounded c from rfl, hsep]
  have hopt3 : (floatOracle e.rounded c).isOptimal r3 = true := by
    simp [floatOracle, oracle, h3.glop, Lp.isOptimal, Glop.Session.isOptimal, h3.optimal]
  have hprim3 : (floatOracle e.rounded c).primal r3 = .ok [0] := h3.primal rfl
  have hobj3 : (floatOracle e.rounded c).objective r3 = .fin (-0) := h3.value
  have hzero : c.data.solutionIsIntegral [0] (1 / 10 ^ 6) = .ok true := by
    unfold MipData.solutionIsIntegral
    rw [hc.integers]
    decide +kernel
  have htol' : (params c).tol = 1 / 10 ^ 6 := hc.tol
  obtain ⟨t1, ht1⟩ : ∃ t1, MipTree.init.setLpData 0 (.fin (-0)) = .ok t1 := by
    have h : (match MipTree.init.setLpData 0 (.fin (-0)) with
      | .ok _ => true
      | _ => false) = true := by decide +kernel
    split at h
    · rename_i t ht; exact ⟨t, ht⟩
    · cases h
  have hi1 : Solver.iterate (floatOracle e.rounded c) c.data (params c)
      (Solver.initial { world := { lp := start c.lpi } }) =
      .ok (.stop { queue := [], backjump := false, infeasible := 0, tree := t1, result := found, world := r3 }) := by
    have hl0 : MipTree.init.retrieveLower 0 [.fin 0] = .ok [.fin 0] := by decide +kernel
    have hu0 : MipTree.init.retrieveUpper 0 [.fin 9] = .ok [.fin 9] := by decide +kernel
    unfold Solver.iterate
    simp only [Solver.initial, Solver.pop, if_true, List.getLast?_singleton, List.dropLast_singleton, hc.lower,
      hc.upper, hl0, hu0, Outcome.bind_ok, hnode, hopt3]
    unfold Solver.optimalNode
    simp only [hobj3, ht1, Outcome.bind_ok, hprim3, Outcome.orAbort, htol', hzero, if_true]
    rfl
  refine ⟨⟨[], false, 0, t1, { found with solveStatus := some .optimal }, r3⟩, ?_, rfl, ?_⟩
  · simp only [floatSolve, Solver.solveFuel, hi1]
  · rfl

/-! ### The properties -/

theorem thirds_spec : thirds.WellFormed ∧ FiniteIntegers thirds ∧ Bounded thirds ∧ NonnegativeIntegers thirds ∧
    thirds.Feasible (fun _ => 1) := by
  refine ⟨?_, ?_, ⟨4 / 3, ?_⟩, ?_, ?_, ?_⟩
  · simp [Problem.WellFormed, thirds, Variable.WellFormed, Constraint.WellFormed, Ordered, Dbl.le]
  · intro v hv _
    simp [thirds] at hv
    subst hv
    exact ⟨_, _, rfl, rfl⟩
  · rintro y ⟨-, h2⟩
    have hx := h2 _ (List.mem_singleton.2 rfl)
    simp [Between, Dbl.le, Constraint.activity] at hx
    simp [thirds, Problem.userObjective, objectiveFrom]
    linarith
  · intro v hv _
    simp [thirds] at hv
    subst hv
    rfl
  · intro n v hv
    match n with
    | 0 => simp [thirds] at hv; subst hv; exact ⟨by norm_num [Between], fun _ => ⟨1, by simp⟩⟩
    | n + 1 => simp [thirds] at hv
  · intro k hk
    simp [thirds] at hk
    subst hk
    norm_num [Between, Constraint.activity, Dbl.le]

/-- **C92 fails** with the default parameters.  `max x`, `3 x ≤ 4`, `0 ≤ x ≤ 9`, `x` integer has integral data and
`x = 1` is optimal.  Whatever Glop that answers rightly up to rounding to doubles, returns, keeps a basis and stops at no
limit, and whatever `std::sort`: the fraction of `4 fl(1/3)` is a little less than `1/3`, so that strong CG rounding
takes `k = 3` instead of `2` and derives `x / 4 ≤ 0` from the LP optimum `4/3` of the root; the hybrid selector prefers
this to the MIR cut, and `Solve` reports `x = 0` as optimal. -/
theorem C92_default_parameters_violated :
    (thirds.WellFormed ∧ FiniteIntegers thirds ∧ Bounded thirds ∧ NonnegativeIntegers thirds ∧
      thirds.Feasible (fun _ => 1)) ∧
    (∃ x c, Setup.create x thirds {} = .ok c) ∧
    ∀ x c, Setup.create x thirds {} = .ok c →
      ∀ e : Engine, e.Right → e.GlopReturns → e.GlopBasic → e.GlopInTime →
        ∃ s, floatSolve e c 1 = some (.ok s) ∧ s.result.solveStatus = some .optimal ∧
          thirds.userObjective (point s.result.best.values) < thirds.userObjective (fun _ => 1) := by
  refine ⟨thirds_spec, ⟨Setup.exExternal, ?_⟩, ?_⟩
  · have htakes : Setup.GlopTakes ((({} : Setup.ParamsMsg).lp).getD {}).read := by
      refine ⟨⟨?_, ?_, ?_, ?_, ?_, ?_, ?_, ?_⟩, rfl, ?_, ?_, rfl, rfl⟩ <;>
        simp [Setup.LpMsg.read, ToleranceOk]
    exact (Setup.C73_glop_partial _ thirds thirds_spec.1 {} _ (Setup.lpWins _) rfl).1 htakes
  intro x c hc e he hret hbas hin
  obtain ⟨-, hd, -, hrun, hrule, htol, hback⟩ := Setup.create_ok hc
  obtain ⟨hlo, hup, hint, hintc, hobj, hlp⟩ := thirds_created hd
  obtain ⟨set, g, hl, hg, htol', hmax⟩ := default_glop hc rfl
  have hT : ThirdsCreated c := by
    refine ⟨hlo, hup, hint, hintc, hobj, htol, ?_, ?_, ?_⟩
    · rw [hrun]; rfl
    · rw [hrun]
    · rw [hrun]; rfl
  obtain ⟨s, h1, h2, h3⟩ := thirds_run hret hin he hbas hT hl (hlp _ _ hg) htol' hmax
  refine ⟨s, h1, h2, ?_⟩
  rw [h3]
  simp [thirds, Problem.userObjective, objectiveFrom, point]

/-- Such LP code exists. -/
example : perfect.Right ∧ perfect.GlopReturns ∧ perfect.GlopBasic ∧ perfect.GlopInTime :=
  ⟨perfect_spec.1, perfect_spec.2, perfect_basic.1, perfect_inTime⟩

theorem float_separate_plain {e : Engine} {c : Setup.Created} (hn : NoCuts c.runner.params)
    {lp₀ : LinearProgram} {r : Runner World} (h : Plain lp₀ r) : floatSeparate e c r = .ok r := by
  have hm : Runner.mayRun c.runner.params (floatPlugins e c) r = false := by
    unfold Runner.mayRun
    rcases hn with hn | hn | hn
    · rw [h.rounds]; simp [hn]
    · rw [h.added]; simp [hn]
    · simp [hn, Runner.toSizeT]
  unfold floatSeparate Runner.separateFuel
  rw [hm]
  rfl

theorem float_keeps_plain {e : Engine} {c : Setup.Created} (hn : NoCuts c.runner.params) {d : MipData}
    {lp₀ : LinearProgram} : Solver.Keeps (floatOracle e c) d (Plain lp₀) where
  setBounds := (keeps_plain (e := e) hn).setBounds
  solve := (keeps_plain (e := e) (d := d) hn).solve
  separate r r' hg _ h := by
    have : r = r' := Outcome.ok.inj ((float_separate_plain hn hg).symm.trans h)
    rw [← this]; exact hg
  branch := (keeps_plain (e := e) (d := d) hn).branch

/-- **C92 without cuts.**  If the parameters allow no cuts, the arithmetic of the generators does not matter: `Solve` with
generators in doubles does what `Solve` with exact generators does on the same LP code, step by step.  So what `C90`
says of a run without cuts on LP code that is right up to tolerances holds of the program in doubles. -/
theorem C92_no_cuts_partial (e : Engine) (c : Setup.Created) (hn : NoCuts c.runner.params) (fuel : Nat) :
    floatSolve e c fuel = solve e.rounded c fuel := by
  unfold floatSolve solve
  have hP := plain_start c
  rw [← Solver.guard_solveFuel (float_keeps_plain (e := e.rounded) (d := c.data) (lp₀ := (start c.lpi).program) hn)
      (params c) fuel hP,
    ← Solver.guard_solveFuel (keeps_plain (e := e.rounded) (d := c.data) (lp₀ := (start c.lpi).program) hn)
      (params c) fuel hP]
  congr 1
  unfold Solver.guard
  congr 1
  funext r
  split
  · rename_i h
    exact (float_separate_plain hn h).trans (separate_plain hn h).symm
  · rfl

/-- Switching off the cuts is possible. -/
example : ∃ x c, Setup.create x thirds { cutRunner := some { defaultRunner := some { maxIterations := some 0 } } } = .ok c ∧
    NoCuts c.runner.params := by
  have htakes : Setup.GlopTakes ((({ cutRunner := some { defaultRunner := some { maxIterations := some 0 } } } : Setup.ParamsMsg).lp).getD {}).read := by
    refine ⟨⟨?_, ?_, ?_, ?_, ?_, ?_, ?_, ?_⟩, rfl, ?_, ?_, rfl, rfl⟩ <;>
      simp [Setup.LpMsg.read, ToleranceOk]
  obtain ⟨c, hc⟩ := (Setup.C73_glop_partial Setup.exExternal thirds thirds_spec.1
    { cutRunner := some { defaultRunner := some { maxIterations := some 0 } } } _ (Setup.lpWins _) rfl).1 htakes
  exact ⟨_, c, hc, (rule_of thirds_spec.1 hc ⟨0, le_refl _, rfl⟩ (fun s h => by cases h)).1⟩

end Program
end MiniMip
