import Verif.Props.Generator
import Mathlib.Data.Rat.Floor
import Mathlib.Algebra.Order.Floor.Semiring

/-!
# The cut generator on concrete LPs

Cases that meet the hypotheses of the theorems in `Verif.Props.Generator`, and counterexamples
where the code does not do what is claimed.
-/

namespace MiniMip.Generator

open SparseVector (Clean StrictSorted)

/-- Evaluates the model on literals. -/
macro "gen_eval" "[" ls:Lean.Parser.Tactic.simpLemma,* "]" : tactic =>
  `(tactic| norm_num [generateCuttingPlanes, tableauLoop, tableauRow, roundAll, roundOne,
    aggregateByWeight, aggregateLoop, aggregateStep, chosenSide, listAt, SparseVector.addMultiple,
    SparseVector.sumDuplicates, SparseVector.writeAt, SparseVector.isSortedWeak, List.merge,
    SparseVector.addEntry, SparseVector.lastIndex, SparseVector.cleanUpIfNeeded, addSide, finPart,
    toNonNegative, toOriginal, shiftRow, shiftEntries, shiftOf, Shift.coef, Shift.toRhs,
    Shift.backRhs, Shift.isFree, LpView.isInfinity, Dbl.le, Dbl.neg, Dbl.eq, substituteSlacks,
    substituteLoop, SparseVector.scale, SparseVector.value, SparseVector.valueAt, chooseSides,
    chooseSide, transformM, mirRound, fractionality, isIntegerWithinTolerance, floorWithTolerance,
    roundAway, mirRoundInteger, mirRoundContinuous, cgRoundInteger, SparseVector.transform,
    hasIntegralSlack, slacksAllowCG, varsAllowCG, nanFree, strongCGRound, Rounder.round,
    removesLPOptimum, rowWeights, SparseVector.ofDense, SparseVector.ofDenseFrom,
    SparseVector.dotProduct, SparseVector.dotWalk, $ls,*])

theorem tableauRow_eq {c : GenContext} {s : SolverView} {rs : List Rounder} {u : List Bool}
    {o : SparseVector} {k : Nat} {col : Int} {b : SparseVector} {a a' : AggRow}
    (h1 : listAt s.basis k = .ok (some col)) (h2 : c.isInteger col = true)
    (h3 : isIntegerWithinTolerance c.tol (o.value col) = false) (h4 : s.bInverted k = .ok b)
    (h5 : aggregateByWeight c.lp (rowWeights b) u = .ok a)
    (h6 : toNonNegative c.lp a = .ok (a', true)) :
    tableauRow c s rs u o k = roundAll c o a' 0 rs := by
  simp only [tableauRow, h1, h2, h3, h4, h5, h6, Outcome.bind_ok, Bool.not_true, Bool.false_eq_true,
    if_false]

/-- The generator on an LP with a single row whose basic variable is fractional. -/
theorem generate_single {c : GenContext} {s : SolverView} {rs : List Rounder} {m : Int} {u : List Bool}
    {acts primal : List ℚ} {col : Int} {b : SparseVector} {a a' : AggRow} (hm : 0 < m)
    (h1 : s.isSolved = true) (h2 : s.isOptimal = true) (h3 : s.activities = .ok acts)
    (h4 : chooseSides c.lp 0 acts = .ok u) (h5 : s.primal = .ok primal) (h6 : c.lp.rows.length = 1)
    (h7 : listAt s.basis 0 = .ok (some col)) (h8 : c.isInteger col = true)
    (h9 : isIntegerWithinTolerance c.tol ((SparseVector.ofDense primal).value col) = false)
    (h10 : s.bInverted 0 = .ok b) (h11 : aggregateByWeight c.lp (rowWeights b) u = .ok a)
    (h12 : toNonNegative c.lp a = .ok (a', true)) :
    generateCuttingPlanes c s rs m = roundAll c (SparseVector.ofDense primal) a' 0 rs := by
  have h := tableauRow_eq (rs := rs) (k := 0) h7 h8 h9 h10 h11 h12
  simp only [generateCuttingPlanes, h1, h2, h3, h4, h5, h6, Outcome.bind_ok, Bool.not_true,
    Bool.false_eq_true, if_false, if_neg (show ¬ m < 0 by omega), tableauLoop, List.length_nil,
    Int.natCast_zero, if_pos hm, h]
  cases roundAll c (SparseVector.ofDense primal) a' 0 rs <;> simp

/-! ## An LP on which everything works: maximise `x` with `2 x + y ≤ 3` -/

/-- `2 x + y ≤ 3`, `0 ≤ x ≤ 5`, `0 ≤ y ≤ 5`, both integer. -/
def ex1 : GenContext where
  lp := {
    rows := [⟨[⟨0, 2⟩, ⟨1, 1⟩], false⟩]
    lhs := [.ninf]
    rhs := [.fin 3]
    lower := [.fin 0, .fin 0]
    upper := [.fin 5, .fin 5] }
  isInteger := fun _ => true
  integralRow := [true]
  objective := ⟨[⟨0, -1⟩], false⟩
  tol := 0

/-- The LP optimum `x = 3/2`, `y = 0` with `x` basic. -/
def ex1Solver : SolverView where
  isSolved := true
  isOptimal := true
  activities := .ok [3]
  basis := [some 0]
  primal := .ok [3 / 2, 0]
  bInverted := fun _ => .ok ⟨[⟨0, 1 / 2⟩], false⟩

theorem ex1_aggregate : aggregateByWeight ex1.lp ⟨[⟨0, 1 / 2⟩], false⟩ [true] = .ok
    { vars := ⟨[⟨0, 1⟩, ⟨1, 1 / 2⟩], false⟩
      slackCoefs := ⟨[⟨0, 1 / 2⟩], false⟩
      slackSigns := ⟨[⟨0, 1⟩], false⟩
      sideValues := ⟨[⟨0, 3⟩], false⟩
      rhs := some (3 / 2) } := by
  gen_eval [ex1]

def ex1Agg : AggRow where
  vars := ⟨[⟨0, 1⟩, ⟨1, 1 / 2⟩], false⟩
  slackCoefs := ⟨[⟨0, 1 / 2⟩], false⟩
  slackSigns := ⟨[⟨0, 1⟩], false⟩
  sideValues := ⟨[⟨0, 3⟩], false⟩
  rhs := some (3 / 2)

theorem ex1_nonneg : toNonNegative ex1.lp ex1Agg = .ok (ex1Agg, true) := by
  gen_eval [ex1, ex1Agg]

theorem ex1_mir : roundOne ex1 ex1Agg .mir = .ok (some (⟨[⟨0, 1⟩], false⟩, 1)) := by
  gen_eval [ex1, ex1Agg]

theorem ex1_scg : roundOne ex1 ex1Agg .strongCG = .ok (some (⟨[⟨0, 1⟩], false⟩, 1)) := by
  gen_eval [ex1, ex1Agg]

theorem ex1_generate (rs : List Rounder) (m : Int) (hm : 0 < m) :
    generateCuttingPlanes ex1 ex1Solver rs m =
      roundAll ex1 (SparseVector.ofDense [3 / 2, 0]) ex1Agg 0 rs := by
  refine generate_single (u := [true]) (col := 0) hm rfl rfl rfl ?_ rfl rfl rfl rfl ?_ rfl ?_ ex1_nonneg
  · gen_eval [ex1]
  · gen_eval [ex1]
  · have : rowWeights ⟨[⟨0, 1 / 2⟩], false⟩ = ⟨[⟨0, 1 / 2⟩], false⟩ := by gen_eval []
    rw [this]; exact ex1_aggregate

theorem ex1_violated : removesLPOptimum ⟨[⟨0, 1⟩], false⟩ 1 (SparseVector.ofDense [3 / 2, 0]) = true := by
  gen_eval []

theorem ex1_clean : RowsClean ex1.lp := by
  intro r hr
  simp only [ex1, List.mem_singleton] at hr
  subst hr
  exact ⟨by simp [Clean, StrictSorted], rfl⟩

theorem ex1_integral : IntegralData ex1 where
  lower j q _ h := by
    rcases j with _ | _ | j <;> simp [ex1] at h <;> exact ⟨0, by simp [← h]⟩
  upper j q _ h := by
    rcases j with _ | _ | j <;> simp [ex1] at h <;> exact ⟨5, by simp [← h]⟩
  coefs i row _ h := by
    rcases i with _ | i <;> simp [ex1] at h
    subst h
    intro e he
    refine ⟨rfl, ?_⟩
    simp only [List.mem_cons, List.not_mem_nil, or_false] at he
    rcases he with rfl | rfl
    · exact ⟨2, by simp⟩
    · exact ⟨1, by simp⟩
  lhs i q _ h := by
    rcases i with _ | i <;> simp [ex1] at h
  rhs i q _ h := by
    rcases i with _ | i <;> simp [ex1] at h
    exact ⟨3, by simp [← h]⟩

theorem ex1_solverClean : SolverClean ex1Solver := by
  intro k b h
  simp only [ex1Solver, Outcome.ok.injEq] at h
  subst h
  exact ⟨by norm_num [Clean, StrictSorted], rfl⟩

/-- The point `(1, 1)`. -/
theorem ex1_feasible : MipFeasible ex1 (fun _ => 1) := by
  refine ⟨⟨⟨?_, ?_⟩, ?_, ?_⟩, fun j _ => ⟨1, by simp⟩⟩
  · intro n l h
    rcases n with _ | _ | n <;> simp [ex1] at h <;> subst h <;> norm_num [Dbl.le]
  · intro n l h
    rcases n with _ | _ | n <;> simp [ex1] at h <;> subst h <;> norm_num [Dbl.le]
  · intro n row l _ h
    rcases n with _ | n <;> simp [ex1] at h
    subst h; rfl
  · intro n row l hr h
    rcases n with _ | n <;> simp [ex1] at hr h
    subst hr; subst h
    norm_num [Dbl.le, SparseVector.eval, evalEntries]

/-- The hypotheses of `C29_mir_partial`, `C30_strong_cg_partial`, `C29_C30_generated_cuts_partial`
and `C31_cuts_off_lp_optimum` are met, and the generator does return cuts. -/
example : RowsClean ex1.lp ∧ IntegralData ex1 ∧ SolverClean ex1Solver ∧ Harmless ex1 ex1Solver ∧
    MipFeasible ex1 (fun _ => 1) ∧
    ∃ cut, generateCuttingPlanes ex1 ex1Solver [.mir] 100 = .ok [cut] ∧
      cut.row = ⟨[⟨0, 1⟩], false⟩ ∧ cut.rhs = 1 := by
  refine ⟨ex1_clean, ex1_integral, ex1_solverClean,
    fun k b u a a' _ _ _ _ => harmless_of_tol_zero a', ex1_feasible, ?_⟩
  rw [ex1_generate _ _ (by norm_num)]
  simp only [roundAll, ex1_mir, ex1_violated, Outcome.bind_ok, Outcome.pure_eq, if_true]
  exact ⟨_, rfl, rfl, rfl⟩

/-- **C32**, counterexample.  With both rounders, `max_num_cuts = 1` and a single tableau row,
the generator returns two cuts: the limit is only tested between tableau rows. -/
theorem C32_max_num_cuts_violated : ∃ (c : GenContext) (s : SolverView) (cuts : List CutData),
    RowsClean c.lp ∧ IntegralData c ∧ SolverClean s ∧
    generateCuttingPlanes c s [.mir, .strongCG] 1 = .ok cuts ∧ cuts.length = 2 := by
  have : ∃ cuts, generateCuttingPlanes ex1 ex1Solver [.mir, .strongCG] 1 = .ok cuts ∧ cuts.length = 2 := by
    rw [ex1_generate _ _ (by norm_num)]
    simp only [roundAll, ex1_mir, ex1_scg, ex1_violated, Outcome.bind_ok, Outcome.pure_eq, if_true]
    exact ⟨_, rfl, rfl⟩
  obtain ⟨cuts, h1, h2⟩ := this
  exact ⟨ex1, ex1Solver, cuts, ex1_clean, ex1_integral, ex1_solverClean, h1, h2⟩

/-! ## An integral row with a fractional side: maximise `x` with `2 x + y ≤ 5/2` -/

/-- `2 x + y ≤ 5/2`, `0 ≤ x ≤ 5`, `0 ≤ y ≤ 5`, both integer; `MipData` marks the row as
integral (`C10_fractional_side_violated`). -/
def ex2 : GenContext where
  lp := {
    rows := [⟨[⟨0, 2⟩, ⟨1, 1⟩], false⟩]
    lhs := [.ninf]
    rhs := [.fin (5 / 2)]
    lower := [.fin 0, .fin 0]
    upper := [.fin 5, .fin 5] }
  isInteger := fun _ => true
  integralRow := [true]
  objective := ⟨[⟨0, -1⟩], false⟩
  tol := 0

def ex2Solver : SolverView where
  isSolved := true
  isOptimal := true
  activities := .ok [5 / 2]
  basis := [some 0]
  primal := .ok [5 / 4, 0]
  bInverted := fun _ => .ok ⟨[⟨0, 1 / 2⟩], false⟩

def ex2Agg : AggRow where
  vars := ⟨[⟨0, 1⟩, ⟨1, 1 / 2⟩], false⟩
  slackCoefs := ⟨[⟨0, 1 / 2⟩], false⟩
  slackSigns := ⟨[⟨0, 1⟩], false⟩
  sideValues := ⟨[⟨0, 5 / 2⟩], false⟩
  rhs := some (5 / 4)

theorem ex2_generate (rs : List Rounder) (m : Int) (hm : 0 < m) :
    generateCuttingPlanes ex2 ex2Solver rs m =
      roundAll ex2 (SparseVector.ofDense [5 / 4, 0]) ex2Agg 0 rs := by
  refine generate_single (u := [true]) (col := 0) (a := ex2Agg) hm rfl rfl rfl ?_ rfl rfl rfl rfl ?_ rfl ?_ ?_
  · gen_eval [ex2]
  · gen_eval [ex2]
  · gen_eval [ex2, ex2Agg]
  · gen_eval [ex2, ex2Agg]

theorem ex2_mir : roundOne ex2 ex2Agg .mir = .ok (some (⟨[⟨0, 1 / 3⟩], false⟩, 1 / 6)) := by
  gen_eval [ex2, ex2Agg]

theorem ex2_scg : roundOne ex2 ex2Agg .strongCG = .ok (some (⟨[⟨0, 1 / 2⟩], false⟩, 3 / 8)) := by
  gen_eval [ex2, ex2Agg]

/-- The point `(1, 0)`. -/
def e0 (j : Int) : ℚ := if j = 0 then 1 else 0

theorem e0_int (j : Int) : ∃ k : Int, e0 j = k := by
  by_cases h : j = 0
  · exact ⟨1, by simp [e0, h]⟩
  · exact ⟨0, by simp [e0, h]⟩

theorem ex2_feasible : MipFeasible ex2 e0 := by
  refine ⟨⟨⟨?_, ?_⟩, ?_, ?_⟩, fun j _ => e0_int j⟩
  · intro n l h
    rcases n with _ | _ | n <;> simp [ex2] at h <;> subst h <;> norm_num [Dbl.le, e0]
  · intro n l h
    rcases n with _ | _ | n <;> simp [ex2] at h <;> subst h <;> norm_num [Dbl.le, e0]
  · intro n row l _ h
    rcases n with _ | n <;> simp [ex2] at h
    subst h; rfl
  · intro n row l hr h
    rcases n with _ | n <;> simp [ex2] at hr h
    subst hr; subst h
    norm_num [Dbl.le, SparseVector.eval, evalEntries, e0]

/-- **C29, C30**, counterexample.  `2 x + y ≤ 5/2` with integers `x, y ≥ 0` is marked integral,
so its slack is rounded like an integer variable: from the LP optimum `x = 5/4` MIR derives
`x/3 ≤ 1/6` and strong CG `x/2 ≤ 3/8`.  Both cut off the feasible (and optimal) point
`(1, 0)`. -/
theorem C29_C30_fractional_side_violated :
    ∃ (c : GenContext) (s : SolverView) (x : Int → ℚ), RowsClean c.lp ∧ SolverClean s ∧ c.tol = 0 ∧
      MipFeasible c x ∧ ∀ r : Rounder, ∃ cut, generateCuttingPlanes c s [r] 100 = .ok [cut] ∧
        cut.rhs < cut.row.eval x := by
  refine ⟨ex2, ex2Solver, e0, ?_, ?_, rfl, ex2_feasible, ?_⟩
  · intro r hr
    simp only [ex2, List.mem_singleton] at hr
    subst hr
    exact ⟨by simp [Clean, StrictSorted], rfl⟩
  · intro k b h
    simp only [ex2Solver, Outcome.ok.injEq] at h
    subst h
    exact ⟨by norm_num [Clean, StrictSorted], rfl⟩
  · intro r
    rw [ex2_generate _ _ (by norm_num)]
    cases r with
    | mir =>
      have h : removesLPOptimum ⟨[⟨0, 1 / 3⟩], false⟩ (1 / 6) (SparseVector.ofDense [5 / 4, 0]) = true := by
        gen_eval []
      simp only [roundAll, ex2_mir, h, Outcome.bind_ok, Outcome.pure_eq, if_true]
      refine ⟨_, rfl, ?_⟩
      norm_num [createCut, SparseVector.eval, evalEntries, e0]
    | strongCG =>
      have h : removesLPOptimum ⟨[⟨0, 1 / 2⟩], false⟩ (3 / 8) (SparseVector.ofDense [5 / 4, 0]) = true := by
        gen_eval []
      simp only [roundAll, ex2_scg, h, Outcome.bind_ok, Outcome.pure_eq, if_true]
      refine ⟨_, rfl, ?_⟩
      norm_num [createCut, SparseVector.eval, evalEntries, e0]

/-! ## An integer variable with a fractional bound: `2 x + y ≤ 3` with `x ≥ -1/4` -/

/-- As `ex1`, with the lower bound `-1/4` for the integer variable `x`. -/
def ex3 : GenContext :=
  { ex1 with lp := { ex1.lp with lower := [.fin (-1 / 4), .fin 0] } }

def ex3Agg : AggRow where
  vars := ⟨[⟨0, 1⟩, ⟨1, 1 / 2⟩], false⟩
  slackCoefs := ⟨[⟨0, 1 / 2⟩], false⟩
  slackSigns := ⟨[⟨0, 1⟩], false⟩
  sideValues := ⟨[⟨0, 3⟩], false⟩
  rhs := some (7 / 4)

theorem ex3_mir : roundOne ex3 ex3Agg .mir = .ok (some (⟨[⟨0, 1⟩], false⟩, 3 / 4)) := by
  gen_eval [ex3, ex1, ex3Agg]

/-- **C29**, counterexample.  The bound of an integer variable is not rounded.  With
`x ≥ -1/4`, the row `2 x + y ≤ 3` and the LP optimum `x = 3/2`, MIR derives `x ≤ 3/4`. -/
theorem C29_fractional_bound_violated :
    ∃ (c : GenContext) (s : SolverView) (x : Int → ℚ) (cut : CutData), c.tol = 0 ∧ MipFeasible c x ∧
      generateCuttingPlanes c s [.mir] 100 = .ok [cut] ∧ cut.rhs < cut.row.eval x := by
  have h1 : generateCuttingPlanes ex3 ex1Solver [.mir] 100 =
      roundAll ex3 (SparseVector.ofDense [3 / 2, 0]) ex3Agg 0 [.mir] := by
    refine generate_single (u := [true]) (col := 0) (a := ex1Agg) (by norm_num) rfl rfl rfl ?_ rfl rfl rfl rfl ?_ rfl ?_ ?_
    · gen_eval [ex3, ex1]
    · gen_eval [ex3, ex1]
    · gen_eval [ex3, ex1, ex1Agg]
    · gen_eval [ex3, ex1, ex1Agg, ex3Agg]
  have h : removesLPOptimum ⟨[⟨0, 1⟩], false⟩ (3 / 4) (SparseVector.ofDense [3 / 2, 0]) = true := by
    gen_eval []
  refine ⟨ex3, ex1Solver, e0, createCut ex3.objective ex3.isInteger (SparseVector.ofDense [3 / 2, 0])
    ⟨[⟨0, 1⟩], false⟩ (3 / 4) (Rounder.mir.name ++ toString 0) false, rfl, ?_, ?_, ?_⟩
  · refine ⟨⟨⟨?_, ?_⟩, ?_, ?_⟩, fun j _ => e0_int j⟩
    · intro n l h
      rcases n with _ | _ | n <;> simp [ex3] at h <;> subst h <;> norm_num [Dbl.le, e0]
    · intro n l h
      rcases n with _ | _ | n <;> simp [ex3, ex1] at h <;> subst h <;> norm_num [Dbl.le, e0]
    · intro n row l _ h
      rcases n with _ | n <;> simp [ex3, ex1] at h
      subst h; rfl
    · intro n row l hr h
      rcases n with _ | n <;> simp [ex3, ex1] at hr h
      subst hr; subst h
      norm_num [Dbl.le, SparseVector.eval, evalEntries, e0]
  · rw [h1]
    simp only [roundAll, ex3_mir, h, Outcome.bind_ok, Outcome.pure_eq, if_true]
  · norm_num [createCut, SparseVector.eval, evalEntries, e0]

/-! ## A coefficient within the tolerance of an integer -/

/-- `(1 - 10⁻⁷) x + y ≤ 5000000.5`, `0 ≤ x, y ≤ 10⁷`, both integer, with the default integrality
tolerance `10⁻⁶`. -/
def ex4 : GenContext where
  lp := {
    rows := [⟨[⟨0, 9999999 / 10000000⟩, ⟨1, 1⟩], false⟩]
    lhs := [.ninf]
    rhs := [.fin (10000001 / 2)]
    lower := [.fin 0, .fin 0]
    upper := [.fin 10000000, .fin 10000000] }
  isInteger := fun _ => true
  integralRow := [false]
  objective := ⟨[⟨1, -1⟩], false⟩
  tol := 1 / 1000000

def ex4Solver : SolverView where
  isSolved := true
  isOptimal := true
  activities := .ok [10000001 / 2]
  basis := [some 1]
  primal := .ok [0, 10000001 / 2]
  bInverted := fun _ => .ok ⟨[⟨0, 1⟩], false⟩

def ex4Agg : AggRow where
  vars := ⟨[⟨0, 9999999 / 10000000⟩, ⟨1, 1⟩], false⟩
  slackCoefs := ⟨[⟨0, 1⟩], false⟩
  slackSigns := ⟨[⟨0, 1⟩], false⟩
  sideValues := ⟨[⟨0, 10000001 / 2⟩], false⟩
  rhs := some (10000001 / 2)

theorem ex4_mir : roundOne ex4 ex4Agg .mir = .ok (some (⟨[⟨0, 1⟩, ⟨1, 1⟩], false⟩, 5000000)) := by
  gen_eval [ex4, ex4Agg]

/-- The point `(5000001, 0)`. -/
def e4 (j : Int) : ℚ := if j = 0 then 5000001 else 0

/-- **C29**, counterexample.  A coefficient within the integrality tolerance *below* an integer
is rounded up.  From `(1 - 10⁻⁷) x + y ≤ 5000000.5` MIR derives `x + y ≤ 5000000`, which cuts
off the feasible point `(5000001, 0)`. -/
theorem C29_tolerance_violated :
    ∃ (c : GenContext) (s : SolverView) (x : Int → ℚ) (cut : CutData), RowsClean c.lp ∧
      IntegralData c ∧ MipFeasible c x ∧
      generateCuttingPlanes c s [.mir] 100 = .ok [cut] ∧ cut.rhs < cut.row.eval x := by
  have h1 : generateCuttingPlanes ex4 ex4Solver [.mir] 100 =
      roundAll ex4 (SparseVector.ofDense [0, 10000001 / 2]) ex4Agg 0 [.mir] := by
    refine generate_single (u := [true]) (col := 1) (a := ex4Agg) (by norm_num) rfl rfl rfl ?_ rfl rfl rfl rfl ?_ rfl ?_ ?_
    · gen_eval [ex4]
    · gen_eval [ex4]
    · gen_eval [ex4, ex4Agg]
    · gen_eval [ex4, ex4Agg]
  have h : removesLPOptimum ⟨[⟨0, 1⟩, ⟨1, 1⟩], false⟩ 5000000 (SparseVector.ofDense [0, 10000001 / 2]) = true := by
    gen_eval []
  refine ⟨ex4, ex4Solver, e4, createCut ex4.objective ex4.isInteger (SparseVector.ofDense [0, 10000001 / 2])
    ⟨[⟨0, 1⟩, ⟨1, 1⟩], false⟩ 5000000 (Rounder.mir.name ++ toString 0) false, ?_, ?_, ?_, ?_, ?_⟩
  · intro r hr
    simp only [ex4, List.mem_singleton] at hr
    subst hr
    exact ⟨by simp [Clean, StrictSorted], rfl⟩
  · refine ⟨?_, ?_, ?_, ?_, ?_⟩
    · intro j q _ h
      rcases j with _ | _ | j <;> simp [ex4] at h <;> exact ⟨0, by simp [← h]⟩
    · intro j q _ h
      rcases j with _ | _ | j <;> simp [ex4] at h <;> exact ⟨10000000, by simp [← h]⟩
    · intro i row h; rcases i with _ | i <;> simp [ex4] at h
    · intro i row h; rcases i with _ | i <;> simp [ex4] at h
    · intro i row h; rcases i with _ | i <;> simp [ex4] at h
  · refine ⟨⟨⟨?_, ?_⟩, ?_, ?_⟩, fun j _ => ?_⟩
    · intro n l h
      rcases n with _ | _ | n <;> simp [ex4] at h <;> subst h <;> norm_num [Dbl.le, e4]
    · intro n l h
      rcases n with _ | _ | n <;> simp [ex4] at h <;> subst h <;> norm_num [Dbl.le, e4]
    · intro n row l _ h
      rcases n with _ | n <;> simp [ex4] at h
      subst h; rfl
    · intro n row l hr h
      rcases n with _ | n <;> simp [ex4] at hr h
      subst hr; subst h
      norm_num [Dbl.le, SparseVector.eval, evalEntries, e4]
    · by_cases h : j = 0
      · exact ⟨5000001, by simp [e4, h]⟩
      · exact ⟨0, by simp [e4, h]⟩
  · rw [h1]
    simp only [roundAll, ex4_mir, h, Outcome.bind_ok, Outcome.pure_eq, if_true]
  · norm_num [createCut, SparseVector.eval, evalEntries, e4]

/-! ## C33: bounds of a node -/

/-- The root problem of `ex1`: `y` may be `-1`. -/
def ex5 : GenContext := setBounds ex1 [.fin 0, .fin (-1)] [.fin 5, .fin 5]

/-- The point `(2, -1)`. -/
def e5 (j : Int) : ℚ := if j = 0 then 2 else -1

/-- **C33**, counterexample.  `2 x + y ≤ 3` with `x, y` integer, `x ≥ 0`, `y ≥ -1`.  At a node
with the branching bound `y ≥ 0`, the generator derives `x ≤ 1` from the LP optimum
`x = 3/2`, `y = 0`.  The solver keeps the cut in the LP for all other nodes, where it cuts off
the feasible point `(2, -1)`. -/
theorem C33_local_bounds_violated :
    ∃ (c₀ : GenContext) (lower upper : List Dbl) (s : SolverView) (x : Int → ℚ) (cut : CutData),
      RowsClean c₀.lp ∧ IntegralData c₀ ∧ SolverClean s ∧ c₀.tol = 0 ∧ MipFeasible c₀ x ∧
      Run x c₀ (setBounds c₀ lower upper) ∧
      generateCuttingPlanes (setBounds c₀ lower upper) s [.mir] 100 = .ok [cut] ∧
      cut.rhs < cut.row.eval x ∧ ¬ SatisfiesRows (addCuts (setBounds c₀ lower upper) [cut]).lp x := by
  have hnode : setBounds ex5 [.fin 0, .fin 0] [.fin 5, .fin 5] = ex1 := rfl
  have hviol : (1 : ℚ) < SparseVector.eval ⟨[⟨0, 1⟩], false⟩ e5 := by
    norm_num [SparseVector.eval, evalEntries, e5]
  refine ⟨ex5, [.fin 0, .fin 0], [.fin 5, .fin 5], ex1Solver, e5,
    createCut ex1.objective ex1.isInteger (SparseVector.ofDense [3 / 2, 0])
      ⟨[⟨0, 1⟩], false⟩ 1 (Rounder.mir.name ++ toString 0) false, ex1_clean, ?_, ex1_solverClean, rfl, ?_, ?_, ?_,
      hviol, ?_⟩
  · refine ⟨?_, ?_, ex1_integral.coefs, ex1_integral.lhs, ex1_integral.rhs⟩
    · intro j q _ h
      rcases j with _ | _ | j <;> simp [ex5, setBounds] at h
      · exact ⟨0, by simp [← h]⟩
      · exact ⟨-1, by simp [← h]⟩
    · intro j q _ h
      rcases j with _ | _ | j <;> simp [ex5, setBounds] at h <;> exact ⟨5, by simp [← h]⟩
  · refine ⟨⟨⟨?_, ?_⟩, ?_, ?_⟩, fun j _ => ?_⟩
    · intro n l h
      rcases n with _ | _ | n <;> simp [ex5, setBounds] at h <;> subst h <;> norm_num [Dbl.le, e5]
    · intro n l h
      rcases n with _ | _ | n <;> simp [ex5, setBounds] at h <;> subst h <;> norm_num [Dbl.le, e5]
    · intro n row l _ h
      rcases n with _ | n <;> simp [ex5, setBounds, ex1] at h
      subst h; rfl
    · intro n row l hr h
      rcases n with _ | n <;> simp [ex5, setBounds, ex1] at hr h
      subst hr; subst h
      norm_num [Dbl.le, SparseVector.eval, evalEntries, e5]
    · by_cases h : j = 0
      · exact ⟨2, by simp [e5, h]⟩
      · exact ⟨-1, by simp [e5, h]⟩
  · refine .bounds _ _ .start ?_ ?_
    · intro j q _ h
      rcases j with _ | _ | j <;> simp at h <;> exact ⟨0, by simp [← h]⟩
    · intro j q _ h
      rcases j with _ | _ | j <;> simp at h <;> exact ⟨5, by simp [← h]⟩
  · rw [hnode, ex1_generate _ _ (by norm_num)]
    simp only [roundAll, ex1_mir, ex1_violated, Outcome.bind_ok, Outcome.pure_eq, if_true]
  · rw [hnode]
    rintro ⟨-, h⟩
    have := h 1 ⟨[⟨0, 1⟩], false⟩ (.fin 1) rfl rfl
    rw [Dbl.le_fin] at this
    linarith

/-- A run in which a cut is added at the root and is satisfied by the feasible point `(1, 1)`. -/
example : ∃ cut, Run (fun _ => 1) ex1 (addCuts ex1 [cut]) := by
  refine ⟨_, .cut ex1Solver [.mir] 100 [createCut ex1.objective ex1.isInteger (SparseVector.ofDense [3 / 2, 0])
      ⟨[⟨0, 1⟩], false⟩ 1 (Rounder.mir.name ++ toString 0) false] _ .start ex1_solverClean
      (fun k b u a a' _ _ _ _ => harmless_of_tol_zero a') ex1_feasible.1.1 ?_ (fun cut h => h)⟩
  rw [ex1_generate _ _ (by norm_num)]
  simp only [roundAll, ex1_mir, ex1_violated, Outcome.bind_ok, Outcome.pure_eq, if_true]

/-! ## C34: the second round -/

/-- `2 x + 4 y ≤ 7`, `0 ≤ x, y ≤ 5`, both integer. -/
def ex6 : GenContext where
  lp := {
    rows := [⟨[⟨0, 2⟩, ⟨1, 4⟩], false⟩]
    lhs := [.ninf]
    rhs := [.fin 7]
    lower := [.fin 0, .fin 0]
    upper := [.fin 5, .fin 5] }
  isInteger := fun _ => true
  integralRow := [true]
  objective := ⟨[⟨0, -1⟩, ⟨1, -3⟩], false⟩
  tol := 0

/-- First LP optimum: `y = 7/4` basic. -/
def ex6Solver : SolverView where
  isSolved := true
  isOptimal := true
  activities := .ok [7]
  basis := [some 1]
  primal := .ok [0, 7 / 4]
  bInverted := fun _ => .ok ⟨[⟨0, 1 / 4⟩], false⟩

def ex6Agg : AggRow where
  vars := ⟨[⟨0, 1 / 2⟩, ⟨1, 1⟩], false⟩
  slackCoefs := ⟨[⟨0, 1 / 4⟩], false⟩
  slackSigns := ⟨[⟨0, 1⟩], false⟩
  sideValues := ⟨[⟨0, 7⟩], false⟩
  rhs := some (7 / 4)

/-- The cut found: `y ≤ 1`. -/
noncomputable def ex6Cut : CutData :=
  createCut ex6.objective ex6.isInteger (SparseVector.ofDense [0, 7 / 4]) ⟨[⟨1, 1⟩], false⟩ 1
    (Rounder.mir.name ++ toString 0) false

/-- Second LP optimum: `x = 3/2`, `y = 1`, both basic. -/
def ex6Solver2 : SolverView where
  isSolved := true
  isOptimal := true
  activities := .ok [7, 1]
  basis := [some 0, some 1]
  primal := .ok [3 / 2, 1]
  bInverted := fun k => .ok (if k = 0 then ⟨[⟨0, 1 / 2⟩, ⟨1, -2⟩], false⟩ else ⟨[⟨1, 1⟩], false⟩)

def ex6Agg2 : AggRow where
  vars := ⟨[⟨0, 1⟩], false⟩
  slackCoefs := ⟨[⟨0, 1 / 2⟩, ⟨1, -2⟩], false⟩
  slackSigns := ⟨[⟨0, 1⟩, ⟨1, 1⟩], false⟩
  sideValues := ⟨[⟨0, 7⟩, ⟨1, 1⟩], false⟩
  rhs := some (3 / 2)

theorem ex6_first : generateCuttingPlanes ex6 ex6Solver [.mir] 100 = .ok [ex6Cut] := by
  have h1 : generateCuttingPlanes ex6 ex6Solver [.mir] 100 =
      roundAll ex6 (SparseVector.ofDense [0, 7 / 4]) ex6Agg 0 [.mir] := by
    refine generate_single (u := [true]) (col := 1) (a := ex6Agg) (by norm_num) rfl rfl rfl ?_ rfl rfl rfl rfl ?_ rfl ?_ ?_
    · gen_eval [ex6]
    · gen_eval [ex6]
    · gen_eval [ex6, ex6Agg]
    · gen_eval [ex6, ex6Agg]
  have h2 : roundOne ex6 ex6Agg .mir = .ok (some (⟨[⟨1, 1⟩], false⟩, 1)) := by gen_eval [ex6, ex6Agg]
  have h3 : removesLPOptimum ⟨[⟨1, 1⟩], false⟩ 1 (SparseVector.ofDense [0, 7 / 4]) = true := by
    gen_eval []
  rw [h1]
  simp only [roundAll, h2, h3, Outcome.bind_ok, Outcome.pure_eq, if_true]
  rfl

/-- **C34**, counterexample.  After the first round added the cut `y ≤ 1` to the LP of
`2 x + 4 y ≤ 7`, the tableau row of `x = 3/2` has a weight on the cut row; in the second round
the generator asks whether the slack of row 1 is integral, but `MipData` has one row only. -/
theorem C34_cut_row_violated :
    ∃ (c : GenContext) (s₁ s₂ : SolverView) (cut : CutData),
      c.integralRow.length = c.lp.rows.length ∧
      generateCuttingPlanes c s₁ [.mir] 100 = .ok [cut] ∧ Consistent (addCuts c [cut]) s₂ ∧
      s₂.isSolved = true ∧ s₂.isOptimal = true ∧
      generateCuttingPlanes (addCuts c [cut]) s₂ [.mir] 100 = .ub := by
  refine ⟨ex6, ex6Solver, ex6Solver2, ex6Cut, rfl, ex6_first, ?_, rfl, rfl, ?_⟩
  · refine ⟨rfl, rfl, rfl, ?_, ⟨_, rfl, rfl⟩, ⟨_, rfl⟩, rfl, ?_⟩
    · intro row hrow
      simp only [addCuts, ex6, ex6Cut, createCut, List.map_cons, List.map_nil, List.cons_append,
        List.nil_append, List.mem_cons, List.not_mem_nil, or_false] at hrow
      rcases hrow with rfl | rfl <;> simp [addCuts, ex6]
    · intro k hk
      have hk' : k < 2 := hk
      refine ⟨_, rfl, ?_, ?_⟩
      · split
        · exact ⟨by norm_num [Clean, StrictSorted], rfl⟩
        · exact ⟨by norm_num [Clean, StrictSorted], rfl⟩
      · have : (addCuts ex6 [ex6Cut]).lp.rows.length = 2 := rfl
        rw [this]
        split <;> simp
  · have e : (addCuts ex6 [ex6Cut]).lp =
        { rows := [⟨[⟨0, 2⟩, ⟨1, 4⟩], false⟩, ⟨[⟨1, 1⟩], false⟩]
          lhs := [.ninf, .ninf]
          rhs := [.fin 7, .fin 1]
          lower := [.fin 0, .fin 0]
          upper := [.fin 5, .fin 5] } := rfl
    have h1 : chooseSides (addCuts ex6 [ex6Cut]).lp 0 [7, 1] = .ok [true, true] := by
      rw [e]; gen_eval []
    have h2 : tableauRow (addCuts ex6 [ex6Cut]) ex6Solver2 [.mir] [true, true]
        (SparseVector.ofDense [3 / 2, 1]) 0 =
        roundAll (addCuts ex6 [ex6Cut]) (SparseVector.ofDense [3 / 2, 1]) ex6Agg2 0 [.mir] := by
      refine tableauRow_eq (col := 0) (a := ex6Agg2) rfl rfl ?_ rfl ?_ ?_
      · gen_eval [addCuts, ex6]
      · rw [e]; gen_eval [ex6Agg2]
      · rw [e]; gen_eval [ex6Agg2]
    have h3 : roundOne (addCuts ex6 [ex6Cut]) ex6Agg2 .mir = .ub := by
      gen_eval [ex6Agg2, addCuts, ex6]
    simp only [generateCuttingPlanes, ex6Solver2, Outcome.bind_ok, Bool.not_true, Bool.false_eq_true,
      if_false, h1, show (addCuts ex6 [ex6Cut]).lp.rows.length = 2 from rfl, tableauLoop]
    have h2' := h2
    simp only [ex6Solver2] at h2'
    rw [h2']
    simp [roundAll, h3]

/-- The hypotheses of `C34_in_range_partial` on the first LP. -/
example : RowsClean ex6.lp ∧ Consistent ex6 ex6Solver ∧ ex6.lp.rows.length ≤ ex6.integralRow.length ∧
    ex6Solver.isSolved = true ∧ ex6Solver.isOptimal = true := by
  refine ⟨?_, ⟨rfl, rfl, rfl, ?_, ⟨_, rfl, rfl⟩, ⟨_, rfl⟩, rfl, ?_⟩, le_refl _, rfl, rfl⟩
  · intro r hr
    simp only [ex6, List.mem_singleton] at hr
    subst hr
    exact ⟨by simp [Clean, StrictSorted], rfl⟩
  · intro row hrow
    simp only [ex6, List.mem_singleton] at hrow
    subst hrow; simp [ex6]
  · intro k hk
    exact ⟨_, rfl, ⟨by norm_num [Clean, StrictSorted], rfl⟩, by simp [ex6]⟩

end MiniMip.Generator
