import Verif.Props.ProgramWitness

/-!
# A cut that costs the optimum

With one round of cuts the program reports a solution that is not optimal on a problem with one variable and one
constraint: the slack of the constraint is taken for integral though its side is fractional (mip_data.cc), and the
MIR cut derived from that is not valid.
-/

namespace MiniMip
namespace Program

variable {hash : MipData.HashOrder}

open Glop (LinearProgram)
open Solver (point)

/-! ### One column, Glop -/

/-- Setting the bounds of the only column. -/
theorem glop_bounds {e : Engine} {c : Setup.Created} {r : Runner World} {s : Glop.Session}
    (hr : r.world.lp = .glop s) (hc : s.iface.lp.cols.length = 1) (l u : Dbl) :
    ∃ s', Solver.applyBounds (oracle e c) [l] [u] r [0] =
        .ok { r with world := { r.world with lp := .glop s' } } ∧
      s'.iface.lp = s.iface.lp.withBounds 0 l u ∧ s'.settings = s.settings := by
  have hset : ∃ g, Glop.setColumnBounds s.iface 0 l u = .ok g ∧ g.lp = s.iface.lp.withBounds 0 l u := by
    refine ⟨_, if_pos ⟨le_rfl, by rw [hc]; norm_num⟩, rfl⟩
  obtain ⟨g, hg, hlp⟩ := hset
  refine ⟨{ s with iface := g }, ?_, hlp, rfl⟩
  simp [Solver.applyBounds, vecGet, oracle, hr, Lp.setColumnBounds, hg, Outcome.orAbort]

/-- Solving with Glop. -/
theorem glop_solve {e : Engine} (hret : e.GlopReturns) (hin : e.GlopInTime) (he : e.Right) {w : World}
    {s : Glop.Session} (hw : w.lp = .glop s) (hs : s.settings.maxIterations = -1) :
    ∃ s', w.solve e = .ok { w with lp := .glop s', report := (e.glop w.solves s).2.2.2, solves := w.solves + 1 } ∧
      s'.iface.lp = s.iface.lp ∧ s'.settings = s.settings ∧ s'.isSolved = true ∧
      s'.status = (e.glop w.solves s).2.1 ∧ (s'.status = .optimal → Lp.stop (.glop s') = false) ∧
      RightAnswer s'.iface.lp (s'.status = .optimal) (e.glop w.solves s).2.2.2 := by
  have hok := solveLp_returns s.iface (hret w.solves s)
  have hprog : ∀ answers, (Glop.solveLp s.iface answers).1.lp = s.iface.lp := by
    intro answers
    simp only [Glop.solveLp, Glop.solveInternal]
    split_ifs <;> rfl
  have hsol : (Glop.solveLp s.iface (e.glop w.solves s).1).1.modified = false ∧
      (Glop.solveLp s.iface (e.glop w.solves s).1).1.timeLimitReached = false := by
    simp only [Glop.solveLp, Glop.solveInternal, hret w.solves s, (hin w.solves s).1, Bool.not_true,
      Bool.false_eq_true, if_false, if_true]
    split <;> simp
  refine ⟨(s.solveLp true (e.glop w.solves s).1 (e.glop w.solves s).2.1 (e.glop w.solves s).2.2.1).1, ?_, hprog _, rfl,
    ?_, rfl, ?_, ?_⟩
  · simp only [World.solve, hw]
    rw [show (s.solveLp true (e.glop w.solves s).1 (e.glop w.solves s).2.1 (e.glop w.solves s).2.2.1).2 = true from hok]
    rfl
  · simp only [Glop.Session.isSolved, Glop.Session.solveLp, hsol.1, Bool.not_false]
  · intro hopt
    have h1 : (s.solveLp true (e.glop w.solves s).1 (e.glop w.solves s).2.1
        (e.glop w.solves s).2.2.1).1.timeLimitIsExceeded = false := hsol.2
    have h2 : (s.solveLp true (e.glop w.solves s).1 (e.glop w.solves s).2.1
        (e.glop w.solves s).2.2.1).1.iterationLimitIsExceeded = false := by
      simp only [Glop.Session.iterationLimitIsExceeded, Glop.Session.solveLp, hs]
      simp
    have h3 : (s.solveLp true (e.glop w.solves s).1 (e.glop w.solves s).2.1
        (e.glop w.solves s).2.2.1).1.objectiveLimitIsExceeded = false := (hin w.solves s).2
    simp [Lp.stop, h1, h2, h3, hopt, Glop.Session.isPrimalInfeasible, Glop.Session.isPrimalUnbounded,
      Glop.Session.isDualInfeasible, Glop.Session.isDualUnbounded]
  · show RightAnswer (Glop.solveLp s.iface (e.glop w.solves s).1).1.lp _ _
    rw [hprog]
    exact he.glop w.solves s

/-- What a right answer says about an LP `max y`, `lo ≤ y ≤ hi`. -/
theorem line_optimum {lp : LinearProgram} {lo hi : ℚ} (hf : ∀ y, lp.Feasible y ↔ lo ≤ y 0 ∧ y 0 ≤ hi)
    (hv : ∀ y, lp.value y = -y 0) (hm : lp.maximize = false) {opt : Prop} {r : Report} (h : RightAnswer lp opt r) :
    (lo ≤ hi → opt ∧ r.point 0 = hi ∧ r.objective = .fin (-hi)) ∧ (hi < lo → ¬ opt) := by
  obtain ⟨h1, h2⟩ := h
  constructor
  · intro hle
    have hfe : lp.Feasible fun _ => hi := (hf _).2 ⟨hle, le_rfl⟩
    have ho : opt := by
      by_contra hn
      rcases h2 hn with h2 | h2
      · exact h2 _ hfe
      · obtain ⟨y, hy, hlt⟩ := h2 (-hi)
        rw [hm, hv] at hlt
        simp at hlt
        linarith [((hf y).1 hy).2]
    obtain ⟨h3, h4, h5⟩ := h1 ho
    have h6 := h5 _ hfe
    rw [hm, hv, hv] at h6
    simp at h6
    have h7 : r.point 0 = hi := le_antisymm ((hf _).1 h3).2 h6
    exact ⟨ho, h7, by rw [h4, hv, h7]⟩
  · intro hlt ho
    obtain ⟨h3, -⟩ := h1 ho
    linarith [((hf _).1 h3).1, ((hf _).1 h3).2]

/-! ### The problem -/

/-- `max x`, `2 x ≤ 5/2`, `0 ≤ x ≤ 9`, `x` integer. -/
def tight : Problem :=
  { vars := [{ name := "x", objective := 1, lower := .fin 0, upper := .fin 9, isInteger := true }]
    constraints := [{ name := "c", varIndices := [0], coefficients := [2], rhs := .fin (5 / 2) }]
    isMaximization := true }

/-- Its LP. -/
def tightLp : LinearProgram :=
  { cols := [⟨.fin 0, .fin 9, -1, "x", [⟨0, 2⟩]⟩], rows := [⟨.ninf, .fin (5 / 2), "c"⟩] }

/-- Its LP with the cut `x / 3 ≤ 1 / 6`. -/
def cutLp (l u : ℚ) (name : String) : LinearProgram :=
  { cols := [⟨.fin l, .fin u, -1, "x", [⟨0, 2⟩, ⟨1, 1 / 3⟩]⟩]
    rows := [⟨.ninf, .fin (5 / 2), "c"⟩, ⟨.ninf, .fin (1 / 6), name⟩] }

theorem tight_created {d : MipData} (hd : MipData.ofProblem hash tight = .ok d) :
    d.lower = [.fin 0] ∧ d.upper = [.fin 9] ∧ d.integerVariables = [0] ∧ d.isIntegralConstraint = [true] ∧
    d.objective = ⟨[⟨0, -1⟩], false⟩ ∧
    ∀ b g, Glop.populateFromMipData { useScaling := b } d = .ok g → g.lp = tightLp := by
  obtain ⟨d₀, hd₀, rfl⟩ := MipData.ofProblem_order hd
  have h : (match MipData.ofProblem .id tight with
    | .ok d => decide (d.lower = [.fin 0]) && decide (d.upper = [.fin 9]) && decide (d.integerVariables = [0]) &&
        decide (d.isIntegralConstraint = [true]) && decide (d.objective = ⟨[⟨0, -1⟩], false⟩) &&
        [true, false].all fun b => (match Glop.populateFromMipData { useScaling := b } d with
          | .ok g => decide (g.lp = tightLp)
          | _ => true)
    | _ => false) = true := by decide +kernel
  rw [hd₀] at h
  simp only [Bool.and_eq_true, decide_eq_true_eq, List.all_eq_true] at h
  obtain ⟨⟨⟨⟨⟨h1, h2⟩, h3⟩, h4⟩, h6⟩, h5⟩ := h
  refine ⟨h1, h2, by rw [h3]; exact hash.apply_singleton 0, h4, h6, fun b g hg => ?_⟩
  have := h5 b (by cases b <;> simp)
  rw [Glop.populateFromMipData_order] at hg
  rw [hg] at this
  simpa using this

/-- The feasible points and the objective of the LPs. -/
theorem tight_feasible (y : Int → ℚ) : (tightLp.Feasible y ↔ 0 ≤ y 0 ∧ y 0 ≤ 5 / 4) ∧ tightLp.value y = -y 0 := by
  have hact : tightLp.activity 0 y = 2 * y 0 := by
    simp [LinearProgram.activity, LinearProgram.coefficient, tightLp, SparseVector.sumAt]
  refine ⟨⟨fun ⟨h1, h2⟩ => ?_, fun ⟨h1, h2⟩ => ⟨?_, ?_⟩⟩, by simp [LinearProgram.value, tightLp]⟩
  · have h1 := h1 0 _ rfl
    have h2 := h2 0 _ rfl
    rw [hact] at h2
    simp only [Between, Dbl.le_fin] at h1 h2
    exact ⟨h1.1, by linarith [h2.2]⟩
  · intro n col hn
    match n with
    | 0 =>
      cases hn
      simp only [Between, Dbl.le_fin]
      exact ⟨h1, by push_cast; linarith⟩
    | n + 1 => simp [tightLp] at hn
  · intro n row hn
    match n with
    | 0 =>
      cases hn
      rw [hact]
      simp only [Between, Dbl.le_fin]
      exact ⟨rfl, by linarith⟩
    | n + 1 => simp [tightLp] at hn

theorem cut_feasible (l u : ℚ) (name : String) (y : Int → ℚ) :
    ((cutLp l u name).Feasible y ↔ l ≤ y 0 ∧ y 0 ≤ min u (1 / 2)) ∧ (cutLp l u name).value y = -y 0 := by
  have hact : (cutLp l u name).activity 0 y = 2 * y 0 := by
    simp [LinearProgram.activity, LinearProgram.coefficient, cutLp, SparseVector.sumAt]
  have hact1 : (cutLp l u name).activity 1 y = 1 / 3 * y 0 := by
    simp [LinearProgram.activity, LinearProgram.coefficient, cutLp, SparseVector.sumAt]
  refine ⟨⟨fun ⟨h1, h2⟩ => ?_, fun ⟨h1, h2⟩ => ⟨?_, ?_⟩⟩, by simp [LinearProgram.value, cutLp]⟩
  · have h1 := h1 0 _ rfl
    have h2 := h2 1 _ rfl
    rw [hact1] at h2
    simp only [Between, Dbl.le_fin] at h1 h2
    exact ⟨h1.1, le_min h1.2 (by linarith [h2.2])⟩
  · have h3 := (le_min_iff.1 h2)
    intro n col hn
    match n with
    | 0 =>
      cases hn
      simp only [Between, Dbl.le_fin]
      exact ⟨h1, h3.1⟩
    | n + 1 => simp [cutLp] at hn
  · have h3 := (le_min_iff.1 h2)
    intro n row hn
    match n with
    | 0 =>
      cases hn
      rw [hact]
      simp only [Between, Dbl.le_fin]
      exact ⟨rfl, by linarith [h3.2]⟩
    | 1 =>
      cases hn
      rw [hact1]
      simp only [Between, Dbl.le_fin]
      exact ⟨rfl, by linarith [h3.2]⟩
    | n + 2 => simp [cutLp] at hn

/-- The basis and the inverse of the matrix. -/
theorem tight_basis {r : Report} (h : r.GlopBasic tightLp) (hx : r.point 0 = 5 / 4) :
    r.basis.map (glopElement tightLp) = [.col 0] ∧
    (r.glopInverse 0).values = [1 / 2] ∧ ((r.glopInverse 0).nonZeros = [] ∨ (r.glopInverse 0).nonZeros = [0]) := by
  have hlen := h.basic.length
  have hin : Glop.ColOrRow.col (0 : Nat) ∈ r.basis.map (glopElement tightLp) := by
    by_contra hn
    have := h.basic.cols 0 _ rfl hn
    simp only [Basic.AtBound, Nat.cast_zero, hx] at this
    norm_num at this
  have hb : r.basis.map (glopElement tightLp) = [.col 0] := by
    obtain ⟨b, hb⟩ := List.length_eq_one_iff.1 (hlen.trans rfl)
    rw [hb] at hin ⊢
    simpa [eq_comm] using hin
  have hok := h.shape 0 (by decide)
  obtain ⟨v, hv⟩ := List.length_eq_one_iff.1 (hok.length.trans (rfl : tightLp.rows.length = 1))
  have hinv := h.basic.inverse 0 (by decide) 0 (.col 0) (by rw [hb]; rfl)
  rw [show tightLp.rows.length = 1 from rfl, Finset.sum_range_one, hv] at hinv
  have hent : tightLp.basisEntry 0 (.col 0) = 2 := by
    simp [LinearProgram.basisEntry, LinearProgram.coefficient, tightLp, SparseVector.sumAt]
  rw [hent] at hinv
  simp at hinv
  have hinv : v = 1 / 2 := by linarith
  subst hinv
  refine ⟨hb, hv, ?_⟩
  rcases hok.nonZeros with h1 | ⟨h1, h2, h3⟩
  · exact Or.inl h1
  · right
    have h0 : (0 : Int) ∈ (r.glopInverse 0).nonZeros := by
      by_contra hn
      have := h3 0 hn
      rw [hv] at this
      simp at this
    have hall : ∀ i ∈ (r.glopInverse 0).nonZeros, i = 0 := by
      intro i hi
      obtain ⟨ha, hb⟩ := h2 i hi
      rw [show tightLp.rows.length = 1 from rfl] at hb
      omega
    match hl : (r.glopInverse 0).nonZeros with
    | [] => rw [hl] at h0; simp at h0
    | [i] => rw [hl] at hall; simpa using hall
    | i :: j :: l =>
      rw [hl] at hall h1
      simp at hall h1
      omega

/-! ### The cuts -/

/-- What the generator reads in the root node. -/
def tightContext : GenContext where
  lp := { rows := [⟨[⟨0, 2⟩], false⟩], lhs := [.ninf], rhs := [.fin (5 / 2)], lower := [.fin 0], upper := [.fin 9] }
  isInteger := fun j => decide (j ∈ [(0 : Int)])
  integralRow := [true]
  objective := ⟨[⟨0, -1⟩], false⟩
  tol := 0

/-- The row of the inverse. -/
def tightWeights : SparseVector := ⟨[⟨0, 1 / 2⟩], false⟩

/-- The aggregated row. -/
def tightAgg : AggRow where
  vars := ⟨[⟨0, 1⟩], false⟩
  slackCoefs := ⟨[⟨0, 1 / 2⟩], false⟩
  slackSigns := ⟨[⟨0, 1⟩], false⟩
  sideValues := ⟨[⟨0, 5 / 2⟩], false⟩
  rhs := some (5 / 4)

open Generator in
/-- MIR rounding yields `x / 3 ≤ 1 / 6`, strong CG rounding `x / 2 ≤ 3 / 8`. -/
theorem tight_round : aggregateByWeight tightContext.lp tightWeights [true] = .ok tightAgg ∧
    toNonNegative tightContext.lp tightAgg = .ok (tightAgg, true) ∧
    roundOne tightContext tightAgg .mir = .ok (some (⟨[⟨0, 1 / 3⟩], false⟩, 1 / 6)) ∧
    roundOne tightContext tightAgg .strongCG = .ok (some (⟨[⟨0, 1 / 2⟩], false⟩, 3 / 8)) := by
  refine ⟨?_, ?_, ?_, ?_⟩ <;> gen_eval [tightContext, tightAgg, tightWeights]

/-- A cut `a x ≤ b` as the generator creates it. -/
noncomputable def tightCut (a b : ℚ) (name : String) : CutData :=
  createCut tightContext.objective tightContext.isInteger (SparseVector.ofDense [5 / 4]) ⟨[⟨0, a⟩], false⟩ b name false

open Generator in
/-- The generator produces both. -/
theorem tight_cuts {s : SolverView} (h1 : s.isSolved = true) (h2 : s.isOptimal = true)
    {y : ℚ} (h3 : s.activities = .ok [y]) (h4 : s.primal = .ok [5 / 4]) (h5 : s.basis = [some 0])
    (h6 : s.bInverted 0 = .ok tightWeights) :
    ∃ n1 n2, generateCuttingPlanes tightContext s [.mir, .strongCG] 100 =
      .ok [tightCut (1 / 3) (1 / 6) n1, tightCut (1 / 2) (3 / 8) n2] := by
  obtain ⟨ha, ha', hm, hx⟩ := tight_round
  have hw : rowWeights tightWeights = tightWeights := by gen_eval [tightWeights]
  rw [generate_single (c := tightContext) (u := [true]) (col := 0) (by norm_num) h1 h2 h3 rfl h4 rfl (by rw [h5]; rfl) rfl
    (by gen_eval [tightContext]) h6 (by rw [hw]; exact ha) ha']
  have hr1 : removesLPOptimum ⟨[⟨0, 1 / 3⟩], false⟩ (1 / 6) (SparseVector.ofDense [5 / 4]) = true := by gen_eval []
  have hr2 : removesLPOptimum ⟨[⟨0, 1 / 2⟩], false⟩ (3 / 8) (SparseVector.ofDense [5 / 4]) = true := by gen_eval []
  simp only [roundAll, hm, hx, hr1, hr2, Outcome.bind_ok, Outcome.pure_eq, if_true]
  exact ⟨_, _, rfl⟩

/-- Their scores. -/
theorem tight_score {a b : ℚ} (ha : 0 < a) (name : String) :
    HybridSelector.computeCutScore ({} : Setup.HybridMsg).read (tightCut a b name) =
      .ok (.fin (((5 / 4 - b / a : ℚ) : ℝ) + 1 / 10 + 1 / 10)) := by
  have hdot : ∀ p q : ℚ, SparseVector.dotProduct ⟨[⟨0, p⟩], false⟩ ⟨[⟨0, q⟩], false⟩ = p * q := by
    intro p q
    simp [SparseVector.dotProduct, SparseVector.dotWalk]
  have hopt : SparseVector.ofDense [5 / 4] = ⟨[⟨0, 5 / 4⟩], false⟩ := by gen_eval []
  have ha' : (0 : ℝ) < (a : ℝ) := by exact_mod_cast ha
  have hs : Real.sqrt ((a * a : ℚ) : ℝ) = a := by
    rw [Rat.cast_mul]
    exact Real.sqrt_mul_self ha'.le
  have heff : (tightCut a b name).efficacy = .fin ((5 / 4 - b / a : ℚ) : ℝ) := by
    simp only [tightCut, createCut, computeEfficacy, hopt, hdot, hs]
    rw [RDbl.div_pos ha']
    congr 1
    push_cast
    field_simp
  have hpar : (tightCut a b name).objectiveParallelism = .fin 1 := by
    simp only [tightCut, createCut, tightContext, hdot]
    rw [show (a * a * (-1 * -1) : ℚ) = a * a by ring, hs]
    rw [RDbl.div_pos ha']
    push_cast
    rw [mul_neg_one, abs_neg, abs_of_pos ha', div_self ha'.ne']
  have hn : (tightCut a b name).numNonZeros = 1 ∧ (tightCut a b name).numIntegers = 1 := ⟨rfl, rfl⟩
  simp [HybridSelector.computeCutScore, Setup.HybridMsg.read, heff, hpar, hn, RDbl.scale, RDbl.add]

/-- A scored cut. -/
noncomputable def scored (a b : ℚ) (name : String) : CutData :=
  (tightCut a b name).setScore (.fin (((5 / 4 - b / a : ℚ) : ℝ) + 1 / 10 + 1 / 10))

theorem scored_weak {l : List CutData} (h : ∀ c ∈ l, ∃ a b n, c = scored a b n) : HybridSelector.StrictWeak l := by
  left
  intro c hc
  obtain ⟨a, b, n, rfl⟩ := h c hc
  simp [HybridSelector.scoreOf, scored, CutData.setScore]

theorem pair_perm {α : Type} {l : List α} {a b : α} (h : l.Perm [a, b]) : l = [a, b] ∨ l = [b, a] := by
  obtain ⟨x, y, rfl⟩ := List.length_eq_two.1 h.length_eq
  rcases List.mem_pair.1 (h.subset (List.mem_cons_self ..)) with rfl | rfl
  · left
    rw [List.perm_singleton.1 ((List.perm_cons x).1 h).symm]
  · right
    rw [List.perm_singleton.1 ((List.perm_cons x).1 (h.trans (List.Perm.swap ..)))]

/-- The selector takes the MIR cut, whose score is larger, and drops the other, which is parallel. -/
theorem tight_select (sorter : HybridSelector.Sorter) (n1 n2 : String) :
    HybridSelector.selectCuttingPlanes sorter ({} : Setup.HybridMsg).read
      [tightCut (1 / 3) (1 / 6) n1, tightCut (1 / 2) (3 / 8) n2] = .ok [scored (1 / 3) (1 / 6) n1] := by
  have h1 := tight_score (a := 1 / 3) (b := 1 / 6) (by norm_num) n1
  have h2 := tight_score (a := 1 / 2) (b := 3 / 8) (by norm_num) n2
  have hweak : HybridSelector.StrictWeak [scored (1 / 3) (1 / 6) n1, scored (1 / 2) (3 / 8) n2] := by
    apply scored_weak
    intro c hc
    rcases List.mem_pair.1 hc with rfl | rfl
    · exact ⟨_, _, _, rfl⟩
    · exact ⟨_, _, _, rfl⟩
  have hsort : sorter.sort [scored (1 / 3) (1 / 6) n1, scored (1 / 2) (3 / 8) n2] =
      [scored (1 / 3) (1 / 6) n1, scored (1 / 2) (3 / 8) n2] := by
    have hp := sorter.perm [scored (1 / 3) (1 / 6) n1, scored (1 / 2) (3 / 8) n2]
    have hs := sorter.sorted [scored (1 / 3) (1 / 6) n1, scored (1 / 2) (3 / 8) n2] hweak
    rcases pair_perm hp with h | h
    · exact h
    · rw [h] at hs
      simp only [List.pairwise_cons, List.mem_singleton, forall_eq, HybridSelector.scoreOf, scored,
        CutData.setScore, Option.getD_some, RDbl.lt] at hs
      exact absurd (by push_cast; norm_num) hs.1
  have hkeep : HybridSelector.keep ({} : Setup.HybridMsg).read (scored (1 / 3) (1 / 6) n1)
      [scored (1 / 2) (3 / 8) n2] = [] := by
    have hdot : ∀ p q : ℚ, SparseVector.dotProduct ⟨[⟨0, p⟩], false⟩ ⟨[⟨0, q⟩], false⟩ = p * q := by
      intro p q
      simp [SparseVector.dotProduct, SparseVector.dotWalk]
    have s1 : Real.sqrt ((1 / 3 * (1 / 3) : ℚ) : ℝ) = 1 / 3 := by
      rw [Rat.cast_mul]; push_cast; exact Real.sqrt_mul_self (by norm_num)
    have s2 : Real.sqrt ((1 / 2 * (1 / 2) : ℚ) : ℝ) = 1 / 2 := by
      rw [Rat.cast_mul]; push_cast; exact Real.sqrt_mul_self (by norm_num)
    have hcos : HybridSelector.cosAngle (scored (1 / 3) (1 / 6) n1) (scored (1 / 2) (3 / 8) n2) = some 1 := by
      simp only [HybridSelector.cosAngle, HybridSelector.squaredNorm, scored, CutData.setScore, tightCut, createCut,
        List.map_cons, List.map_nil, List.sum_cons, List.sum_nil, add_zero, s1, s2, hdot]
      rw [if_neg (by norm_num)]
      norm_num
    have hf : (scored (1 / 2) (3 / 8) n2).forced = false := rfl
    simp only [HybridSelector.keep, List.filter_cons, List.filter_nil, HybridSelector.twoCutsAreOrthogonal, hf, hcos,
      Setup.HybridMsg.read]
    norm_num
  have hthr : ¬ (HybridSelector.scoreOf (scored (1 / 3) (1 / 6) n1)).lt
      (.fin (({} : Setup.HybridMsg).read).scoreThreshold) := by
    simp only [HybridSelector.scoreOf, scored, CutData.setScore, Option.getD_some, Setup.HybridMsg.read, RDbl.lt]
    norm_num
  have hnil : sorter.sort [] = [] := List.perm_nil.1 (sorter.perm [])
  have hmax : (({} : Setup.HybridMsg).read).maxNumCuts = -1 := rfl
  simp only [HybridSelector.selectCuttingPlanes, HybridSelector.scoreAll, h1, h2, Outcome.bind_ok, Outcome.pure_eq]
  show HybridSelector.selectLoop sorter _ [scored (1 / 3) (1 / 6) n1, scored (1 / 2) (3 / 8) n2] [] = _
  rw [HybridSelector.selectLoop, if_pos hweak]
  split
  · rename_i h; rw [hsort] at h; cases h
  · rename_i c rest h
    rw [hsort] at h
    simp only [List.cons.injEq] at h
    obtain ⟨rfl, rfl⟩ := h
    rw [if_neg hthr, hmax, if_neg (by simp), hkeep]
    rw [HybridSelector.selectLoop, if_pos (scored_weak (by simp))]
    split
    · rfl
    · rename_i h; rw [hnil] at h; cases h

/-! ### The run -/

/-- What `Create` makes of the problem. -/
structure TightCreated (c : Setup.Created) : Prop where
  lower : c.data.lower = [.fin 0]
  upper : c.data.upper = [.fin 9]
  integers : c.data.integerVariables = [0]
  integral : c.data.isIntegralConstraint = [true]
  objective : c.data.objective = ⟨[⟨0, -1⟩], false⟩
  tol : c.integralityTolerance = 0
  generators : c.runner.generators = [⟨100, true, true⟩]
  selector : c.runner.selector = ({} : Setup.HybridMsg).read
  rounds : c.runner.params.maxIterations = 1
  perNode : 0 < c.runner.params.maxNumCutsPerNode
  total : 0 < Runner.toSizeT c.runner.params.maxNumCutsTotal
  rule : c.rule = .maxFractional .unspecified
  backtrack : 1 ≤ c.backtrackLimit

/-- A solved Glop with the settings of the program. -/
structure Solved (lp : LinearProgram) (x : ℚ) (w : World) where
  session : Glop.Session
  glop : w.lp = .glop session
  program : session.iface.lp = lp
  tolerance : session.settings.primalTolerance = .fin (1 / 10 ^ 8)
  limit : session.settings.maxIterations = -1
  solved : session.isSolved = true
  optimal : session.status = .optimal
  go : Lp.stop (.glop session) = false
  point : w.report.point 0 = x
  value : w.report.objective = .fin (-x)

theorem Solved.primal {lp : LinearProgram} {x : ℚ} {w : World} (h : Solved lp x w) (hlen : lp.cols.length = 1) :
    w.primal = .ok [x] := by
  have := h.point
  simp only [Report.point] at this
  simp only [World.primal, h.glop, Glop.getPrimalValues, h.program, hlen, List.range_one, List.map_cons, List.map_nil]
  exact congrArg (fun q => Outcome.ok [q]) this

/-- The one round of cuts adds the MIR cut. -/
theorem tight_separate {e : Engine} (hret : e.GlopReturns) (hin : e.GlopInTime) (he : e.Right) {c : Setup.Created}
    (hc : TightCreated c) {w : World} (h : Solved tightLp (5 / 4) w) (hb : w.report.GlopBasic tightLp) :
    ∃ r name, separate e c { world := w } = .ok r ∧ r.numCutrounds = 1 ∧ Nonempty (Solved (cutLp 0 9 name) (1 / 2) r.world) := by
  obtain ⟨hb1, hb2, hb3⟩ := tight_basis hb h.point
  have hctx : context e c w = tightContext := by
    have hrow : Lp.sparseRow e w.lp = fun r : Nat => Glop.copyToSparse (Glop.transposedRow r 0 tightLp.cols) := by
      funext r
      simp only [Lp.sparseRow, h.glop, h.program]
    simp only [context, hc.integers, hc.integral, hc.objective, hc.tol, Lp.view, hrow]
    simp only [Lp.program, h.glop, h.program]
    rfl
  obtain ⟨n1, n2, hcuts⟩ := tight_cuts (s := World.view w) (y := w.report.activities.getD (fun _ => 0) 0)
    (by simp [World.view, h.glop, Lp.isSolved, h.solved])
    (by simp [World.view, h.glop, Lp.isOptimal, Glop.Session.isOptimal, h.optimal])
    (by simp [World.view, World.activities, Glop.getRowActivities, h.glop, h.program, tightLp])
    (by simpa [World.view] using h.primal rfl)
    (by
      simp only [World.view, World.basis, Glop.getColumnsAndRowsInBasis, h.glop, h.program]
      have hlen : w.report.basis.length = 1 := by simpa using congrArg List.length hb1
      rw [List.take_of_length_le (by rw [hlen]; decide)]
      rw [show (w.report.basis.map fun (col : Int) => if col < tightLp.cols.length then Glop.ColOrRow.col col
        else .row (col - tightLp.cols.length)) = [.col 0] from hb1]
      rfl)
    (by
      have hcol : collect (Glop.atLeast (1 / 10 ^ 8)) (fun i => Soplex.denseAt [1 / 2] i) tightLp.rows.length 0 {} =
          .ok tightWeights := by
        have h : Glop.atLeast (1 / 10 ^ 8) (1 / 2) = true := by norm_num [Glop.atLeast]
        simp only [collect, tightLp, List.length_singleton]
        rw [show Soplex.denseAt [1 / 2] ((0 : Nat) : Int) = .ok (1 / 2) from rfl]
        simp only [Outcome.bind_ok, h, if_true]
        gen_eval [tightWeights]
      simp only [World.view, World.inverseRow, h.glop, h.tolerance, Glop.getSparseRowOfBInverted, h.program]
      rcases hb3 with h | h
      · rw [h, hb2]
        rw [if_neg (by simp)]
        exact hcol
      · rw [h, hb2]
        rw [if_pos (by simp)]
        simp only [Soplex.addIndexed, show Soplex.denseAt [1 / 2] (0 : Int) = .ok (1 / 2) from rfl, Outcome.bind_ok]
        gen_eval [tightWeights])
  rw [← hctx] at hcuts
  have hmay : Runner.mayRun c.runner.params (plugins e c) { world := w } = true := by
    have h1 : Lp.stop w.lp = false := by rw [h.glop]; exact h.go
    have h2 : Lp.isSolved w.lp = true := by rw [h.glop]; exact h.solved
    have h3 := hc.perNode
    have h4 := hc.total
    simp only [Runner.mayRun, plugins, h1, h2, hc.rounds]
    rw [if_neg (by simp), if_neg (by simp), if_neg (by simp), if_neg (by simpa using h3), if_neg (by simpa using h4.ne')]
  -- the row
  have hadd : ∃ s', Lp.addRow w.lp ⟨(scored (1 / 3) (1 / 6) n1).row, .ninf, .fin (scored (1 / 3) (1 / 6) n1).rhs,
      (scored (1 / 3) (1 / 6) n1).name⟩ = .ok (.glop s') ∧ s'.iface.lp = cutLp 0 9 n1 ∧
      s'.settings = h.session.settings := by
    have h1 := h.program
    have h2 : ∃ g, Glop.addRow h.session.iface (scored (1 / 3) (1 / 6) n1).row .ninf
        (.fin (scored (1 / 3) (1 / 6) n1).rhs) (scored (1 / 3) (1 / 6) n1).name = .ok g ∧ g.lp = cutLp 0 9 n1 := by
      simp only [Glop.addRow, h1]
      exact ⟨_, rfl, rfl⟩
    obtain ⟨g, hg, hlp⟩ := h2
    refine ⟨{ h.session with iface := g }, ?_, hlp, rfl⟩
    simp only [Lp.addRow, h.glop, hg, Outcome.bind_ok, Outcome.pure_eq]
  obtain ⟨s', hadd, hs1, hs2⟩ := hadd
  obtain ⟨s3, hsol, hp3, hset3, hsolved3, hst3, hgo3, hans⟩ := glop_solve hret hin he
    (w := { w with lp := .glop s' }) (s := s') rfl (by rw [hs2]; exact h.limit)
  rw [hp3, hs1] at hans
  obtain ⟨ho, hpt, hv⟩ := (line_optimum (fun y => (cut_feasible 0 9 n1 y).1) (fun y => (cut_feasible 0 9 n1 y).2) rfl
    hans).1 (by norm_num)
  have hmin : min (9 : ℚ) (1 / 2) = 1 / 2 := by norm_num
  rw [hmin] at hpt hv
  have hround : ∃ r, Runner.round (plugins e c) { world := w } = .ok (r, true) ∧ r.numCutrounds = 1 ∧
      r.world = { w with lp := .glop s3, report := (e.glop w.solves s').2.2.2, solves := w.solves + 1 } := by
    have hgen : (plugins e c).generators = [fun w _ => do
      let cuts ← Generator.generateCuttingPlanes (context e c w) w.view [.mir, .strongCG] 100
      return (w, cuts)] := by
      simp only [plugins, hc.generators]
      rfl
    have hsel : (plugins e c).select w {} [tightCut (1 / 3) (1 / 6) n1, tightCut (1 / 2) (3 / 8) n2] =
        .ok (w, [scored (1 / 3) (1 / 6) n1]) := by
      simp only [plugins, hc.selector, tight_select, Outcome.bind_ok, Outcome.pure_eq]
    have hrow : (plugins e c).addRow w ⟨(scored (1 / 3) (1 / 6) n1).row, (plugins e c).infinity.neg,
      .fin (scored (1 / 3) (1 / 6) n1).rhs, (scored (1 / 3) (1 / 6) n1).name⟩ = .ok { w with lp := .glop s' } := by
      simp only [plugins, readLhs_neg, hadd, Outcome.bind_ok, Outcome.pure_eq]
    simp only [Runner.round, hgen, Runner.generate, hcuts, Outcome.bind_ok, Outcome.pure_eq, List.isEmpty_cons,
      Bool.false_eq_true, if_false, hsel, Runner.addAll, CutRegistry.addCut, CutData.setIndex, CutData.getIndex,
      List.append_nil, Runner.addRows, CutRegistry.getCut, List.nil_append, List.length_nil, Nat.cast_zero, lt_irrefl,
      Int.toNat_zero, List.getElem?_cons_zero, hrow]
    rw [show (plugins e c).solve = World.solve e from rfl, hsol]
    exact ⟨_, rfl, rfl, rfl⟩
  obtain ⟨r, hr1, hr2, hr3⟩ := hround
  refine ⟨r, n1, ?_, hr2, ⟨?_⟩⟩
  · have hmay' : Runner.mayRun c.runner.params (plugins e c) r = false := by
      simp only [Runner.mayRun, hr2, hc.rounds]
      split_ifs <;> simp_all
    unfold separate
    rw [hc.rounds]
    simp [Runner.separateFuel, hmay, hr1, hmay']
  · rw [hr3]
    exact ⟨s3, rfl, hp3.trans hs1, by rw [hset3, hs2]; exact h.tolerance, by rw [hset3, hs2]; exact h.limit, hsolved3,
      ho, hgo3 ho, hpt, hv⟩

/-- Solving a node after the round of cuts. -/
theorem cut_node {e : Engine} (hret : e.GlopReturns) (hin : e.GlopInTime) (he : e.Right) {c : Setup.Created}
    (hc : TightCreated c) {r : Runner World} {s : Glop.Session} {l' u' : ℚ} {name : String} (hr : r.world.lp = .glop s)
    (hp : s.iface.lp = cutLp l' u' name) (hlim : s.settings.maxIterations = -1) (hn : r.numCutrounds = 1) (l u : ℚ) :
    ∃ r' s', Solver.solveNode (oracle e c) c.data [.fin l] [.fin u] r = .ok r' ∧ r'.world.lp = .glop s' ∧
      s'.iface.lp = cutLp l u name ∧ s'.settings.maxIterations = -1 ∧ r'.numCutrounds = 1 ∧
      (l ≤ min u (1 / 2) → (oracle e c).isOptimal r' = true ∧ (oracle e c).primal r' = .ok [min u (1 / 2)] ∧
        (oracle e c).objective r' = .fin (-min u (1 / 2))) ∧
      (min u (1 / 2) < l → (oracle e c).isOptimal r' = false) := by
  obtain ⟨s1, hb, hs1, hset1⟩ := glop_bounds (e := e) (c := c) hr (by rw [hp]; rfl) (.fin l) (.fin u)
  rw [hp, show (cutLp l' u' name).withBounds 0 (.fin l) (.fin u) = cutLp l u name from rfl] at hs1
  obtain ⟨s2, hsol, hp2, hset2, -, hst2, -, hans⟩ := glop_solve hret hin he
    (w := { r.world with lp := .glop s1 }) (s := s1) rfl (by rw [hset1]; exact hlim)
  rw [hp2, hs1] at hans
  have hopt := line_optimum (fun y => (cut_feasible l u name y).1) (fun y => (cut_feasible l u name y).2) rfl hans
  set r2 : Runner World := { r with world := { r.world with lp := .glop s2, report := (e.glop r.world.solves s1).2.2.2, solves := r.world.solves + 1 } } with hr2
  have hsep : separate e c r2 = .ok r2 := by
    have hmay' : Runner.mayRun c.runner.params (plugins e c) r2 = false := by
      simp only [Runner.mayRun, hr2, hn, hc.rounds]
      split_ifs <;> simp_all
    unfold separate
    simp [Runner.separateFuel, hmay']
  refine ⟨r2, s2, ?_, rfl, hp2.trans hs1, by rw [hset2, hset1]; exact hlim, hn, fun h => ?_, fun h => ?_⟩
  · unfold Solver.solveNode
    rw [hc.integers, hb]
    have hs : (oracle e c).solve { r with world := { r.world with lp := .glop s1 } } = .ok r2 := by
      simp only [oracle, hsol, Outcome.bind_ok, Outcome.pure_eq]
      rfl
    simp only [Outcome.bind_ok, hs, Outcome.orAbort]
    rw [show (oracle e c).separate = separate e c from rfl, hsep]
    split <;> rfl
  · obtain ⟨h1, h2, h3⟩ := hopt.1 h
    refine ⟨by simp [oracle, r2, Lp.isOptimal, Glop.Session.isOptimal, h1], ?_, h3⟩
    simp only [Report.point] at h2
    show World.primal r2.world = _
    simp only [World.primal, r2, Glop.getPrimalValues, hp2, hs1]
    exact congrArg (fun q => Outcome.ok [q]) h2
  · have := hopt.2 h
    simp [oracle, r2, Lp.isOptimal, Glop.Session.isOptimal, this]

/-- The tree. -/
theorem tight_tree : ∃ t1 t2 t3 t4 t5, MipTree.init.setLpData 0 (.fin (-(1 / 2))) = .ok t1 ∧
    t1.addNode 0 0 true (.fin (1 / 2)) = .ok (t2, 1) ∧ t2.addNode 0 0 false (.fin (1 / 2)) = .ok (t3, 2) ∧
    (t3.retrieveLower 2 [.fin 0] = .ok [.fin 1] ∧ t3.retrieveUpper 2 [.fin 9] = .ok [.fin 9]) ∧ t3.close 2 = .ok t4 ∧
    (t4.retrieveLower 1 [.fin 0] = .ok [.fin 0] ∧ t4.retrieveUpper 1 [.fin 9] = .ok [.fin 0]) ∧
    t4.setLpData 1 (.fin (-0)) = .ok t5 := by
  have h : (match MipTree.init.setLpData 0 (.fin (-(1 / 2))) with
    | .ok t1 => match t1.addNode 0 0 true (.fin (1 / 2)) with
      | .ok (t2, i) => match t2.addNode 0 0 false (.fin (1 / 2)) with
        | .ok (t3, j) => match t3.close 2 with
          | .ok t4 => match t4.setLpData 1 (.fin (-0)) with
            | .ok _ => decide (i = 1) && decide (j = 2) &&
              decide (t3.retrieveLower 2 [.fin 0] = .ok [.fin 1]) &&
              decide (t3.retrieveUpper 2 [.fin 9] = .ok [.fin 9]) &&
              decide (t4.retrieveLower 1 [.fin 0] = .ok [.fin 0]) &&
              decide (t4.retrieveUpper 1 [.fin 9] = .ok [.fin 0])
            | _ => false
          | _ => false
        | _ => false
      | _ => false
    | _ => false) = true := by decide +kernel
  split at h <;> try cases h
  rename_i t1 h1
  split at h <;> try cases h
  rename_i t2 i h2
  split at h <;> try cases h
  rename_i t3 j h3
  split at h <;> try cases h
  rename_i t4 h4
  split at h <;> try cases h
  rename_i t5 h5
  simp only [Bool.and_eq_true, decide_eq_true_eq] at h
  obtain ⟨⟨⟨⟨⟨rfl, rfl⟩, h6⟩, h7⟩, h8⟩, h9⟩ := h
  exact ⟨t1, t2, t3, t4, t5, h1, h2, h3, ⟨h6, h7⟩, h4, ⟨h8, h9⟩, h5⟩

theorem tight_branch (unset : Int) :
    Branching.maxFractional unset .unspecified 0 [0] (.ok [1 / 2]) = .ok (0, true) := by
  have h1 : Generator.isIntegerWithinTolerance 0 (1 / 2) = false := by decide +kernel
  have h2 : |(1 / 2 : ℚ) - ⌊(1 / 2 : ℚ)⌋| = 1 / 2 := by
    have : ⌊(1 / 2 : ℚ)⌋ = 0 := by rw [Int.floor_eq_iff]; norm_num
    rw [this]; norm_num
  have h3 : vecGet [(1 / 2 : ℚ)] 0 = .ok (1 / 2) := rfl
  simp only [Branching.maxFractional, Branching.scan, h3, Outcome.bind_ok, h1, h2]
  norm_num

/-- The result before the status is set. -/
def found : SolveResult := ({} : SolveResult).addSolution ⟨[0], .fin (-0)⟩

/-- The run ends in the fourth iteration with `x = 0`. -/
theorem tight_run {e : Engine} (hret : e.GlopReturns) (hin : e.GlopInTime) (he : e.Right) (hbas : e.GlopBasic)
    {c : Setup.Created} (hc : TightCreated c) {set : Glop.Settings} {g : Glop.Interface} (hl : c.lpi = .glop set g)
    (hg : g.lp = tightLp) (htol : set.primalTolerance = .fin (1 / 10 ^ 8)) (hlim : set.maxIterations = -1) :
    ∃ s, solve e c 4 = some (.ok s) ∧ s.result.solveStatus = some .optimal ∧ s.result.best = ⟨[0], .fin (-0)⟩ := by
  obtain ⟨t1, t2, t3, t4, t5, ht1, ht2, ht3, ht4, ht5, ht6, ht7⟩ := tight_tree
  -- the root
  obtain ⟨s1, hb1, hs1, hset1⟩ := glop_bounds (e := e) (c := c) (r := { world := { lp := start c.lpi } })
    (s := { iface := g, settings := set }) (by rw [hl]; rfl) (by show g.lp.cols.length = 1; rw [hg]; rfl) (.fin 0) (.fin 9)
  rw [show (Glop.Interface.lp _) = tightLp from hg, show tightLp.withBounds 0 (.fin 0) (.fin 9) = tightLp from rfl] at hs1
  obtain ⟨s2, hsol, hp2, hset2, hsolved2, hst2, hgo2, hans⟩ := glop_solve hret hin he
    (w := { lp := .glop s1 }) (s := s1) rfl (by rw [hset1]; exact hlim)
  rw [hp2, hs1] at hans
  obtain ⟨ho, hpt, hv⟩ := (line_optimum (fun y => (tight_feasible y).1) (fun y => (tight_feasible y).2) rfl hans).1
    (by norm_num)
  have hbasic := hbas 0 s1 (hst2.symm.trans ho)
  rw [hs1] at hbasic
  obtain ⟨r3, name, hsep, hn3, ⟨h3⟩⟩ := tight_separate hret hin he hc
    (w := { lp := .glop s2, report := (e.glop 0 s1).2.2.2, solves := 1 })
    ⟨s2, rfl, hp2.trans hs1, by rw [hset2, hset1]; exact htol, by rw [hset2, hset1]; exact hlim, hsolved2, ho, hgo2 ho,
      hpt, hv⟩ hbasic
  have hnode : Solver.solveNode (oracle e c) c.data [.fin 0] [.fin 9] { world := { lp := start c.lpi } } = .ok r3 := by
    have hs : (oracle e c).solve { world := { lp := .glop s1 } } =
        .ok { world := { lp := .glop s2, report := (e.glop 0 s1).2.2.2, solves := 1 } } := by
      simp only [oracle, hsol, Outcome.bind_ok, Outcome.pure_eq]
    have hopt : (oracle e c).isOptimal
        { world := { lp := .glop s2, report := (e.glop 0 s1).2.2.2, solves := 1 } } = true := by
      simp [oracle, Lp.isOptimal, Glop.Session.isOptimal, ho]
    unfold Solver.solveNode
    rw [hc.integers, hb1]
    simp only [Outcome.bind_ok, hs, Outcome.orAbort, hopt, if_true]
    rw [show (oracle e c).separate = separate e c from rfl, hsep]
  have hopt3 : (oracle e c).isOptimal r3 = true := by
    simp [oracle, h3.glop, Lp.isOptimal, Glop.Session.isOptimal, h3.optimal]
  have hprim3 : (oracle e c).primal r3 = .ok [1 / 2] := h3.primal rfl
  have hobj3 : (oracle e c).objective r3 = .fin (-(1 / 2)) := h3.value
  have hbr : (oracle e c).branch r3 = .ok (r3, 0, true) := by
    have h := tight_branch e.unset
    simp only [oracle, branch, hc.rule, direction, hc.tol, hc.integers, MipData.HashOrder.apply_singleton,
      h3.primal (rfl : (cutLp 0 9 name).cols.length = 1),
      h, Outcome.bind_ok, Outcome.pure_eq]
  have hhalf : c.data.solutionIsIntegral [1 / 2] 0 = .ok false := by
    unfold MipData.solutionIsIntegral
    rw [hc.integers]
    decide +kernel
  have hzero : c.data.solutionIsIntegral [0] 0 = .ok true := by
    unfold MipData.solutionIsIntegral
    rw [hc.integers]
    decide +kernel
  have htol' : (params c).tol = 0 := hc.tol
  have hi1 : Solver.iterate (oracle e c) c.data (params c) (Solver.initial { world := { lp := start c.lpi } }) =
      .ok (.again { queue := [2, 1], backjump := false, infeasible := 0, tree := t3, result := {}, world := r3 }) := by
    have hl0 : MipTree.init.retrieveLower 0 [.fin 0] = .ok [.fin 0] := by decide +kernel
    have hu0 : MipTree.init.retrieveUpper 0 [.fin 9] = .ok [.fin 9] := by decide +kernel
    have hvg : vecGet [(1 / 2 : ℚ)] (0 : Int) = .ok (1 / 2) := by decide +kernel
    unfold Solver.iterate
    simp only [Solver.initial, Solver.pop, if_true, List.getLast?_singleton, List.dropLast_singleton, hc.lower,
      hc.upper, hl0, hu0, Outcome.bind_ok, hnode, hopt3]
    unfold Solver.optimalNode
    simp only [hobj3, ht1, Outcome.bind_ok, hprim3, Outcome.orAbort, htol', hhalf, Bool.false_eq_true, if_false,
      Solver.branchNode, hbr, hvg, ht2, ht3]
    rfl
  -- the child `1 ≤ x`
  obtain ⟨r4, s4, hn4, hr4, hp4, hl4, hc4, -, hinf⟩ := cut_node hret hin he hc h3.glop h3.program h3.limit hn3 1 9
  have hinf := hinf (by norm_num)
  have hi2 : Solver.iterate (oracle e c) c.data (params c)
      { queue := [2, 1], backjump := false, infeasible := 0, tree := t3, result := {}, world := r3 } =
      .ok (.again { queue := [1], backjump := false, infeasible := 1, tree := t4, result := {}, world := r4 }) := by
    have hk : ¬ (0 : Int) + 1 > (params c).backtrackLimit := by
      have := hc.backtrack
      simp only [params]
      omega
    unfold Solver.iterate
    simp only [Solver.pop, Bool.false_eq_true, if_false, hc.lower, hc.upper, ht4.1, ht4.2, Outcome.bind_ok, hn4, hinf,
      Solver.infeasibleNode, ht5, if_neg hk]
    rfl
  -- the child `x ≤ 0`
  obtain ⟨r5, s5, hn5, -, -, -, -, hopt5, -⟩ := cut_node hret hin he hc hr4 hp4 hl4 hc4 0 0
  obtain ⟨hopt5, hprim5, hobj5⟩ := hopt5 (by norm_num)
  rw [show min (0 : ℚ) (1 / 2) = 0 by norm_num] at hprim5 hobj5
  have hi3 : Solver.iterate (oracle e c) c.data (params c)
      { queue := [1], backjump := false, infeasible := 1, tree := t4, result := {}, world := r4 } =
      .ok (.again { backjump := true, infeasible := 0, queue := [], tree := t5, result := found, world := r5 }) := by
    unfold Solver.iterate
    simp only [Solver.pop, Bool.false_eq_true, if_false, hc.lower, hc.upper, ht6.1, ht6.2, Outcome.bind_ok, hn5, hopt5,
      if_true, Solver.optimalNode, hobj5, ht7, hprim5, Outcome.orAbort, htol', hzero]
    rfl
  refine ⟨⟨[], true, 0, t5, { found with solveStatus := some .optimal }, r5⟩, ?_, rfl, ?_⟩
  · simp only [solve, Solver.solveFuel, hi1, hi2, hi3]
    rfl
  · rfl

theorem tight_spec : tight.WellFormed ∧ FiniteIntegers tight ∧ Bounded tight ∧ NonnegativeIntegers tight ∧
    tight.Feasible (fun _ => 1) := by
  refine ⟨?_, ?_, ⟨5 / 4, ?_⟩, ?_, ?_, ?_⟩
  · simp [Problem.WellFormed, tight, Variable.WellFormed, Constraint.WellFormed, Ordered, Dbl.le]
  · intro v hv _
    simp [tight] at hv
    subst hv
    exact ⟨_, _, rfl, rfl⟩
  · rintro y ⟨-, h2⟩
    have hx := h2 _ (List.mem_singleton.2 rfl)
    simp [Between, Dbl.le, Constraint.activity] at hx
    simp [tight, Problem.userObjective, objectiveFrom]
    linarith
  · intro v hv _
    simp [tight] at hv
    subst hv
    rfl
  · intro n v hv
    match n with
    | 0 => simp [tight] at hv; subst hv; exact ⟨by norm_num [Between], fun _ => ⟨1, by simp⟩⟩
    | n + 1 => simp [tight] at hv
  · intro k hk
    simp [tight] at hk
    subst hk
    norm_num [Between, Constraint.activity, Dbl.le]

/-- **C75 fails** with one round of cuts if a constraint has a fractional side.  `max x`, `2 x ≤ 5/2`, `0 ≤ x ≤ 9`,
`x` integer satisfies every hypothesis of `C83_one_round_total_correctness_partial` but integral sides, and `x = 1` is optimal.
Whatever Glop that answers rightly, returns, keeps a basis and stops at no limit, and whatever `std::sort`: the
slack of the constraint is taken for integral (mip_data.cc), the generator derives `x / 3 ≤ 1 / 6` from the LP
optimum `5/4` of the root, and `Solve` reports `x = 0` as optimal. -/
theorem C75_fractional_side_violated :
    (tight.WellFormed ∧ FiniteIntegers tight ∧ Bounded tight ∧ NonnegativeIntegers tight ∧
      tight.Feasible (fun _ => 1)) ∧ AsksOneRound oneRoundUser ∧
    (∃ x c, Setup.create x tight oneRoundUser = .ok c) ∧
    ∀ x c, Setup.create x tight oneRoundUser = .ok c →
      ∀ e : Engine, e.Right → e.GlopReturns → e.GlopBasic → e.GlopInTime →
        ∃ s, solve e c 4 = some (.ok s) ∧ s.result.solveStatus = some .optimal ∧
          tight.userObjective (point s.result.best.values) < tight.userObjective (fun _ => 1) := by
  refine ⟨tight_spec, ⟨⟨1, le_refl _, rfl⟩, by simp [oneRoundUser]⟩, ⟨Setup.exExternal, ?_⟩, ?_⟩
  · have htakes : Setup.GlopTakes (oneRoundUser.lp.getD {}).read := by
      refine ⟨⟨?_, ?_, ?_, ?_, ?_, ?_, ?_, ?_⟩, rfl, ?_, ?_, rfl, rfl⟩ <;>
        simp [oneRoundUser, Setup.LpMsg.read, ToleranceOk]
    exact (Setup.C73_glop_partial _ tight tight_spec.1 oneRoundUser _ (Setup.lpWins _) rfl).1 htakes
  intro x c hc e he hret hbas hin
  obtain ⟨-, hd, -, hrun, hrule, htol, hback⟩ := Setup.create_ok hc
  obtain ⟨hlo, hup, hint, hintc, hobj, hlp⟩ := tight_created hd
  obtain ⟨set, g, hl, hg, htol', hmax⟩ := default_glop hc rfl
  have hT : TightCreated c := by
    refine ⟨hlo, hup, hint, hintc, hobj, htol, ?_, ?_, ?_, ?_, ?_, ?_, ?_⟩
    · rw [hrun]; rfl
    · rw [hrun]
    · rw [hrun]; rfl
    · rw [hrun]; decide
    · rw [hrun]; decide +kernel
    · rw [hrule]; rfl
    · rw [hback.2]; decide
  obtain ⟨s, h1, h2, h3⟩ := tight_run hret hin he hbas hT hl (hlp _ _ hg) htol' hmax
  refine ⟨s, h1, h2, ?_⟩
  rw [h3]
  simp [tight, Problem.userObjective, objectiveFrom, point]

/-- Such LP code exists. -/
example : perfect.Right ∧ perfect.GlopReturns ∧ perfect.GlopBasic ∧ perfect.GlopInTime :=
  ⟨perfect_spec.1, perfect_spec.2, perfect_basic.1, perfect_inTime⟩

end Program
end MiniMip
