import Verif.Props.DebugRun
import Verif.Props.DebugRound
import Verif.Props.ProgramRoundIntegral

/-!
# C120: a run on which the release build is right and the debug build aborts
-/

namespace MiniMip
namespace Program

variable {hash : MipData.HashOrder}

open Glop (LinearProgram)

/-- `max x`, `2 x + y ≤ 4`, `0 ≤ x ≤ 9`, `1 ≤ y ≤ 9`, both integer. -/
def plainProblem : Problem :=
  { vars := [{ name := "x", objective := 1, lower := .fin 0, upper := .fin 9, isInteger := true },
      { name := "y", objective := 0, lower := .fin 1, upper := .fin 9, isInteger := true }]
    constraints := [{ name := "c", varIndices := [0, 1], coefficients := [2, 1], rhs := .fin 4 }]
    isMaximization := true }

/-- Its LP. -/
def plainLp : LinearProgram :=
  { cols := [⟨.fin 0, .fin 9, -1, "x", [⟨0, 2⟩]⟩, ⟨.fin 1, .fin 9, 0, "y", [⟨0, 1⟩]⟩], rows := [⟨.ninf, .fin 4, "c"⟩] }

theorem plain_created {d : MipData} (hd : MipData.ofProblem hash plainProblem = .ok d) :
    d.lower = [.fin 0, .fin 1] ∧ d.upper = [.fin 9, .fin 9] ∧ (∀ j, j ∈ d.integerVariables ↔ j ∈ [(0 : Int), 1]) ∧
    d.isIntegralConstraint = [true] ∧ d.objective = ⟨[⟨0, -1⟩], false⟩ ∧
    ∀ b g, Glop.populateFromMipData { useScaling := b } d = .ok g → g.lp = plainLp := by
  obtain ⟨d₀, hd₀, rfl⟩ := MipData.ofProblem_order hd
  have h : (match MipData.ofProblem .id plainProblem with
    | .ok d => decide (d.lower = [.fin 0, .fin 1]) && decide (d.upper = [.fin 9, .fin 9]) &&
        decide (d.integerVariables = [0, 1]) &&
        decide (d.isIntegralConstraint = [true]) && decide (d.objective = ⟨[⟨0, -1⟩], false⟩) &&
        [true, false].all fun b => (match Glop.populateFromMipData { useScaling := b } d with
          | .ok g => decide (g.lp = plainLp)
          | _ => true)
    | _ => false) = true := by decide +kernel
  rw [hd₀] at h
  simp only [Bool.and_eq_true, decide_eq_true_eq, List.all_eq_true] at h
  obtain ⟨⟨⟨⟨⟨h1, h2⟩, h3⟩, h4⟩, h6⟩, h5⟩ := h
  refine ⟨h1, h2, fun j => ?_, h4, h6, fun b g hg => ?_⟩
  · show j ∈ hash.apply d₀.integerVariables ↔ _
    rw [(hash.perm _).mem_iff, h3]
  · have := h5 b (by cases b <;> simp)
    rw [Glop.populateFromMipData_order] at hg
    rw [hg] at this
    simpa using this

/-- What the generator reads in the root node. -/
def plainContext : GenContext where
  lp := { rows := [⟨[⟨0, 2⟩, ⟨1, 1⟩], false⟩], lhs := [.ninf], rhs := [.fin 4], lower := [.fin 0, .fin 1],
          upper := [.fin 9, .fin 9] }
  isInteger := fun j => decide (j ∈ [(0 : Int), 1])
  integralRow := [true]
  objective := ⟨[⟨0, -1⟩], false⟩
  tol := 1 / 10 ^ 6

/-- The row of the inverse. -/
def plainWeights : SparseVector := ⟨[⟨0, 1 / 2⟩], false⟩

/-- The aggregated row `x + y / 2 + s / 2 = 2`. -/
def plainAgg : AggRow where
  vars := ⟨[⟨0, 1⟩, ⟨1, 1 / 2⟩], false⟩
  slackCoefs := ⟨[⟨0, 1 / 2⟩], false⟩
  slackSigns := ⟨[⟨0, 1⟩], false⟩
  sideValues := ⟨[⟨0, 4⟩], false⟩
  rhs := some 2

open Generator in
theorem plain_round : aggregateByWeight plainContext.lp plainWeights [true] = .ok plainAgg ∧
    toNonNegative plainContext.lp plainAgg = .ok (plainAgg, true) ∧
    (∃ r, roundOne plainContext plainAgg .mir = .ok r) ∧
    debugStrongCGRound plainContext plainAgg = .abort := by
  refine ⟨?_, ?_, ?_, ?_⟩
  · gen_eval [plainContext, plainAgg, plainWeights]
  · gen_eval [plainContext, plainAgg, plainWeights]
  · exact ⟨_, by gen_eval [plainContext, plainAgg]; rfl⟩
  · rw [C120_strong_cg, if_pos]
    refine ⟨by gen_eval [plainContext, plainAgg], by gen_eval [plainContext, plainAgg], .inl ?_⟩
    intro b hb
    cases hb
    gen_eval [plainContext]

open Generator in
theorem plain_rounds (x : SparseVector) : debugRoundAll plainContext x plainAgg 0 [.mir, .strongCG] = .abort := by
  obtain ⟨-, -, ⟨r, hr⟩, hcg⟩ := plain_round
  have h2 : ∀ n, debugRoundAll plainContext x plainAgg n [.strongCG] = .abort := by
    intro n
    simp [debugRoundAll, debugRoundOne, Rounder.debugRound, hcg]
  have h1 : debugRoundOne plainContext plainAgg .mir = .ok r := hr
  unfold debugRoundAll
  rw [h1, Outcome.bind_ok]
  cases r with
  | none => exact h2 0
  | some y =>
    simp only
    split
    · rcases below_create plainContext.objective plainContext.isInteger x y.1 y.2 (Rounder.mir.name ++ toString 0) false with h | h
      · simp only [h]; rfl
      · simp only [h, Outcome.bind_ok, h2]; rfl
    · exact h2 0

open Generator in
/-- The assertion fails in the generator. -/
theorem plain_generate {s : SolverView} (h1 : s.isSolved = true) (h2 : s.isOptimal = true)
    {y : ℚ} (h3 : s.activities = .ok [y]) (h4 : s.primal = .ok [3 / 2, 1]) (h5 : s.basis = [some 0])
    (h6 : s.bInverted 0 = .ok plainWeights) : debugGenerate plainContext s [.mir, .strongCG] 100 = .abort := by
  obtain ⟨ha, ha', -, -⟩ := plain_round
  have hside : debugChooseSides plainContext.lp 0 [y] = .ok [true] := by
    gen_eval [debugChooseSides, plainContext, Outcome.check]
  have hw : rowWeights plainWeights = plainWeights := by gen_eval [plainWeights]
  have hnear : isIntegerWithinTolerance plainContext.tol ((SparseVector.ofDense [3 / 2, 1]).value 0) = false := by
    gen_eval [plainContext]
  have hrow : debugTableauRow plainContext s [.mir, .strongCG] [true] (SparseVector.ofDense [3 / 2, 1]) 0 = .abort := by
    have hb : listAt s.basis ((0 : Nat) : Int) = .ok (some 0) := by rw [h5]; rfl
    have hi : plainContext.isInteger 0 = true := rfl
    simp only [debugTableauRow, hb, Outcome.bind_ok, hi, Bool.not_true, Bool.false_eq_true, if_false, hnear, h6, hw, ha, ha',
      plain_rounds]
  simp only [debugGenerate, h1, h2, h3, hside, h4, Outcome.bind_ok, Bool.not_true, Bool.false_eq_true, if_false]
  rw [if_neg (by norm_num)]
  show debugTableauLoop plainContext s _ 100 _ _ 1 0 [] = _
  simp [debugTableauLoop, hrow]

theorem plain_feasible (y : Int → ℚ) :
    (plainLp.Feasible y ↔ (0 ≤ y 0 ∧ y 0 ≤ 9) ∧ (1 ≤ y 1 ∧ y 1 ≤ 9) ∧ 2 * y 0 + y 1 ≤ 4) ∧ plainLp.value y = -y 0 ∧
    plainLp.activity 0 y = 2 * y 0 + y 1 := by
  have hact : plainLp.activity 0 y = 2 * y 0 + y 1 := by
    simp [LinearProgram.activity, LinearProgram.coefficient, plainLp, SparseVector.sumAt, Finset.sum_range_succ]
  refine ⟨⟨fun ⟨h1, h2⟩ => ?_, fun ⟨h1, h2, h3⟩ => ⟨?_, ?_⟩⟩, ?_, hact⟩
  · have hx := h1 0 _ rfl
    have hy := h1 1 _ rfl
    have h2 := h2 0 _ rfl
    rw [hact] at h2
    simp only [Between, Dbl.le] at hx hy h2
    simp_all
  · intro n col hn
    match n with
    | 0 =>
      cases hn
      simp [Between, Dbl.le]
      exact h1
    | 1 =>
      cases hn
      simp [Between, Dbl.le]
      exact h2
    | n + 2 => simp [plainLp] at hn
  · intro n row hn
    match n with
    | 0 =>
      cases hn
      rw [hact]
      simp [Between, Dbl.le]
      linarith
    | n + 1 => simp [plainLp] at hn
  · simp [LinearProgram.value, plainLp, Finset.sum_range_succ]

/-- What a right answer says about the LP. -/
theorem plain_optimum {opt : Prop} {r : Report} (h : RightAnswer plainLp opt r) :
    opt ∧ (opt → r.point 0 = 3 / 2 ∧ r.point 1 = 1) := by
  obtain ⟨h1, h2⟩ := h
  have hf : plainLp.Feasible fun j => if j = 0 then 3 / 2 else 1 := (plain_feasible _).1.2 (by norm_num)
  constructor
  · by_contra hn
    rcases h2 hn with h2 | h2
    · exact h2 _ hf
    · obtain ⟨y, hy, hv⟩ := h2 (-10)
      rw [(plain_feasible y).1] at hy
      rw [(plain_feasible y).2.1] at hv
      simp [plainLp] at hv
      linarith [hy.1.2]
  · intro ho
    obtain ⟨hp, -, hb⟩ := h1 ho
    have := hb _ hf
    rw [(plain_feasible _).2.1, (plain_feasible _).2.1] at this
    rw [(plain_feasible _).1] at hp
    simp [plainLp] at this
    exact ⟨by linarith [hp.2.1.1, hp.2.2], by linarith [hp.2.1.1, hp.2.2]⟩

/-- Its basis and the inverse of the matrix. -/
theorem plain_basis {r : Report} (h : r.GlopBasic plainLp) (hx : r.point 0 = 3 / 2) :
    r.basis.map (glopElement plainLp) = [.col 0] ∧
    (r.glopInverse 0).values = [1 / 2] ∧ ((r.glopInverse 0).nonZeros = [] ∨ (r.glopInverse 0).nonZeros = [0]) := by
  have hlen := h.basic.length
  have hin : Glop.ColOrRow.col (0 : Nat) ∈ r.basis.map (glopElement plainLp) := by
    by_contra hn
    have := h.basic.cols 0 _ rfl hn
    simp only [Basic.AtBound, Nat.cast_zero, hx] at this
    norm_num at this
  have hb : r.basis.map (glopElement plainLp) = [.col 0] := by
    obtain ⟨b, hb⟩ := List.length_eq_one_iff.1 (hlen.trans rfl)
    rw [hb] at hin ⊢
    simpa [eq_comm] using hin
  have hok := h.shape 0 (by decide)
  obtain ⟨v, hv⟩ := List.length_eq_one_iff.1 (hok.length.trans (rfl : plainLp.rows.length = 1))
  have hinv := h.basic.inverse 0 (by decide) 0 (.col 0) (by rw [hb]; rfl)
  rw [show plainLp.rows.length = 1 from rfl, Finset.sum_range_one, hv] at hinv
  have hent : plainLp.basisEntry 0 (.col 0) = 2 := by
    simp [LinearProgram.basisEntry, LinearProgram.coefficient, plainLp, SparseVector.sumAt]
  rw [hent] at hinv
  simp at hinv
  have hv2 : v = 1 / 2 := by linarith
  subst hv2
  refine ⟨hb, hv, ?_⟩
  rcases hok.nonZeros with h1 | ⟨h1, h2, h3⟩
  · exact Or.inl h1
  · right
    have h0 : (0 : Int) ∈ (r.glopInverse 0).nonZeros := by
      by_contra hn
      have := h3 0 hn
      rw [hv] at this
      simp at this
    have hall : ∀ i ∈ (r.glopInverse 0).nonZeros, i = 0 := by
      intro i hi
      obtain ⟨ha, hb⟩ := h2 i hi
      rw [show plainLp.rows.length = 1 from rfl] at hb
      omega
    match hl : (r.glopInverse 0).nonZeros with
    | [] => rw [hl] at h0; simp at h0
    | [i] => rw [hl] at hall; simpa using hall
    | i :: j :: l =>
      rw [hl] at hall h1
      simp at hall h1
      omega

theorem plain_collect : collect (Glop.atLeast (1 / 10 ^ 8)) (fun i => Soplex.denseAt [1 / 2] i) plainLp.rows.length 0 {} =
    .ok plainWeights := by
  have h : Glop.atLeast (1 / 10 ^ 8) (1 / 2) = true := by norm_num [Glop.atLeast]
  simp only [collect, plainLp, List.length_singleton]
  rw [show Soplex.denseAt [1 / 2] ((0 : Nat) : Int) = .ok (1 / 2) from rfl]
  simp only [Outcome.bind_ok, h, if_true]
  simp [SparseVector.addEntry, SparseVector.lastIndex, plainWeights]

theorem plain_indexed : Soplex.addIndexed [1 / 2] {} [0] = .ok plainWeights := by
  have h : Soplex.denseAt [1 / 2] 0 = .ok (1 / 2) := rfl
  simp only [Soplex.addIndexed, h, Outcome.bind_ok]
  simp [SparseVector.addEntry, SparseVector.lastIndex, plainWeights]

/-- Setting the bounds that are already there. -/
theorem plain_bounds (e : Engine) (c : Setup.Created) (s : Glop.Settings) : ∀ (l : List Int), (∀ j ∈ l, j ∈ [(0 : Int), 1]) →
    ∀ g : Glop.Interface, g.lp = plainLp → ∃ g1 : Glop.Interface, g1.lp = plainLp ∧
      Solver.applyBounds (oracle e c) [.fin 0, .fin 1] [.fin 9, .fin 9]
        { world := { lp := .glop { iface := g, settings := s } } } l =
      .ok { world := { lp := .glop { iface := g1, settings := s } } } := by
  intro l
  induction l with
  | nil => exact fun _ g hg => ⟨g, hg, rfl⟩
  | cons j l ih =>
    intro hl g hg
    have hj := hl j (by simp)
    have ih := ih fun k hk => hl k (by simp [hk])
    simp only [List.mem_cons, List.not_mem_nil, or_false] at hj
    have key : ∀ (a b : Dbl), 0 ≤ j → j < 2 → vecGet [Dbl.fin 0, .fin 1] j = .ok a → vecGet [Dbl.fin 9, .fin 9] j = .ok b →
        plainLp.withBounds j.toNat a b = plainLp → ∃ g1 : Glop.Interface, g1.lp = plainLp ∧
      Solver.applyBounds (oracle e c) [.fin 0, .fin 1] [.fin 9, .fin 9]
        { world := { lp := .glop { iface := g, settings := s } } } (j :: l) =
      .ok { world := { lp := .glop { iface := g1, settings := s } } } := by
      intro a b h0 h2 ha hb hw
      obtain ⟨g', hg', hlp⟩ : ∃ g', Glop.setColumnBounds g j a b = .ok g' ∧ g'.lp = plainLp := by
        refine ⟨_, if_pos ⟨h0, by rw [hg]; exact h2⟩, ?_⟩
        show g.lp.withBounds j.toNat a b = _
        rw [hg]; exact hw
      obtain ⟨g1, h1, h2⟩ := ih g' hlp
      refine ⟨g1, h1, ?_⟩
      unfold Solver.applyBounds
      simp only [ha, hb, Outcome.bind_ok]
      have : (oracle e c).setBounds { world := { lp := .glop { iface := g, settings := s } } } j a b =
          .ok { world := { lp := .glop { iface := g', settings := s } } } := by
        simp [oracle, Lp.setColumnBounds, hg']
      rw [this]
      exact h2
    rcases hj with rfl | rfl
    · exact key _ _ (by norm_num) (by norm_num) rfl rfl rfl
    · exact key _ _ (by norm_num) (by norm_num) rfl rfl rfl

/-- The first solve. -/
theorem plain_solve {e : Engine} (hret : e.GlopReturns) (hin : e.GlopInTime) (c : Setup.Created)
    {s : Glop.Settings} (g1 : Glop.Interface) (hs : s.maxIterations = -1) :
    ∃ s1 s2 : Glop.Session, s1.iface.lp = g1.lp ∧ (oracle e c).solve { world := { lp := .glop { iface := g1, settings := s } } } = .ok
        { world := { lp := .glop s2, report := (e.glop 0 s1).2.2.2, solves := 1, draws := 0 } } ∧
      s2.iface.lp = g1.lp ∧ s2.settings = s ∧
      s2.status = (e.glop 0 s1).2.1 ∧ s2.isSolved = true ∧ s2.timeLimitIsExceeded = false ∧
      s2.iterationLimitIsExceeded = false ∧ s2.objectiveLimitIsExceeded = false := by
  let s1 : Glop.Session := { iface := g1, settings := s }
  have hok := solveLp_returns g1 (hret 0 s1)
  have hprog : ∀ answers, (Glop.solveLp g1 answers).1.lp = g1.lp := by
    intro answers
    simp only [Glop.solveLp, Glop.solveInternal]
    split_ifs <;> rfl
  have hsol : (Glop.solveLp g1 (e.glop 0 s1).1).1.modified = false ∧
      (Glop.solveLp g1 (e.glop 0 s1).1).1.timeLimitReached = false := by
    simp only [Glop.solveLp, Glop.solveInternal, hret 0 s1, (hin 0 s1).1, Bool.not_true, Bool.false_eq_true,
      if_false, if_true]
    split <;> simp
  refine ⟨s1, (s1.solveLp true (e.glop 0 s1).1 (e.glop 0 s1).2.1 (e.glop 0 s1).2.2.1).1, rfl, ?_, ?_, rfl, rfl,
    ?_, ?_, ?_, ?_⟩
  · show (oracle e c).solve { world := { lp := .glop s1 } } = _
    simp only [oracle, World.solve]
    rw [show (s1.solveLp true (e.glop 0 s1).1 (e.glop 0 s1).2.1 (e.glop 0 s1).2.2.1).2 = true from hok]
    rfl
  · exact hprog _
  · simp only [Glop.Session.isSolved, Glop.Session.solveLp, s1, hsol.1, Bool.not_false]
  · exact hsol.2
  · simp only [Glop.Session.iterationLimitIsExceeded, Glop.Session.solveLp, s1, hs]
    simp
  · exact (hin 0 s1).2

/-- An abort in the first generator ends the run. -/
theorem generator_abort {e : Engine} {c : Setup.Created} {r : Runner World} {g : Setup.GeneratorConfig}
    {gs : List Setup.GeneratorConfig} (hg : c.runner.generators = g :: gs)
    (hmay : Runner.mayRun c.runner.params (plugins e c) r = true)
    (h : Generator.debugGenerate (context e c r.world) r.world.view (rounders g) g.maxNumCuts = .abort) :
    debugSeparate e c r = .abort := by
  have hround : Runner.round (debugPlugins e c) r = .abort := by
    have hgs : (debugPlugins e c).generators = (fun w _ => do
        let cuts ← Generator.debugGenerate (context e c w) w.view (rounders g) g.maxNumCuts
        return (w, cuts)) :: gs.map fun g => fun w _ => do
          let cuts ← Generator.debugGenerate (context e c w) w.view (rounders g) g.maxNumCuts
          return (w, cuts) := by
      unfold debugPlugins
      simp only [hg, List.map_cons]
    unfold Runner.round
    rw [hgs]
    unfold Runner.generate
    simp only [h]
    rfl
  have hmay' : Runner.mayRun c.runner.params (debugPlugins e c) r = true := by
    rw [← hmay]
    unfold Runner.mayRun debugPlugins
    rfl
  unfold debugSeparate Runner.separateFuel
  rw [hmay', hround]
  rfl

/-- The problem is as good as a problem can be. -/
theorem plain_spec : plainProblem.WellFormed ∧ plainProblem.SortedRows ∧ plainProblem.ProperBounds ∧
    FiniteIntegers plainProblem ∧ Bounded plainProblem ∧
    NonnegativeIntegers plainProblem ∧ IntegralProblem plainProblem ∧ Determinants plainProblem 2 ∧
    plainProblem.Feasible (fun _ => 1) := by
  refine ⟨?_, ?_, ?_, ?_, ⟨9, ?_⟩, ?_, ⟨?_, ?_, ?_⟩, ?_, ?_, ?_⟩
  · simp [Problem.WellFormed, plainProblem, Variable.WellFormed, Constraint.WellFormed, Ordered, Dbl.le]
  · intro k hk
    simp [plainProblem] at hk
    subst hk
    simp [plainProblem]
  · intro v hv _
    simp [plainProblem] at hv
    rcases hv with rfl | rfl <;> simp
  · intro v hv hi
    simp [plainProblem] at hv
    rcases hv with rfl | rfl <;> exact ⟨_, _, rfl, rfl⟩
  · rintro y ⟨h1, -⟩
    have hx := h1 0 _ rfl
    simp only [Between, Dbl.le_fin] at hx
    simp only [plainProblem, Problem.userObjective, objectiveFrom]
    simp at hx ⊢
    linarith [hx.2]
  · intro v hv hi
    simp [plainProblem] at hv
    rcases hv with rfl | rfl <;> norm_num [Dbl.le]
  · intro k hk q hq
    simp [plainProblem] at hk
    subst hk
    simp at hq
    rcases hq with rfl | rfl
    · exact ⟨2, by norm_num⟩
    · exact ⟨1, by norm_num⟩
  · intro k hk q hq
    simp [plainProblem] at hk
    subst hk
    simp at hq
    exact ⟨4, by rw [← hq]; norm_num⟩
  · intro v hv hi
    simp [plainProblem] at hv
    rcases hv with rfl | rfl <;> simp at hi
  · intro b
    have : ∀ b : Nat ⊕ Nat, |Problem.extendedMatrix plainProblem 0 b| ≤ 2 := by
      intro b
      rcases b with j | r
      · match j with
        | 0 => norm_num [Problem.extendedMatrix, plainProblem, Problem.relaxation, Constraint.coefficientOf]
        | 1 => norm_num [Problem.extendedMatrix, plainProblem, Problem.relaxation, Constraint.coefficientOf]
        | n + 2 =>
          have h1 : (0 : Int) ≠ (n : Int) + 2 := by omega
          have h2 : (1 : Int) ≠ (n : Int) + 2 := by omega
          simp [Problem.extendedMatrix, plainProblem, Problem.relaxation, Constraint.coefficientOf, h1, h2]
      · simp only [Problem.extendedMatrix]
        split <;> norm_num
    have h := Matrix.det_fin_one (fun i j : Fin 1 => Problem.extendedMatrix plainProblem i (b j))
    exact (congrArg abs h).trans_le (this _)
  · intro n v hv
    match n with
    | 0 => simp [plainProblem] at hv; subst hv; exact ⟨by norm_num [Between], fun _ => ⟨1, by simp⟩⟩
    | 1 => simp [plainProblem] at hv; subst hv; exact ⟨by norm_num [Between], fun _ => ⟨1, by simp⟩⟩
    | n + 2 => simp [plainProblem] at hv
  · intro k hk
    simp [plainProblem] at hk
    subst hk
    norm_num [Between, Constraint.activity, Dbl.le]

/-- **C120 fails** in the cut generator, whether the default parameters are used or at most one round of cuts is asked for.
`max x`, `2 x + y ≤ 4`, `0 ≤ x ≤ 9`, `1 ≤ y ≤ 9`, both integer, has integral data, sorted rows and feasible points.  Whatever
Glop that answers rightly, returns, keeps a basis and stops at no limit: `Create` in the debug build makes the solver, and
`Solve` in the debug build aborts in the root node, where strong CG rounding rounds `x + y / 2 + s / 2 = 2` and its assertion
on the fraction of the right-hand side fails (aggregating_generator.cc:341).  With one round of cuts the release build solves
the problem. -/
theorem C120_strong_cg_violated :
    (plainProblem.WellFormed ∧ plainProblem.SortedRows ∧ plainProblem.ProperBounds ∧ FiniteIntegers plainProblem ∧
      Bounded plainProblem ∧ NonnegativeIntegers plainProblem ∧ IntegralProblem plainProblem ∧
      Determinants plainProblem 2 ∧ plainProblem.Feasible (fun _ => 1)) ∧
    ∀ x, ∀ user ∈ [({} : Setup.ParamsMsg), onceUser], ∃ c, Setup.debugCreate x plainProblem user = .ok c ∧
      ∀ e : Engine, e.Right → e.GlopReturns → e.GlopBasic → e.GlopInTime → e.InOrder → e.Sorted →
        (∀ n, debugSolve e c (n + 1) = some .abort) ∧
        (user = onceUser → Solves plainProblem (1 / 10 ^ 6) (solve e c (iterationBound plainProblem))) := by
  refine ⟨plain_spec, fun x user huser => ?_⟩
  obtain ⟨hwf, hsorted, -, hfin, hB, hnn, hI, hD, -⟩ := plain_spec
  have hlpu : user.lp = none := by
    simp at huser
    rcases huser with rfl | rfl <;> rfl
  obtain ⟨c, hc, hrel⟩ : ∃ c, Setup.create x plainProblem user = .ok c ∧ (user = onceUser → ∀ e : Engine, e.Right →
      e.GlopReturns → e.GlopBasic → e.InOrder → e.Sorted →
        Solves plainProblem (1 / 10 ^ 6) (solve e c (iterationBound plainProblem))) := by
    have htakes : Setup.GlopTakes (({} : Setup.ParamsMsg).lp.getD {}).read := by
      refine ⟨⟨?_, ?_, ?_, ?_, ?_, ?_, ?_, ?_⟩, rfl, ?_, ?_, rfl, rfl⟩ <;> simp [Setup.LpMsg.read, ToleranceOk]
    simp at huser
    rcases huser with rfl | rfl
    · obtain ⟨c, hc⟩ := (Setup.C73_glop_partial x plainProblem hwf {} _ (Setup.lpWins _) rfl).1 htakes
      exact ⟨c, hc, fun h => by cases h⟩
    · have hask : AsksOneRound onceUser := ⟨⟨1, le_refl _, rfl⟩, by simp [onceUser]⟩
      have hfine : FineTolerances 2 onceUser (onceUser.lp.getD {}).read := by
        constructor
        · norm_num [onceUser]
        · norm_num [onceUser]
        · intro q hq
          simp [onceUser, Setup.LpMsg.read] at hq
          rw [← hq]; norm_num
        · intro _; norm_num
      obtain ⟨c, hc, h⟩ := C83_one_round_integral_total_correctness_partial plainProblem hwf hfin hB hnn hI hD x onceUser _
        (Setup.lpWins _) htakes hask (by simp [onceUser]) hfine
      exact ⟨c, hc, fun _ e h1 h2 h3 h4 h5 => h e h1 h2 h3 h4 h5⟩
  refine ⟨c, by rw [(Setup.C120_create x plainProblem user).1 hsorted]; exact hc,
    fun e he hret hbas hin ho hsort => ⟨fun n => ?_, fun hu => hrel hu e he hret hbas ho hsort⟩⟩
  obtain ⟨-, hd, -, hrun, -, htol, -⟩ := Setup.create_ok hc
  obtain ⟨hlo, hup, hint, hintc, hobj, hlp⟩ := plain_created hd
  obtain ⟨s, g, hl, hg, htol', hmax⟩ := default_glop hc hlpu
  have hg := hlp _ _ hg
  obtain ⟨g1, hg1, hb⟩ := plain_bounds e c s c.data.integerVariables (fun j hj => (hint j).1 hj) g hg
  obtain ⟨s1, s2, hp1, hs, hp2, hset, hst, hsolved, hlim⟩ := plain_solve hret hin c g1 hmax
  rw [hg1] at hp1 hp2
  have hans := he.glop 0 s1
  rw [hp1] at hans
  obtain ⟨hopt, hpt⟩ := plain_optimum hans
  have hpt := hpt hopt
  have hbasic := hbas 0 s1 hopt
  rw [hp1] at hbasic
  obtain ⟨hb1, hb2, hb3⟩ := plain_basis hbasic hpt.1
  set rep := (e.glop 0 s1).2.2.2 with hrep
  have hstat : s2.status = .optimal := hst.trans hopt
  have htol6 : c.integralityTolerance = 1 / 10 ^ 6 := by
    rw [htol]
    simp at huser
    rcases huser with rfl | rfl <;> rfl
  have hgen : ∃ gs, c.runner.generators = ⟨100, true, true⟩ :: gs := by
    rw [hrun]; exact ⟨_, rfl⟩
  obtain ⟨gs, hgen⟩ := hgen
  have hmay : Runner.mayRun c.runner.params (plugins e c)
      { world := { lp := .glop s2, report := rep, solves := 1, draws := 0 } } = true := by
    have h1 : Lp.stop (.glop s2) = false := by
      simp [Lp.stop, hlim, Glop.Session.isPrimalInfeasible, Glop.Session.isPrimalUnbounded, Glop.Session.isDualInfeasible,
        Glop.Session.isDualUnbounded, hstat]
    have h2 : Lp.isSolved (.glop s2) = true := hsolved
    simp only [Runner.mayRun, plugins, h1, h2, hrun]
    simp at huser
    rcases huser with rfl | rfl <;> decide
  have hsep : debugSeparate e c { world := { lp := .glop s2, report := rep, solves := 1, draws := 0 } } = .abort := by
    have hctx : context e c { lp := .glop s2, report := rep, solves := 1, draws := 0 } = plainContext := by
      have hrow : Lp.sparseRow e (.glop s2) = fun r : Nat => Glop.copyToSparse (Glop.transposedRow r 0 plainLp.cols) := by
        funext r
        simp only [Lp.sparseRow, hp2]
      have hisint : (fun j => decide (j ∈ c.data.integerVariables)) = fun j => decide (j ∈ [(0 : Int), 1]) := by
        funext j
        exact decide_eq_decide.2 (hint j)
      simp only [context, hisint, hintc, hobj, htol6, Lp.view, Lp.program, hrow, hp2]
      rfl
    refine generator_abort hgen hmay ?_
    rw [hctx]
    refine plain_generate (y := rep.activities.getD (fun _ => 0) 0) hsolved
      (by simp [World.view, Lp.isOptimal, Glop.Session.isOptimal, hstat])
      (by simp [World.view, World.activities, Glop.getRowActivities, hp2, plainLp]) ?_ ?_ ?_
    · have h0 : rep.primal.getD (fun _ => 0) 0 = 3 / 2 := hpt.1
      have h1 : rep.primal.getD (fun _ => 0) 1 = 1 := hpt.2
      simp [World.view, World.primal, Glop.getPrimalValues, hp2, plainLp, h0, h1, List.range_succ]
    · simp only [World.view, World.basis, Glop.getColumnsAndRowsInBasis, hp2]
      have hlen : rep.basis.length = 1 := by simpa using congrArg List.length hb1
      rw [List.take_of_length_le (by rw [hlen]; decide)]
      rw [show (rep.basis.map fun (col : Int) => if col < plainLp.cols.length then Glop.ColOrRow.col col
        else .row (col - plainLp.cols.length)) = [.col 0] from hb1]
      rfl
    · simp only [World.view, World.inverseRow, hset, htol', Glop.getSparseRowOfBInverted, hp2]
      rcases hb3 with h | h
      · rw [h, hb2]
        rw [if_neg (by simp)]
        exact plain_collect
      · rw [h, hb2, if_pos (by simp)]
        exact plain_indexed
  have hit : Solver.iterate (debugOracle e c) c.data (params c)
      (Solver.initial { world := { lp := start c.lpi } }) = .abort := by
    have hopt' : (debugOracle e c).isOptimal { world := { lp := .glop s2, report := rep, solves := 1, draws := 0 } } = true := by
      simp [debugOracle, oracle, Lp.isOptimal, Glop.Session.isOptimal, hstat]
    have e1 : MipTree.init.retrieveLower 0 [.fin 0, .fin 1] = .ok [.fin 0, .fin 1] := by decide +kernel
    have e2 : MipTree.init.retrieveUpper 0 [.fin 9, .fin 9] = .ok [.fin 9, .fin 9] := by decide +kernel
    have hstart : start c.lpi = .glop { iface := g, settings := s } := by rw [hl]; rfl
    have hs' : (debugOracle e c).solve { world := { lp := .glop { iface := g1, settings := s } } } = .ok
        { world := { lp := .glop s2, report := rep, solves := 1, draws := 0 } } := hs
    have hnode : Solver.solveNode (debugOracle e c) c.data [.fin 0, .fin 1] [.fin 9, .fin 9]
        { world := { lp := start c.lpi } } = .abort := by
      have h := (below_oracle e c).applyBounds [.fin 0, .fin 1] [.fin 9, .fin 9] c.data.integerVariables
        { world := { lp := start c.lpi } }
      unfold Solver.solveNode
      rcases h with h | h
      · rw [h]; rfl
      · rw [h, hstart, hb]
        simp only [Outcome.bind_ok, hs', Outcome.orAbort, hopt', if_true]
        rw [show (debugOracle e c).separate = debugSeparate e c from rfl, hsep]
    simp [Solver.iterate, Solver.initial, Solver.pop, hlo, hup, e1, e2, hnode]
  simp only [debugSolve, Solver.solveFuel, hit]

/-- Such LP code exists. -/
example : perfect.Right ∧ perfect.GlopReturns ∧ perfect.GlopBasic ∧ perfect.GlopInTime ∧ perfect.InOrder ∧ perfect.Sorted :=
  ⟨perfect_spec.1, perfect_spec.2, perfect_basic.1, perfect_inTime, fun _ _ => rfl, fun _ _ _ => List.Pairwise.nil⟩

/-- Non-vacuity of `C120_no_cuts_partial`: the same problem and the parameters `exUser`. -/
example (x : Setup.External) : plainProblem.WellFormed ∧ plainProblem.SortedRows ∧ plainProblem.ProperBounds ∧
    ∃ c, Setup.debugCreate x plainProblem exUser = .ok c ∧ (∃ s g, c.lpi = .glop s g) ∧ NoCuts c.runner.params := by
  obtain ⟨hwf, hs, hb, -⟩ := plain_spec
  refine ⟨hwf, hs, hb, ?_⟩
  · obtain ⟨c, hc⟩ := (Setup.C73_glop_partial x plainProblem hwf exUser _ (Setup.lpWins _) rfl).1
      (by refine ⟨⟨?_, ?_, ?_, ?_, ?_, ?_, ?_, ?_⟩, rfl, ?_, ?_, rfl, rfl⟩ <;>
        simp [exUser, Setup.LpMsg.read, ToleranceOk])
    exact ⟨c, ((Setup.C120_create x _ _).1 hs).trans hc, created_glop hc rfl,
      (rule_of hwf hc ⟨0, le_refl _, rfl⟩ (by simp [exUser])).1⟩

end Program
end MiniMip
