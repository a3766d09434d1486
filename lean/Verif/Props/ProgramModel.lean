import Verif.Props.ProgramUnboundedCuts
import Verif.Props.Reader

/-!
# C93: from a model to its solution; C94: equivalent problems get equal answers

C93 puts reading (C55, C56), `Create` (C73) and `Solve` (C78) together, stated about the model that was read.  C94 compares
two runs: on two problems with the same objective values, with either LP solver and any parameters covered by
C78 and C83.
-/

namespace MiniMip
namespace Program

open Solver (point)

/-! ### C93 -/

/-- The points that satisfy bounds and constraints of a model and, within the tolerance, integrality. -/
def _root_.MiniMip.ModelProto.FeasibleUpTo (m : ModelProto) (tol : ℚ) (x : Int → ℚ) : Prop :=
  (∀ (n : Nat) (v : ProtoVariable), m.vars[n]? = some v →
    Between v.lower (x n) v.upper ∧ (v.isInteger = true → ∃ k : Int, |x n - k| ≤ tol)) ∧
  ∀ c ∈ m.constraints, Between c.lower (c.activity x) c.upper

/-- The model has feasible points with arbitrarily good objective values. -/
def _root_.MiniMip.ModelProto.Unbounded (m : ModelProto) : Prop :=
  ∀ B : ℚ, ∃ y, m.Feasible y ∧ if m.maximize then B < m.objectiveAt y else m.objectiveAt y < B

/-- The integer variables of the model have finite bounds. -/
def _root_.MiniMip.ModelProto.FiniteIntegers (m : ModelProto) : Prop :=
  ∀ v ∈ m.vars, v.isInteger = true → ∃ l u : ℚ, v.lower = .fin l ∧ v.upper = .fin u

/-- A right outcome of `Solve` for the model: either it reports an error and the model is infeasible or unbounded, or it
returns OK and: the model is not unbounded; if there is a best solution, it satisfies all bounds, constraints and (within
the tolerance) integrality; if the model has a feasible point, there is a best solution and it is at least as good as that
point. -/
def SolvesModel (m : ModelProto) (tol : ℚ) (o : Option (Outcome (Solver.State (Runner World)))) : Prop :=
  (o = some (.error "The problem is infeasible or unbounded") ∧ ((∀ y, ¬ m.Feasible y) ∨ m.Unbounded)) ∨
  (¬ m.Unbounded ∧ ∃ s, o = some (.ok s) ∧
    (s.result.best ≠ {} → m.FeasibleUpTo tol (point s.result.best.values)) ∧
    ∀ y, m.Feasible y → s.result.best ≠ {} ∧
      if m.maximize then m.objectiveAt y ≤ m.objectiveAt (point s.result.best.values)
      else m.objectiveAt (point s.result.best.values) ≤ m.objectiveAt y)

theorem built_feasibleUpTo (m : ModelProto) (tol : ℚ) (x : Int → ℚ)
    (h : (Reader.built m).FeasibleUpTo tol x) : m.FeasibleUpTo tol x := by
  refine ⟨fun n v hv => ?_, fun c hc => ?_⟩
  · exact h.1 n ⟨v.name, v.objective, v.lower, v.upper, v.isInteger⟩ (by simp [Reader.built, hv])
  · exact h.2 ⟨c.name, c.varIndex, c.coefficient, c.lower, c.upper⟩
      (by simp only [Reader.built, List.mem_map]; exact ⟨c, hc, rfl⟩)

theorem built_finite {m : ModelProto} (h : m.FiniteIntegers) : FiniteIntegers (Reader.built m) := by
  intro v hv hi
  simp only [Reader.built, List.mem_map] at hv
  obtain ⟨w, hw, rfl⟩ := hv
  exact h w hw hi

theorem built_unbounded (m : ModelProto) : Unbounded (Reader.built m) ↔ m.Unbounded := by
  have hs := Reader.built_same m
  unfold Unbounded ModelProto.Unbounded
  simp only [hs.feasible, hs.objective, hs.sense]

theorem solvesModel_of {m : ModelProto} {tol : ℚ} {o : Option (Outcome (Solver.State (Runner World)))}
    (h : Settles (Reader.built m) tol o) : SolvesModel m tol o := by
  have hs := Reader.built_same m
  rcases h with ⟨h1, h2⟩ | ⟨hu, s, h1, h2, h3⟩
  · exact Or.inl ⟨h1, h2.imp (fun h2 y hy => h2 y ((hs.feasible y).2 hy)) (built_unbounded m).1⟩
  · refine Or.inr ⟨fun h => hu ((built_unbounded m).2 h), s, h1, fun hb => built_feasibleUpTo m tol _ (h2 hb), fun y hy => ?_⟩
    have := h3 y ((hs.feasible y).2 hy)
    simpa only [hs.objective, hs.sense] using this

/-- The text of an existing file whose path ends in `.mps`, or a string, parsed as this model, is read as this
problem. -/
def ReadAs (m : ModelProto) (p : Problem) : Prop :=
  Reader.readMipProblemFromString (some m) = .ok p ∧
  ∀ path : List Char, ['.', 'm', 'p', 's'] <:+ path → path.length < 2 ^ 64 - 1 →
    Reader.readMipProblemFromMPSFile path true (some m) = .ok p

theorem readAs {m : ModelProto} (hl : m.Linear) (hw : m.WellFormed) : ReadAs m (Reader.built m) := by
  obtain ⟨p, hp, -⟩ := (Reader.C55_conversion_partial m).2.2.2.1 hl hw
  obtain ⟨-, -, rfl⟩ := (Reader.convert_ok_iff m p).1 hp
  refine ⟨hp, fun path he hlen => ?_⟩
  have h4 := he.length_le
  simp only [List.length_cons, List.length_nil] at h4
  exact ((Reader.C56_extension_partial path hlen (by omega) (some m)).2 he).trans hp

/-- **C93, Glop.**  For every linear well-formed model whose integer variables have finite bounds: it is read, from a file or from a string, without error, and with
`max_iterations` of the cut runner at most zero, no random branching, a non-negative integrality tolerance and valid LP
parameters for Glop, `Create` succeeds on what was read, and whatever LP code that answers rightly it runs on, `Solve`
returns a right outcome for the model. -/
theorem C93_read_and_solve (m : ModelProto) (hl : m.Linear) (hw : m.WellFormed) (hf : m.FiniteIntegers) :
    ∃ p N, ReadAs m p ∧ ∀ (x : Setup.External) (user : Setup.ParamsMsg) (lp : LpParameters),
      Setup.LpWins user.lp lp → Setup.GlopTakes lp →
      (∃ k ≤ 0, user.runner.bind (·.maxIterations) = some k) →
      (∀ s, user.branching.bind (·.rule) ≠ some (.random s)) →
      0 ≤ user.integralityTolerance.getD (1 / 10 ^ 6) →
      ∃ c, Setup.create x p user = .ok c ∧ ∀ e : Engine, e.Right → e.GlopReturns →
        SolvesModel m (user.integralityTolerance.getD (1 / 10 ^ 6)) (solve e c N) := by
  refine ⟨Reader.built m, iterationBound (Reader.built m), readAs hl hw, fun x user lp h1 h2 h3 h4 h5 => ?_⟩
  obtain ⟨c, hc, h⟩ := C114_total_partial _ ((Reader.built_wellFormed m).2 hw) (built_finite hf) x user lp h1 h2 h3 h4 h5
  exact ⟨c, hc, fun e he hr => solvesModel_of (h e he hr)⟩

/-- **C93, SoPlex.**  The same with SoPlex, if the bounds of the integer variables are integral and SoPlex accepts the
parameter values. -/
theorem C93_soplex_read_and_solve_partial (m : ModelProto) (hl : m.Linear) (hw : m.WellFormed)
    (hf : ∀ v ∈ m.vars, v.isInteger = true → ∃ l u : ℤ, v.lower = .fin l ∧ v.upper = .fin u) :
    ∃ p N, ReadAs m p ∧ ∀ (x : Setup.External) (set : Soplex.Settings) (user : Setup.ParamsMsg) (lp : LpParameters),
      Setup.newSoplex x = .ok set → (∀ r v, x.accepts.real r v = true) → (∀ r v, x.accepts.int r v = true) →
      Setup.LpWins user.lp lp → Setup.SoplexTakes lp →
      (∃ k ≤ 0, user.runner.bind (·.maxIterations) = some k) →
      (∀ s, user.branching.bind (·.rule) ≠ some (.random s)) →
      0 ≤ user.integralityTolerance.getD (1 / 10 ^ 6) →
      ∃ c, Setup.create x p user = .ok c ∧ ∀ e : Engine, e.Right → e.SoplexReturns →
        SolvesModel m (user.integralityTolerance.getD (1 / 10 ^ 6)) (solve e c N) := by
  have hf' : m.FiniteIntegers := fun v hv hi => by
    obtain ⟨l, u, h⟩ := hf v hv hi
    exact ⟨l, u, h⟩
  have hI : IntegralIntegers (Reader.built m) := by
    intro v hv hi
    simp only [Reader.built, List.mem_map] at hv
    obtain ⟨w, hw, rfl⟩ := hv
    obtain ⟨l, u, h⟩ := hf w hw hi
    exact ⟨Or.inr ⟨l, h.1⟩, Or.inr ⟨u, h.2⟩⟩
  refine ⟨Reader.built m, iterationBound (Reader.built m), readAs hl hw,
    fun x set user lp g1 g2 g3 h1 h2 h3 h4 h5 => ?_⟩
  obtain ⟨c, hc, h⟩ := C114_soplex_total_partial _ ((Reader.built_wellFormed m).2 hw) (built_finite hf') hI x set user lp g1 g2 g3 h1 h2 h3 h4 h5
  exact ⟨c, hc, fun e he hr => solvesModel_of (h e he hr)⟩

/-! ### C94 -/

/-- Two problems of the same sense that have the same objective values: every feasible point of one has a feasible point
of the other with the same objective. -/
structure SameValues (p q : Problem) : Prop where
  sense : p.isMaximization = q.isMaximization
  forth : ∀ y, p.Feasible y → ∃ z, q.Feasible z ∧ q.userObjective z = p.userObjective y
  back : ∀ z, q.Feasible z → ∃ y, p.Feasible y ∧ p.userObjective y = q.userObjective z

/-- The outcome says that there is no solution. -/
def NoSolution (o : Option (Outcome (Solver.State (Runner World)))) : Prop :=
  o = some (.error "The problem is infeasible or unbounded") ∨ ∃ s, o = some (.ok s) ∧ s.result.best = {}

/-- The outcome has a solution, of this value for the problem. -/
def HasValue (p : Problem) (o : Option (Outcome (Solver.State (Runner World)))) (v : ℚ) : Prop :=
  ∃ s, o = some (.ok s) ∧ s.result.best ≠ {} ∧ p.userObjective (point s.result.best.values) = v

theorem feasibleUpTo_zero {p : Problem} {x : Int → ℚ} (h : p.FeasibleUpTo 0 x) : p.Feasible x := by
  refine ⟨fun n v hv => ⟨(h.1 n v hv).1, fun hi => ?_⟩, h.2⟩
  obtain ⟨k, hk⟩ := (h.1 n v hv).2 hi
  exact ⟨k, by have := abs_nonpos_iff.1 hk; linarith⟩

/-- What a right outcome at tolerance 0 says. -/
theorem settles_zero {p : Problem} {o : Option (Outcome (Solver.State (Runner World)))} (h : Settles p 0 o) :
    (((∀ y, ¬ p.Feasible y) ∨ Unbounded p) ∧ NoSolution o) ∨
    ∃ y, p.Optimal y ∧ HasValue p o (p.userObjective y) := by
  rcases h with ⟨h1, h2⟩ | ⟨-, s, h1, h2, h3⟩
  · exact Or.inl ⟨h2, Or.inl h1⟩
  · by_cases hb : s.result.best = {}
    · exact Or.inl ⟨Or.inl fun y hy => (h3 y hy).1 hb, Or.inr ⟨s, h1, hb⟩⟩
    · exact Or.inr ⟨_, ⟨feasibleUpTo_zero (h2 hb), fun y hy => (h3 y hy).2⟩, s, h1, hb, rfl⟩

theorem SameValues.symm {p q : Problem} (h : SameValues p q) : SameValues q p := ⟨h.sense.symm, h.back, h.forth⟩

theorem SameValues.not_optimal {p q : Problem} (h : SameValues p q) (hp : (∀ y, ¬ p.Feasible y) ∨ Unbounded p)
    {z : Int → ℚ} (hz : q.Optimal z) : False := by
  rcases hp with hp | hp
  · obtain ⟨y, hy, -⟩ := h.back z hz.1
    exact hp y hy
  · obtain ⟨y, hy, hlt⟩ := hp (q.userObjective z)
    obtain ⟨t, ht, he⟩ := h.forth y hy
    have := hz.2 t ht
    rw [he, ← h.sense] at this
    split at this <;> rename_i hm <;> simp only [hm, if_true, if_false, Bool.false_eq_true] at hlt <;> linarith

theorem optimal_eq {p q : Problem} (h : SameValues p q) {y z : Int → ℚ} (hy : p.Optimal y) (hz : q.Optimal z) :
    p.userObjective y = q.userObjective z := by
  obtain ⟨z', hz', e1⟩ := h.forth y hy.1
  obtain ⟨y', hy', e2⟩ := h.back z hz.1
  have a := hy.2 y' hy'
  have b := hz.2 z' hz'
  rw [← h.sense] at b
  by_cases hm : p.isMaximization = true
  · rw [if_pos hm] at a b
    linarith
  · rw [if_neg hm] at a b
    linarith

/-- A run that C78 or C83 covers: the external calls at creation, the user's parameters and the LP code. -/
inductive Covered (p : Problem) (x : Setup.External) (user : Setup.ParamsMsg) (e : Engine) : Prop
  /-- Glop without cuts. -/
  | glop (lp : LpParameters) : Setup.LpWins user.lp lp → Setup.GlopTakes lp →
      (∃ k ≤ 0, user.runner.bind (·.maxIterations) = some k) → e.GlopReturns → Covered p x user e
  /-- SoPlex without cuts. -/
  | soplex (lp : LpParameters) (set : Soplex.Settings) : IntegralIntegers p → Setup.newSoplex x = .ok set →
      (∀ r v, x.accepts.real r v = true) → (∀ r v, x.accepts.int r v = true) →
      Setup.LpWins user.lp lp → Setup.SoplexTakes lp →
      (∃ k ≤ 0, user.runner.bind (·.maxIterations) = some k) → e.SoplexReturns → Covered p x user e
  /-- Glop with one round of cuts. -/
  | glopCuts (lp : LpParameters) : NonnegativeIntegers p → IntegralSides p → (∃ y, p.Feasible y) →
      Setup.LpWins user.lp lp → Setup.GlopTakes lp → AsksOneRound user →
      e.GlopReturns → e.GlopFits → e.InOrder → e.Sorted → Covered p x user e
  /-- SoPlex with one round of cuts. -/
  | soplexCuts (lp : LpParameters) (set : Soplex.Settings) : IntegralIntegers p → NonnegativeIntegers p →
      IntegralSides p → (∃ y, p.Feasible y) → Setup.newSoplex x = .ok set →
      (∀ r v, x.accepts.real r v = true) → (∀ r v, x.accepts.int r v = true) →
      Setup.LpWins user.lp lp → Setup.SoplexTakes lp → AsksOneRound user → e.GoodSoplex → Covered p x user e

theorem covered_settles {p : Problem} (hp : p.WellFormed) (hf : FiniteIntegers p)
    {x : Setup.External} {user : Setup.ParamsMsg} {e : Engine} (he : e.Right) (h : Covered p x user e)
    (hr : ∀ s, user.branching.bind (·.rule) ≠ some (.random s)) (htol : user.integralityTolerance = some 0) :
    ∃ c, Setup.create x p user = .ok c ∧ Settles p 0 (solve e c (iterationBound p)) := by
  have h0 : user.integralityTolerance.getD (1 / 10 ^ 6) = 0 := by rw [htol]; rfl
  cases h with
  | glop lp h1 h2 h3 h4 =>
    obtain ⟨c, hc, h⟩ := C114_total_partial p hp hf x user lp h1 h2 h3 hr h0.ge
    exact ⟨c, hc, h0 ▸ h e he h4⟩
  | soplex lp set g0 g1 g2 g3 h1 h2 h3 h4 =>
    obtain ⟨c, hc, h⟩ := C114_soplex_total_partial p hp hf g0 x set user lp g1 g2 g3 h1 h2 h3 hr h0.ge
    exact ⟨c, hc, h0 ▸ h e he h4⟩
  | glopCuts lp g0 g1 g2 h1 h2 h3 h4 h5 h6 h7 =>
    obtain ⟨c, hc, h⟩ := C114_one_round_total_partial p hp hf g0 g1 g2 x user lp h1 h2 h3 hr htol
    exact ⟨c, hc, h e he h4 h5 h6 h7⟩
  | soplexCuts lp set g0 g1 g2 g3 k1 k2 k3 h1 h2 h3 h4 =>
    obtain ⟨c, hc, h⟩ := C114_soplex_one_round_total_partial p hp hf g0 g1 g2 g3 x set user lp k1 k2 k3
      h1 h2 h3 hr htol
    exact ⟨c, hc, h e he h4⟩

/-- **C94.**  Two well-formed problems with finite bounds on the integer variables that have the same sense and objective values get the same answer, whichever of the covered configurations each of them is run with
(Glop or SoPlex, with one round of cuts or without, branching direction, backtrack limit and LP parameters), at
integrality tolerance 0: both runs end, and either both say that there is no solution, or both have one, of the same
objective value. -/
theorem C94_equal_answers {p q : Problem} (hpq : SameValues p q)
    (hp : p.WellFormed) (hfp : FiniteIntegers p)
    (hq : q.WellFormed) (hfq : FiniteIntegers q)
    {x x' : Setup.External} {user user' : Setup.ParamsMsg} {e e' : Engine} (he : e.Right) (he' : e'.Right)
    (h : Covered p x user e) (h' : Covered q x' user' e')
    (hr : ∀ s, user.branching.bind (·.rule) ≠ some (.random s))
    (hr' : ∀ s, user'.branching.bind (·.rule) ≠ some (.random s))
    (htol : user.integralityTolerance = some 0) (htol' : user'.integralityTolerance = some 0) :
    ∃ c c', Setup.create x p user = .ok c ∧ Setup.create x' q user' = .ok c' ∧
      ((NoSolution (solve e c (iterationBound p)) ∧ NoSolution (solve e' c' (iterationBound q))) ∨
        ∃ v, HasValue p (solve e c (iterationBound p)) v ∧ HasValue q (solve e' c' (iterationBound q)) v) := by
  obtain ⟨c, hc, s⟩ := covered_settles hp hfp he h hr htol
  obtain ⟨c', hc', s'⟩ := covered_settles hq hfq he' h' hr' htol'
  refine ⟨c, c', hc, hc', ?_⟩
  rcases settles_zero s with ⟨n, hn⟩ | ⟨y, hy, hv⟩ <;> rcases settles_zero s' with ⟨n', hn'⟩ | ⟨z, hz, hv'⟩
  · exact Or.inl ⟨hn, hn'⟩
  · exact (hpq.not_optimal n hz).elim
  · exact (hpq.symm.not_optimal n' hy).elim
  · exact Or.inr ⟨_, hv, by rw [optimal_eq hpq hy hz]; exact hv'⟩

/-- Problems that have the same values: the same one; with the constraints in another order; with a constraint that
follows from the others. -/
theorem SameValues.refl (p : Problem) : SameValues p p :=
  ⟨rfl, fun y hy => ⟨y, hy, rfl⟩, fun y hy => ⟨y, hy, rfl⟩⟩

theorem SameValues.perm (p : Problem) {l : List Constraint} (h : l.Perm p.constraints) :
    SameValues p { p with constraints := l } :=
  ⟨rfl, fun y hy => ⟨y, ⟨hy.1, fun c hc => hy.2 c (h.mem_iff.1 hc)⟩, rfl⟩,
    fun y hy => ⟨y, ⟨hy.1, fun c hc => hy.2 c (h.mem_iff.2 hc)⟩, rfl⟩⟩

theorem SameValues.implied (p : Problem) (c : Constraint)
    (h : ∀ y, p.Feasible y → Between c.lhs (c.activity y) c.rhs) :
    SameValues p { p with constraints := c :: p.constraints } :=
  ⟨rfl, fun y hy => ⟨y, ⟨hy.1, fun k hk => by
      rcases List.mem_cons.1 hk with rfl | hk
      · exact h y hy
      · exact hy.2 k hk⟩, rfl⟩,
    fun y hy => ⟨y, ⟨hy.1, fun k hk => hy.2 k (List.mem_cons_of_mem _ hk)⟩, rfl⟩⟩

/-- `exProblem` with the constraint `x + y ≤ 6`, which follows from the bounds and the other constraint. -/
def exImplied : Problem :=
  { exProblem with
    constraints := { name := "d", varIndices := [0, 1], coefficients := [1, 1], lhs := .ninf, rhs := .fin 6 } ::
      exProblem.constraints }

/-- Parameters for Glop without cuts at tolerance 0. -/
def exGlop : Setup.ParamsMsg :=
  { cutRunner := some { defaultRunner := some { maxIterations := some 0 } }, integralityTolerance := some 0 }

/-- Parameters for SoPlex with one round of cuts at tolerance 0. -/
def exSoplexCuts : Setup.ParamsMsg where
  lp := some { solverType := some .soplex }
  cutRunner := some { defaultRunner := some { maxIterations := some 1 } }
  integralityTolerance := some 0

/-- The hypotheses of C94 are met by different problems, LP solvers and cut parameters. -/
example : SameValues exProblem exImplied ∧ exImplied.WellFormed ∧ FiniteIntegers exImplied ∧
    perfect.Right ∧ Covered exProblem Setup.exExternal exGlop perfect ∧
    Covered exImplied Setup.exExternal exSoplexCuts perfect := by
  obtain ⟨h1, h2, h3, y, hy⟩ := exProblem_spec
  have hs : SameValues exProblem exImplied := by
    refine SameValues.implied _ _ fun y hy => ?_
    have hx := (hy.1 0 _ rfl).1
    have hy' := (hy.1 1 _ rfl).1
    have hc := hy.2 _ (List.mem_singleton.2 rfl)
    simp only [Between, Dbl.le_fin, Constraint.activity] at hx hy' hc ⊢
    simp at hx hy' hc ⊢
    linarith [hx.1, hy'.2, hc]
  refine ⟨hs, ?_, h2, perfect_spec.1, .glop _ (Setup.lpWins _) ?_ ⟨0, le_refl _, rfl⟩ perfect_spec.2,
    .soplexCuts _ _ ?_ ?_ ?_ ?_ rfl (fun _ _ => rfl) (fun _ _ => rfl) (Setup.lpWins _) ?_
      ⟨⟨1, le_refl _, rfl⟩, by simp [exSoplexCuts]⟩
      ⟨perfect_spec.1.feasible, perfect_soplex, perfect_basic.2, fun _ _ => rfl, fun _ _ _ => List.Pairwise.nil⟩⟩
  · simp [Problem.WellFormed, exImplied, exProblem, Variable.WellFormed, Constraint.WellFormed, Ordered, Dbl.le]
  · refine ⟨⟨?_, ?_, ?_, ?_, ?_, ?_, ?_, ?_⟩, rfl, ?_, ?_, rfl, rfl⟩ <;>
      simp [exGlop, Setup.LpMsg.read, ToleranceOk]
  · intro v hv hi
    simp [exImplied, exProblem] at hv
    rcases hv with rfl | rfl
    · exact ⟨Or.inr ⟨0, by simp⟩, Or.inr ⟨9, by simp⟩⟩
    · simp at hi
  · intro v hv hi
    simp [exImplied, exProblem] at hv
    rcases hv with rfl | rfl
    · simp [Dbl.le]
    · simp at hi
  · intro k hk q hq
    simp [exImplied, exProblem] at hk
    rcases hk with rfl | rfl
    · simp at hq; exact ⟨6, by simp [← hq]⟩
    · simp at hq; exact ⟨7, by simp [← hq]⟩
  · obtain ⟨z, hz, -⟩ := hs.forth y hy
    exact ⟨z, hz⟩
  · refine ⟨⟨?_, ?_, ?_, ?_, ?_, ?_, ?_, ?_⟩, rfl, ?_, ?_, ?_, ?_⟩ <;>
      simp [exSoplexCuts, Setup.LpMsg.read, ToleranceOk]

/-- The hypotheses of C93 are met. -/
example : ∃ m : ModelProto, m.Linear ∧ m.WellFormed ∧ m.FiniteIntegers ∧
    (∀ v ∈ m.vars, v.isInteger = true → ∃ l u : ℤ, v.lower = .fin l ∧ v.upper = .fin u) ∧ ∃ y, m.Feasible y := by
  refine ⟨{ maximize := true, offset := 4, vars := [⟨"x", 3, .fin 0, .fin 9, true⟩, ⟨"y", 2, .fin 0, .fin 4, false⟩],
            constraints := [⟨"c", [1, 0], [2, 5], .ninf, .fin 7⟩] }, ⟨rfl, rfl, rfl⟩, ?_, ?_, ?_,
    fun _ => 1, ?_, ?_⟩
  · simp [ModelProto.WellFormed, Dbl.le]
  · intro v hv hi
    simp at hv
    rcases hv with rfl | rfl
    · exact ⟨_, _, rfl, rfl⟩
    · simp at hi
  · intro v hv hi
    simp at hv
    rcases hv with rfl | rfl
    · exact ⟨0, 9, by simp⟩
    · simp at hi
  · intro n v hv
    match n with
    | 0 => simp at hv; subst hv; exact ⟨by norm_num [Between], fun _ => ⟨1, by simp⟩⟩
    | 1 => simp at hv; subst hv; exact ⟨by norm_num [Between], by simp⟩
    | n + 2 => simp at hv
  · intro k hk
    simp at hk
    subst hk
    norm_num [Between, ProtoConstraint.activity]

end Program
end MiniMip
