import Verif.Model.Setup
import Verif.Props.LpParameters
import Verif.Props.Populate
import Verif.Lemmas.Solver
import Verif.Lemmas.Generator

/-!
# Properties C58, C60 and C73: parameters, tolerance helpers, `Solver::Create`
-/

namespace MiniMip
namespace Setup

variable {hash : MipData.HashOrder}

/-! ### What the user may expect -/

/-- The value is the user's if they set it and the default otherwise. -/
def Wins {α : Type} (user : Option α) (dflt value : α) : Prop :=
  (∀ v, user = some v → value = v) ∧ (user = none → value = dflt)

/-- Every LP parameter is the user's or the documented default. -/
structure LpWins (user : Option LpMsg) (p : LpParameters) : Prop where
  solverType : Wins (user.bind (·.solverType)) .glop p.solverType
  solveFromScratch : Wins (user.bind (·.solveFromScratch)) false p.solveFromScratch
  scaling : Wins (user.bind (·.scaling)) .default p.scaling
  usePresolve : Wins (user.bind (·.usePresolve)) true p.usePresolve
  pricing : Wins (user.bind (·.pricing)) .default p.pricing
  feasibilityTolerance : Wins (user.bind (·.feasibilityTolerance)) (.fin (-1)) p.feasibilityTolerance
  optimalityTolerance : Wins (user.bind (·.optimalityTolerance)) (.fin (-1)) p.optimalityTolerance
  minMarkowitz : Wins (user.bind (·.minMarkowitz)) (.fin (-1)) p.minMarkowitz
  refactorization : Wins (user.bind (·.refactorization)) 0 p.refactorization
  objectiveLower : Wins (user.bind (·.objectiveLower)) .ninf p.objectiveLower
  objectiveUpper : Wins (user.bind (·.objectiveUpper)) .pinf p.objectiveUpper
  timing : Wins (user.bind (·.timing)) .off p.timing
  timeLimit : Wins (user.bind (·.timeLimit)) .pinf p.timeLimit
  iterationLimit : Wins (user.bind (·.iterationLimit)) 0 p.iterationLimit
  numThreads : Wins (user.bind (·.numThreads)) 0 p.numThreads
  randomSeed : Wins (user.bind (·.randomSeed)) 0 p.randomSeed
  output : Wins (user.bind (·.output)) false p.output

/-- The user's message for the runner proper. -/
def ParamsMsg.runner (u : ParamsMsg) : Option DefaultRunnerMsg := u.cutRunner.bind (·.defaultRunner)

/-- The rule the user asks for, `maxFractional` if they ask for none. -/
def ParamsMsg.rule (u : ParamsMsg) : RuleMsg := (u.branching.bind (·.rule)).getD .maxFractional

/-- The generator a message describes, if it describes one. -/
inductive Describes : GeneratorMsg → GeneratorConfig → Prop where
  | tableau (n : Option Int) (t : TableauMsg) (g : GeneratorConfig) (h1 : Wins n 100 g.maxNumCuts)
    (h2 : Wins t.useMir true g.useMir) (h3 : Wins t.useStrongCg true g.useStrongCg) :
    Describes ⟨n, some t⟩ g

/-- The LP solver reports the parameters, with its defaults resolved. -/
def Lpi.Reports (l : Lpi) (p : LpParameters) : Prop :=
  match l with
  | .glop s _ => p.solverType = .glop ∧
      ((p.timing ≠ .off → ∃ t, p.timeLimit = .fin t) →
        ∃ usertime, Glop.getLpParameters usertime s = Glop.resolved p)
  | .soplex g => p.solverType = .soplex ∧ Soplex.getLpParameters g.settings =
      { Soplex.resolved p with solveFromScratch := false, numThreads := 0 }

/-! ### Lemmas -/

/-- No strong branching session is open. -/
def Lpi.Idle : Lpi → Prop
  | .glop _ _ => True
  | .soplex g => Soplex.freed g = true

theorem wins_getD {α : Type} (u : Option α) (d : α) : Wins u d (u.getD d) := by
  constructor
  · rintro v rfl; rfl
  · rintro rfl; rfl

theorem effectiveLp (user : ParamsMsg) :
    (userCustomized user).lp.getD {} = user.lp.getD {} := by
  unfold userCustomized ParamsMsg.merge defaultParameters
  cases user.lp with
  | none => rfl
  | some m => simp [mergeSub, LpMsg.merge, over]

theorem lpWins (user : Option LpMsg) : LpWins user (user.getD {}).read := by
  cases user with
  | none => constructor <;> exact wins_getD none _
  | some m => constructor <;> exact wins_getD _ _

theorem effectiveRunner (user : ParamsMsg) : ∃ m : RunnerMsg,
    (userCustomized user).cutRunner.getD {} = m ∧
    m.generators = defaultGenerator :: ((user.cutRunner.map (·.generators)).getD []) ∧
    m.selectors = defaultSelector :: ((user.cutRunner.map (·.selectors)).getD []) ∧
    m.defaultRunner = some (user.runner.getD {}) := by
  refine ⟨_, rfl, ?_⟩
  unfold userCustomized ParamsMsg.merge defaultParameters ParamsMsg.runner
  cases user.cutRunner with
  | none => exact ⟨rfl, rfl, rfl⟩
  | some m =>
    refine ⟨rfl, rfl, ?_⟩
    cases h : m.defaultRunner with
    | none => simp [mergeSub, RunnerMsg.merge, defaultRunner, h]
    | some d =>
      simp [mergeSub, RunnerMsg.merge, defaultRunner, h, DefaultRunnerMsg.merge, over]

theorem effectiveBranching (user : ParamsMsg) :
    ((userCustomized user).branching.getD {}).rule = some user.rule ∧
    ((userCustomized user).branching.getD {}).direction = user.branching.bind (·.direction) := by
  unfold userCustomized ParamsMsg.merge defaultParameters ParamsMsg.rule
  cases user.branching with
  | none => exact ⟨rfl, rfl⟩
  | some m =>
    cases h : m.rule <;>
      simp [mergeSub, BranchingMsg.merge, defaultBranching, h, over, RuleMsg.merge]

theorem createRunner_ok (user : ParamsMsg) :
    createRunner ((userCustomized user).cutRunner.getD {}) =
      .ok ⟨(user.runner.getD {}).read,
        ⟨100, true, true⟩ :: createGenerators ((user.cutRunner.map (·.generators)).getD []),
        (({} : HybridMsg)).read⟩ := by
  obtain ⟨m, h1, h2, h3, h4⟩ := effectiveRunner user
  rw [h1, createRunner, h4]
  simp only [newDefaultRunner, h3, h2]
  rfl

theorem createRule_ok (user : ParamsMsg) :
    createBranchingRule ((userCustomized user).branching.getD {}) = .ok (match user.rule with
      | .random seed => .random (seed.getD 0) ((user.branching.bind (·.direction)).getD .unspecified)
      | .maxFractional => .maxFractional ((user.branching.bind (·.direction)).getD .unspecified)) := by
  obtain ⟨h1, h2⟩ := effectiveBranching user
  unfold createBranchingRule
  rw [h1, h2]
  cases user.rule <;> rfl

theorem createGenerators_spec (l : List GeneratorMsg) :
    List.Forall₂ Describes (l.filter (·.tableau.isSome)) (createGenerators l) := by
  induction l with
  | nil => exact .nil
  | cons m r ih =>
    obtain ⟨n, t⟩ := m
    cases t with
    | none => simpa [createGenerators, createGenerator] using ih
    | some t =>
      simp only [createGenerators, createGenerator, List.filter, Option.isSome_some]
      exact .cons (.tableau _ _ _ (wins_getD _ _) (wins_getD _ _) (wins_getD _ _)) ih

theorem newGlop_ok (e : External) : ∃ n, newGlop e = .ok n := by
  have : (Glop.setLpParameters e.usertime e.glop { solverType := .glop }).2.2 = true := by
    simp [Glop.setLpParameters, Glop.supported, lpParametersAreValid, badTolerance, Dbl.lt, Dbl.ne,
      Dbl.eq, Glop.scalingOf, Glop.ruleOf]
  exact ⟨_, by simp only [newGlop, this, if_true]; rfl⟩

theorem create_ok {e : External} {p : Problem} {user : ParamsMsg} {c : Created}
    (h : create e p user = .ok c) :
    p.findError = "" ∧ MipData.ofProblem e.order p = .ok c.data ∧
    (∃ l, createLpSolver e (user.lp.getD {}).read = .ok l ∧ l.populate c.data = .ok c.lpi) ∧
    c.runner = ⟨(user.runner.getD {}).read,
        ⟨100, true, true⟩ :: createGenerators ((user.cutRunner.map (·.generators)).getD []),
        (({} : HybridMsg)).read⟩ ∧
    c.rule = (match user.rule with
      | .random seed => .random (seed.getD 0) ((user.branching.bind (·.direction)).getD .unspecified)
      | .maxFractional => .maxFractional ((user.branching.bind (·.direction)).getD .unspecified)) ∧
    c.integralityTolerance = user.integralityTolerance.getD (1 / 10 ^ 6) ∧
    c.numericalTolerance = user.numericalTolerance.getD (1 / 10 ^ 9) ∧
    c.backtrackLimit = user.backtrackLimit.getD 2 := by
  unfold create at h
  dsimp only at h
  by_cases he : p.findError = ""
  · rw [if_neg (not_not.mpr he)] at h
    rw [createRunner_ok, createRule_ok, effectiveLp] at h
    obtain ⟨d, hd, h⟩ := Outcome.bind_eq_ok.mp h
    obtain ⟨l, hl, h⟩ := Outcome.bind_eq_ok.mp h
    simp only [Outcome.bind_ok] at h
    obtain ⟨l', hl', h⟩ := Outcome.bind_eq_ok.mp h
    have h := Outcome.ok.inj h
    subst h
    refine ⟨he, hd, ⟨l, hl, Solver.orAbort_eq_ok.mp hl'⟩, rfl, rfl, ?_, ?_, ?_⟩ <;>
      simp [userCustomized, ParamsMsg.merge, defaultParameters, over]
  · rw [if_pos he] at h
    cases h

theorem createLp_reports {e : External} {p : LpParameters} {l : Lpi}
    (h : createLpSolver e p = .ok l) : l.Reports p ∧ l.Idle := by
  unfold createLpSolver at h
  cases ht : p.solverType with
  | glop =>
    rw [ht] at h
    obtain ⟨n, -, h⟩ := Outcome.bind_eq_ok.mp h
    dsimp only at h
    by_cases hr : (Glop.setLpParameters n.1 n.2 p).2.2 = true
    · rw [if_pos hr] at h
      have h := Outcome.ok.inj h
      subst h
      exact ⟨⟨ht, fun hf => ⟨_, Glop.C48_set_get_partial n.1 n.2 p hr hf⟩⟩, trivial⟩
    · rw [if_neg hr] at h; cases h
  | soplex =>
    rw [ht] at h
    obtain ⟨s, hs, h⟩ := Outcome.bind_eq_ok.mp h
    obtain ⟨⟨s', ok⟩, hr, h⟩ := Outcome.bind_eq_ok.mp h
    dsimp only at h
    cases ok with
    | false => simp at h
    | true =>
      rw [if_pos rfl] at h
      have h := Outcome.ok.inj h
      subst h
      refine ⟨⟨ht, ?_⟩, rfl⟩
      unfold newSoplex at hs
      obtain ⟨⟨s0, ok0⟩, h0, hs⟩ := Outcome.bind_eq_ok.mp hs
      obtain ⟨_, hc, hs⟩ := Outcome.bind_eq_ok.mp hs
      have hs := Outcome.ok.inj hs
      subst hs
      rw [Outcome.check_eq_ok] at hc
      dsimp only at hc
      subst hc
      have h1 := Soplex.C49_set_get_partial _ _ _ _ _ hr
      have h2 := Soplex.C49_set_get_partial _ _ _ _ _ h0
      rw [h1, h2]
      rfl

theorem populate_reports {l l' : Lpi} {d : MipData} {p : LpParameters} {q : Problem}
    (hq : q.WellFormed) (hd : MipData.ofProblem hash q = .ok d)
    (hf : l.Idle)
    (h : l.populate d = .ok l') (hl : l.Reports p) : l'.Reports p := by
  cases l with
  | glop s g =>
    obtain ⟨g', -, h⟩ := Outcome.bind_eq_ok.mp h
    have h := Outcome.ok.inj h
    subst h
    exact hl
  | soplex g =>
    obtain ⟨g', hg, h⟩ := Outcome.bind_eq_ok.mp h
    have h := Outcome.ok.inj h
    subst h
    obtain ⟨g2, h1, -, -, h4, -⟩ := Soplex.C66_populate id (fun l => .refl l) q hq d hd g hf
    rw [hg] at h1
    have h1 := Outcome.ok.inj h1
    subst h1
    have hl' := hl
    simp only [Lpi.Reports] at hl' ⊢
    rw [h4]
    exact hl'

/-! ### C58 -/

/-- **C58**, partial: missing are the cut selector (`C58_selector_violated`), the default generator,
which the user cannot replace (`C58_generator_violated`), and the fields `cut_generators` and
`cut_selectors`, which are ignored (`C58_ignored_violated`).  Whenever `Create` succeeds on a well-formed
problem, tolerances, backtrack limit, runner limits, branching rule, branching direction and each LP
parameter are the user's where they set them and the documented defaults elsewhere (SoPlex: except
`solve_from_scratch` and `num_threads`, see C49); after the default generator the runner has exactly the
generators the user describes, in order. -/
theorem C58_user_wins_partial (e : External) (p : Problem) (hp : p.WellFormed) (user : ParamsMsg)
    (c : Created) (h : create e p user = .ok c) :
    Wins user.integralityTolerance (1 / 10 ^ 6) c.integralityTolerance ∧
    Wins user.numericalTolerance (1 / 10 ^ 9) c.numericalTolerance ∧
    Wins user.backtrackLimit 2 c.backtrackLimit ∧
    Wins (user.runner.bind (·.maxIterations)) 100 c.runner.params.maxIterations ∧
    Wins (user.runner.bind (·.maxNumCutsTotal)) 100 c.runner.params.maxNumCutsTotal ∧
    Wins (user.runner.bind (·.maxNumCutsAtRoot)) 100 c.runner.params.maxNumCutsAtRoot ∧
    Wins (user.runner.bind (·.maxNumCutsPerNode)) 100 c.runner.params.maxNumCutsPerNode ∧
    (∃ dir, Wins (user.branching.bind (·.direction)) .unspecified dir ∧
      (∀ s, user.branching.bind (·.rule) = some (.random s) →
        ∃ seed, Wins s 0 seed ∧ c.rule = .random seed dir) ∧
      (user.branching.bind (·.rule) = some .maxFractional ∨ user.branching.bind (·.rule) = none →
        c.rule = .maxFractional dir)) ∧
    (∃ first rest, c.runner.generators = first :: rest ∧ Describes defaultGenerator first ∧
      List.Forall₂ Describes
        (((user.cutRunner.map (·.generators)).getD []).filter (·.tableau.isSome)) rest) ∧
    ∃ lp, LpWins user.lp lp ∧ c.lpi.Reports lp := by
  obtain ⟨-, hd, ⟨l, hl, hl'⟩, h4, h5, h6, h7, h8⟩ := create_ok h
  obtain ⟨hr, hf⟩ := createLp_reports hl
  rw [h4, h6, h7, h8]
  refine ⟨wins_getD _ _, wins_getD _ _, wins_getD _ _, ?_, ?_, ?_, ?_, ⟨_, wins_getD _ _, ?_, ?_⟩,
    ⟨_, _, rfl, ?_, createGenerators_spec _⟩, ⟨_, lpWins _, populate_reports hp hd hf hl' hr⟩⟩
  · cases user.runner <;> exact wins_getD _ _
  · cases user.runner <;> exact wins_getD _ _
  · cases user.runner <;> exact wins_getD _ _
  · cases user.runner <;> exact wins_getD _ _
  · intro s hs
    refine ⟨_, wins_getD _ _, ?_⟩
    rw [h5, ParamsMsg.rule, hs]
    rfl
  · rintro (hs | hs) <;> rw [h5, ParamsMsg.rule, hs] <;> rfl
  · exact .tableau _ _ _ (wins_getD none 100) (wins_getD none true) (wins_getD none true)

/-! ### C73 -/

/-- What Glop takes, in terms of the parameters only. -/
structure GlopTakes (p : LpParameters) : Prop where
  valid : ValidParameters p
  solver : p.solverType = .glop
  scaling : p.scaling ≠ .leastSquares
  pricing : p.pricing ≠ .steepestEdgeQuickStart ∧ p.pricing ≠ .partialDantzig
  markowitz : p.minMarkowitz = .fin (-1)
  refactorization : p.refactorization = 0

/-- The LP interface holds the relaxation of the problem (rows up to `order` for SoPlex, see C66) and
asks for a solve. -/
def Lpi.Holds (order : List Entry → List Entry) (l : Lpi) (p : Problem) : Prop :=
  match l with
  | .glop _ g => Glop.Shows g p.relaxation ∧ Glop.isSolved g = false
  | .soplex g => Soplex.Shows order g p.relaxation ∧ g.isSolved = false

theorem populate_holds (order : List Entry → List Entry) (ho : ∀ l, (order l).Perm l) {l : Lpi}
    {d : MipData} {q : Problem} (hq : q.WellFormed) (hd : MipData.ofProblem hash q = .ok d)
    (hf : l.Idle) :
    ∃ l', l.populate d = .ok l' ∧ l'.Holds order q := by
  cases l with
  | glop s g =>
    obtain ⟨g', h1, h2, h3, -⟩ := Glop.C66_populate q hq d hd g
    exact ⟨.glop s g', by simp [Lpi.populate, h1], h2, h3⟩
  | soplex g =>
    obtain ⟨g', h1, h2, h3, -⟩ := Soplex.C66_populate order ho q hq d hd g hf
    exact ⟨.soplex g', by simp [Lpi.populate, h1], h2, h3⟩

/-- For a well-formed problem `Create` ends as `CreateLpSolver` does. -/
theorem create_of_lp (e : External) (p : Problem) (hp : p.WellFormed) (user : ParamsMsg) :
    (∀ l, createLpSolver e (user.lp.getD {}).read = .ok l → ∃ c, create e p user = .ok c) ∧
    ∀ m, createLpSolver e (user.lp.getD {}).read = .error m → create e p user = .error m := by
  obtain ⟨d, hd, -⟩ := MipData.ofProblem_spec e.order p hp
  have he : ¬ p.findError ≠ "" := not_not.mpr ((Problem.C08_validation_partial p).1 hp)
  unfold create
  dsimp only
  rw [if_neg he, createRunner_ok, createRule_ok, effectiveLp, hd]
  constructor
  · intro l hl
    obtain ⟨l', h1, -⟩ := populate_holds id (fun l => .refl l) hp hd (createLp_reports hl).2
    rw [hl]
    simp only [Outcome.bind_ok, h1, Outcome.orAbort]
    exact ⟨_, rfl⟩
  · intro m hm
    rw [hm]
    rfl

/-- **C73.**  `Create` reports every problem the validation rejects as an error. -/
theorem C73_invalid_problem (e : External) (p : Problem) (user : ParamsMsg) (h : p.findError ≠ "") :
    ∃ m, create e p user = .error m := by
  unfold create
  dsimp only
  rw [if_pos h]
  exact ⟨_, rfl⟩

/-- **C73**, the problem: whatever `Create` returns for a well-formed problem holds the data of that
problem and, in the LP interface, its relaxation. -/
theorem C73_created (order : List Entry → List Entry) (ho : ∀ l, (order l).Perm l) (e : External)
    (p : Problem) (hp : p.WellFormed) (user : ParamsMsg) (c : Created)
    (h : create e p user = .ok c) : c.data.Represents p ∧ c.lpi.Holds order p := by
  obtain ⟨-, hd, ⟨l, hl, hl'⟩, -⟩ := create_ok h
  obtain ⟨d, h1, hrep, -⟩ := MipData.ofProblem_spec e.order p hp
  obtain ⟨l2, h2, h3⟩ := populate_holds order ho hp hd (createLp_reports hl).2
  rw [hl'] at h2
  have h2 := Outcome.ok.inj h2
  subst h2
  rw [hd] at h1
  have h1 := Outcome.ok.inj h1
  subst h1
  exact ⟨hrep, h3⟩

theorem Wins.eq {α : Type} {u : Option α} {d v : α} (h : Wins u d v) : v = u.getD d := by
  cases u with
  | none => exact h.2 rfl
  | some w => exact h.1 w rfl

theorem LpWins.eq {u : Option LpMsg} {p : LpParameters} (h : LpWins u p) : p = (u.getD {}).read := by
  have h' := lpWins u
  obtain ⟨a1, a2, a3, a4, a5, a6, a7, a8, a9, a10, a11, a12, a13, a14, a15, a16, a17⟩ := h
  obtain ⟨b1, b2, b3, b4, b5, b6, b7, b8, b9, b10, b11, b12, b13, b14, b15, b16, b17⟩ := h'
  generalize (u.getD {}).read = q at *
  cases p
  cases q
  simp only [LpParameters.mk.injEq]
  exact ⟨a1.eq.trans b1.eq.symm, a2.eq.trans b2.eq.symm, a3.eq.trans b3.eq.symm,
    a4.eq.trans b4.eq.symm, a5.eq.trans b5.eq.symm, a6.eq.trans b6.eq.symm, a7.eq.trans b7.eq.symm,
    a8.eq.trans b8.eq.symm, a9.eq.trans b9.eq.symm, a10.eq.trans b10.eq.symm,
    a11.eq.trans b11.eq.symm, a12.eq.trans b12.eq.symm, a13.eq.trans b13.eq.symm,
    a14.eq.trans b14.eq.symm, a15.eq.trans b15.eq.symm, a16.eq.trans b16.eq.symm,
    a17.eq.trans b17.eq.symm⟩

theorem glop_set_iff (usertime : Bool) (s : Glop.Settings) (p : LpParameters) :
    (Glop.setLpParameters usertime s p).2.2 = Glop.supported p := by
  cases h : Glop.supported p with
  | false => simp [Glop.setLpParameters, h]
  | true =>
    obtain ⟨-, -, h3, h4, h5, -⟩ := (Glop.supported_iff p).mp h
    cases hs : p.scaling <;> cases hr : p.pricing <;>
      simp_all [Glop.setLpParameters, Glop.scalingOf, Glop.ruleOf]

theorem createGlop (e : External) (p : LpParameters) (hg : p.solverType = .glop) :
    (Glop.supported p = true → ∃ l, createLpSolver e p = .ok l) ∧
    (Glop.supported p = false → ∃ m, createLpSolver e p = .error m) := by
  obtain ⟨n, hn⟩ := newGlop_ok e
  have h := glop_set_iff n.1 n.2 p
  unfold createLpSolver
  rw [hg]
  simp only [hn, Outcome.bind_ok, h]
  constructor <;> intro hs <;> rw [hs]
  · exact ⟨_, rfl⟩
  · exact ⟨_, rfl⟩

/-- **C73** (Glop), partial: missing are messages with NaN, which may be accepted
(`C50_nan_violated`).  For a well-formed problem and LP parameters (the user's, else the defaults) for
Glop: if they are valid and supported `Create` succeeds, otherwise it returns an error; it never
aborts. -/
theorem C73_glop_partial (e : External) (p : Problem) (hp : p.WellFormed) (user : ParamsMsg)
    (lp : LpParameters) (hlp : LpWins user.lp lp) (hg : lp.solverType = .glop) :
    (GlopTakes lp → ∃ c, create e p user = .ok c) ∧
    ((∃ c, create e p user = .ok c) ∨ ∃ m, create e p user = .error m) ∧
    (lp.feasibilityTolerance ≠ .nan → lp.optimalityTolerance ≠ .nan → lp.timeLimit ≠ .nan →
      ∀ c, create e p user = .ok c → GlopTakes lp) := by
  have heq := hlp.eq
  obtain ⟨c1, c2⟩ := create_of_lp e p hp user
  obtain ⟨g1, g2⟩ := createGlop e lp hg
  rw [← heq] at c1 c2
  refine ⟨fun h => ?_, ?_, fun n1 n2 n3 c hc => ?_⟩
  · obtain ⟨l, hl⟩ := g1 ((Glop.supported_iff lp).mpr ⟨C50_valid_accepted lp h.valid, h.solver,
      h.scaling, h.pricing.1, h.pricing.2, h.markowitz, h.refactorization⟩)
    exact c1 l hl
  · cases hs : Glop.supported lp with
    | true => obtain ⟨l, hl⟩ := g1 hs; exact .inl (c1 l hl)
    | false => obtain ⟨m, hm⟩ := g2 hs; exact .inr ⟨m, c2 m hm⟩
  · cases hs : Glop.supported lp with
    | true =>
      obtain ⟨hv, h2, h3, h4, h5, h6, h7⟩ := (Glop.supported_iff lp).mp hs
      exact ⟨(C50_valid_iff_partial lp n1 n2 (by rw [h6]; simp) n3).mp hv, h2, h3, ⟨h4, h5⟩, h6, h7⟩
    | false =>
      obtain ⟨m, hm⟩ := g2 hs
      rw [c2 m hm] at hc
      cases hc

/-- With no user parameters `Create` succeeds for every well-formed problem. -/
theorem C73_default_parameters (e : External) (p : Problem) (hp : p.WellFormed) :
    ∃ c, create e p {} = .ok c := by
  refine (C73_glop_partial e p hp {} _ (lpWins _) rfl).1 ⟨⟨?_, ?_, ?_, ?_, ?_, ?_, ?_, ?_⟩, rfl, ?_,
    ?_, rfl, rfl⟩ <;> simp [LpMsg.read, ToleranceOk]

/-- What SoPlex takes, in terms of the parameters only. -/
structure SoplexTakes (p : LpParameters) : Prop where
  valid : ValidParameters p
  solver : p.solverType = .soplex
  scaling : p.scaling ≠ .linearProgram
  markowitz : p.minMarkowitz = .fin (-1) ∨
    ∃ q : ℚ, p.minMarkowitz = .fin q ∧ 1 / 10 ^ 4 ≤ q ∧ q ≤ 1 - 1 / 10 ^ 4
  timing : p.timing ≠ .deterministic
  threads : p.numThreads = 0 ∨ p.numThreads = 1

theorem soplexTakes_supported {p : LpParameters} (h : SoplexTakes p) : Soplex.supported p = true := by
  refine (Soplex.supported_iff p).mpr ⟨C50_valid_accepted p h.valid, h.solver, h.scaling, ?_, h.timing,
    h.threads⟩
  rcases h.markowitz with h | ⟨q, h, h1, h2⟩
  · exact .inl h
  · right
    rw [h]
    simp only [Dbl.lt, decide_eq_false_iff_not, not_lt]
    exact ⟨h1, h2⟩

theorem newSoplex_reached {e : External} {s : Soplex.Settings} (h : newSoplex e = .ok s) :
    Soplex.Reached e.accepts s := by
  unfold newSoplex at h
  obtain ⟨⟨s0, ok0⟩, h0, h⟩ := Outcome.bind_eq_ok.mp h
  obtain ⟨_, hc, h⟩ := Outcome.bind_eq_ok.mp h
  have h2 := Outcome.ok.inj h
  rw [Outcome.check_eq_ok] at hc
  dsimp only at hc h2
  subst hc h2
  exact ⟨_, _, _, h0⟩

/-- **C73** (SoPlex), partial: missing are values that are supported by the interface but rejected by
SoPlex (then `Create` returns an error).  Suppose SoPlex takes the parameters the constructor sets and
the value that stands for no time limit.  For a well-formed problem and LP parameters (the user's, else
the defaults) for SoPlex, `Create` never aborts; it succeeds if the parameters are valid and supported and
SoPlex accepts every value. -/
theorem C73_soplex_partial (e : External)
    (ht : e.accepts.real .timelimit (.fin (10 ^ 100 / 2)) = true) (s : Soplex.Settings)
    (hn : newSoplex e = .ok s) (p : Problem) (hp : p.WellFormed) (user : ParamsMsg)
    (lp : LpParameters) (hlp : LpWins user.lp lp) (hg : lp.solverType = .soplex) :
    ((∃ c, create e p user = .ok c) ∨ ∃ m, create e p user = .error m) ∧
    ((∀ r x, e.accepts.real r x = true) → (∀ r x, e.accepts.int r x = true) → SoplexTakes lp →
      ∃ c, create e p user = .ok c) := by
  have heq := hlp.eq
  obtain ⟨c1, c2⟩ := create_of_lp e p hp user
  rw [← heq] at c1 c2
  obtain ⟨s', ok, hs, -⟩ := Soplex.C65_rejection_harmless e.accepts ht s (newSoplex_reached hn) lp 0
  have hl : createLpSolver e lp =
      if ok = true then .ok (.soplex { settings := s' }) else .error "LP parameters" := by
    unfold createLpSolver
    rw [hg]
    simp only [hn, Outcome.bind_ok, hs, Nat.zero_add, Outcome.pure_eq]
  constructor
  · cases ok with
    | true => exact .inl (c1 _ hl)
    | false => exact .inr ⟨_, c2 _ hl⟩
  · intro h1 h2 h3
    have hsup := soplexTakes_supported h3
    have ha : (Soplex.assign e.accepts s lp).2 = true := by
      obtain ⟨-, -, h4, -, h5, -⟩ := (Soplex.supported_iff lp).mp hsup
      simp only [Soplex.assign, h1, h2, Bool.and_true]
      cases hsc : lp.scaling <;> cases htm : lp.timing <;> simp_all [Soplex.scalerOf, Soplex.timerOf]
    rw [Soplex.setLpParameters] at hs
    simp only [hsup, Bool.not_true, Bool.false_eq_true, if_false, ha, if_true] at hs
    have hs := Outcome.ok.inj hs
    simp only [Prod.mk.injEq] at hs
    rw [← hs.2] at hl
    exact c1 _ hl

/-- Settings of a new Glop, and a SoPlex that accepts everything. -/
def exExternal : External where
  usertime := false
  glop := ⟨false, true, .equilibration, true, .steepestEdge, .steepestEdge, .fin 0, .fin 0, .ninf, .pinf,
    .pinf, .pinf, -1, 1, 0, false⟩
  soplex := Soplex.initialSettings
  accepts := Soplex.acceptAll

/-- The hypotheses of the theorems hold for a user who sets LP parameters, a generator, a selector and a
branching rule. -/
def exUser : ParamsMsg where
  integralityTolerance := some (1 / 100)
  lp := some { timing := some .cpu, timeLimit := some (.fin 10) }
  cutRunner := some
    { generators := [{ maxNumCuts := some 5, tableau := some { useMir := some false } }]
      selectors := [{ hybrid := some { maxNumCuts := some 3 } }]
      defaultRunner := some { maxIterations := some 7 } }
  branching := some { rule := some (.random none), direction := some .up }

theorem exUser_takes : GlopTakes (exUser.lp.getD {}).read := by
  constructor
  · constructor <;> simp [exUser, LpMsg.read, ToleranceOk, Dbl.lt]
  all_goals simp [exUser, LpMsg.read]

theorem exUser_created : ∃ c, create exExternal Problem.exProblem exUser = .ok c :=
  (C73_glop_partial _ _ Problem.exProblem_wellFormed _ _ (lpWins _) rfl).1 exUser_takes

example : ∃ s, newSoplex exExternal = .ok s := ⟨_, rfl⟩

example : SoplexTakes { solverType := .soplex, minMarkowitz := .fin (1 / 2) } := by
  constructor
  · constructor <;> simp [ToleranceOk, Dbl.le]
  all_goals first | decide | norm_num

example : ∃ p : Problem, p.findError ≠ "" := by
  refine ⟨{ vars := [⟨"", 0, .fin 0, .fin 1, false⟩] }, fun h => ?_⟩
  rw [Problem.findError_iff] at h
  simp at h

/-! ### C58: violations -/

/-- **C58** is violated: the selector is the default one, whatever the user sets; here is a user who asks
for at most three cuts and gets no limit. -/
theorem C58_selector_violated :
    (∀ (e : External) (p : Problem) (user : ParamsMsg) (c : Created), create e p user = .ok c →
      c.runner.selector = {}) ∧
    ∃ (user : ParamsMsg) (c : Created), create exExternal Problem.exProblem user = .ok c ∧
      (user.cutRunner.map fun r => r.selectors.map fun s => s.hybrid.bind (·.maxNumCuts)) =
        some [some 3] ∧
      c.runner.selector.maxNumCuts = -1 := by
  have h : ∀ (e : External) (p : Problem) (user : ParamsMsg) (c : Created), create e p user = .ok c →
      c.runner.selector = {} := by
    intro e p user c h
    obtain ⟨-, -, -, h4, -⟩ := create_ok h
    rw [h4]
    rfl
  obtain ⟨c, hc⟩ := exUser_created
  exact ⟨h, exUser, c, hc, rfl, by rw [h _ _ _ _ hc]⟩

/-- **C58** is violated: the user cannot switch the default generator off; here is a user whose only
generator is without mixed integer rounding, and the solver has one with it. -/
theorem C58_generator_violated :
    (∀ (e : External) (p : Problem) (user : ParamsMsg) (c : Created), create e p user = .ok c →
      c.runner.generators.head? = some ⟨100, true, true⟩) ∧
    ∃ (user : ParamsMsg) (c : Created), create exExternal Problem.exProblem user = .ok c ∧
      (user.cutRunner.map fun r => r.generators.map fun g => g.tableau.bind (·.useMir)) =
        some [some false] ∧
      ∃ g ∈ c.runner.generators, g.useMir = true := by
  have h : ∀ (e : External) (p : Problem) (user : ParamsMsg) (c : Created), create e p user = .ok c →
      c.runner.generators.head? = some ⟨100, true, true⟩ := by
    intro e p user c h
    obtain ⟨-, -, -, h4, -⟩ := create_ok h
    rw [h4]
    rfl
  obtain ⟨c, hc⟩ := exUser_created
  exact ⟨h, exUser, c, hc, rfl, _, List.mem_of_head? (h _ _ _ _ hc), rfl⟩

/-- **C58** is violated: the fields `cut_generators` and `cut_selectors` have no effect at all. -/
theorem C58_ignored_violated (e : External) (p : Problem) (user : ParamsMsg)
    (generators : List GeneratorMsg) (selectors : List SelectorMsg) :
    create e p { user with cutGenerators := generators, cutSelectors := selectors } =
      create e p user := rfl

end Setup

/-! ### C60 -/

namespace Generator

/-- **C60.**  `IsIntegerWithinTolerance` holds exactly if some integer lies within the tolerance. -/
theorem C60_is_integer (tol d : ℚ) :
    isIntegerWithinTolerance tol d = true ↔ ∃ n : ℤ, |d - n| ≤ tol := by
  rw [near_iff, near_round_iff]

/-- **C60.**  `FloorWithTolerance` is the integer below `d + tol`. -/
theorem floorWithTolerance_eq (tol d : ℚ) (h0 : 0 ≤ tol) (h1 : tol < 1 / 2) :
    floorWithTolerance tol d = (⌊d + tol⌋ : ℤ) := by
  unfold floorWithTolerance
  by_cases h : isIntegerWithinTolerance tol d = true
  · rw [if_pos h]
    rw [near_iff, abs_le] at h
    congr 1
    symm
    rw [Int.floor_eq_iff]
    constructor <;> linarith [h.1, h.2]
  · rw [if_neg h]
    rw [C60_is_integer] at h
    push Not at h
    congr 1
    symm
    rw [Int.floor_eq_iff]
    have h2 := h (⌊d⌋ + 1)
    have h3 := Int.floor_le d
    have h4 := Int.lt_floor_add_one d
    refine ⟨by linarith, ?_⟩
    push_cast at h2
    rw [abs_of_nonpos (by linarith)] at h2
    linarith

/-- **C60.**  For a tolerance in [0, 1/2) `FloorWithTolerance(d)` is an integer; it is the next integer
above `d` if `d` is not an integer and that integer is within the tolerance, and `floor(d)` otherwise; it
differs from `d` by less than 1. -/
theorem C60_floor (tol d : ℚ) (h0 : 0 ≤ tol) (h1 : tol < 1 / 2) :
    ∃ n : ℤ, floorWithTolerance tol d = n ∧ |d - n| < 1 ∧
      (d < ⌊d⌋ + 1 - tol → n = ⌊d⌋) ∧ (⌊d⌋ + 1 - tol ≤ d → n = ⌊d⌋ + 1) := by
  have h3 := Int.floor_le d
  have h4 := Int.lt_floor_add_one d
  have h5 := Int.floor_le (d + tol)
  have h6 := Int.lt_floor_add_one (d + tol)
  refine ⟨⌊d + tol⌋, floorWithTolerance_eq tol d h0 h1, ?_, fun h => ?_, fun h => ?_⟩
  · rw [abs_lt]; constructor <;> linarith
  · rw [Int.floor_eq_iff]; constructor <;> linarith
  · rw [Int.floor_eq_iff]; push_cast; constructor <;> linarith

example : ∃ n : ℤ, floorWithTolerance (1 / 10) (39 / 10 + 1 / 20) = n :=
  (C60_floor _ _ (by norm_num) (by norm_num)).imp fun _ h => h.1

end Generator
end MiniMip
