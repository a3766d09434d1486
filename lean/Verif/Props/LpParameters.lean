import Verif.Model.LpParameters
import Mathlib.Tactic.NormNum
import Mathlib.Tactic.SplitIfs

/-!
# Properties C48, C49, C50 and C65: LP parameters
-/

namespace MiniMip

/-! ### C50 -/

/-- Non-negative, or -1 for the default. -/
def ToleranceOk (x : Dbl) : Prop := Dbl.le (.fin 0) x = true ∨ x = .fin (-1)

/-- The documented requirements on a parameter message (parameters.proto:116-207). -/
structure ValidParameters (p : LpParameters) : Prop where
  feasibility : ToleranceOk p.feasibilityTolerance
  optimality : ToleranceOk p.optimalityTolerance
  markowitz : ToleranceOk p.minMarkowitz
  refactorization : 0 ≤ p.refactorization
  timeLimit : p.timing ≠ .off → Dbl.lt (.fin 0) p.timeLimit = true
  iterationLimit : 0 ≤ p.iterationLimit
  numThreads : 0 ≤ p.numThreads
  randomSeed : 0 ≤ p.randomSeed

theorem badTolerance_false {x : Dbl} : badTolerance x = false ↔ ToleranceOk x ∨ x = .nan := by
  cases x <;> simp [badTolerance, ToleranceOk, Dbl.lt, Dbl.ne, Dbl.eq, Dbl.le]
  rename_i q
  constructor
  · intro h
    by_cases hq : 0 ≤ q
    · exact .inl hq
    · exact .inr (h (by linarith))
  · rintro (h | h)
    · intro h'; linarith
    · intro _; exact h

theorem timeLimit_ok {x : Dbl} : ¬ Dbl.le x (.fin 0) = true ↔ Dbl.lt (.fin 0) x = true ∨ x = .nan := by
  cases x <;> simp [Dbl.le, Dbl.lt]

theorem lpParametersAreValid_iff (p : LpParameters) : lpParametersAreValid p = true ↔
    (ToleranceOk p.feasibilityTolerance ∨ p.feasibilityTolerance = .nan) ∧
    (ToleranceOk p.optimalityTolerance ∨ p.optimalityTolerance = .nan) ∧
    (ToleranceOk p.minMarkowitz ∨ p.minMarkowitz = .nan) ∧
    0 ≤ p.refactorization ∧
    (p.timing ≠ .off → Dbl.lt (.fin 0) p.timeLimit = true ∨ p.timeLimit = .nan) ∧
    0 ≤ p.iterationLimit ∧ 0 ≤ p.numThreads ∧ 0 ≤ p.randomSeed := by
  simp only [← badTolerance_false, ← timeLimit_ok]
  unfold lpParametersAreValid
  split_ifs <;> simp_all

/-- **C50**, partial: what is missing are NaNs (`C50_nan_violated`).  For messages without NaN,
`LpParametersAreValid` returns OK exactly for the messages that meet the requirements. -/
theorem C50_valid_iff_partial (p : LpParameters) (h1 : p.feasibilityTolerance ≠ .nan)
    (h2 : p.optimalityTolerance ≠ .nan) (h3 : p.minMarkowitz ≠ .nan) (h4 : p.timeLimit ≠ .nan) :
    lpParametersAreValid p = true ↔ ValidParameters p := by
  rw [lpParametersAreValid_iff]
  simp only [h1, h2, h3, h4, or_false]
  constructor
  · rintro ⟨a, b, c, d, e, f, g, h⟩; exact ⟨a, b, c, d, e, f, g, h⟩
  · rintro ⟨a, b, c, d, e, f, g, h⟩; exact ⟨a, b, c, d, e, f, g, h⟩

/-- **C50**, one direction for all messages: a message that meets the requirements is accepted. -/
theorem C50_valid_accepted (p : LpParameters) (h : ValidParameters p) :
    lpParametersAreValid p = true := by
  rw [lpParametersAreValid_iff]
  exact ⟨.inl h.feasibility, .inl h.optimality, .inl h.markowitz, h.refactorization,
    fun ht => .inl (h.timeLimit ht), h.iterationLimit, h.numThreads, h.randomSeed⟩

example : ValidParameters
    { timing := .cpu, timeLimit := .fin 10, feasibilityTolerance := .fin (1 / 1000) } := by
  constructor <;> simp [ToleranceOk, Dbl.le, Dbl.lt]

/-- **C50** is violated by NaN: a NaN tolerance, and a NaN time limit with timing on, are accepted. -/
theorem C50_nan_violated :
    (lpParametersAreValid { feasibilityTolerance := .nan } = true ∧
      ¬ ValidParameters { feasibilityTolerance := .nan }) ∧
    (lpParametersAreValid { timing := .wallclock, timeLimit := .nan } = true ∧
      ¬ ValidParameters { timing := .wallclock, timeLimit := .nan }) := by
  refine ⟨⟨by decide +kernel, fun h => ?_⟩, by decide +kernel, fun h => ?_⟩
  · have := h.feasibility; simp [ToleranceOk, Dbl.le] at this
  · have := h.timeLimit (by simp); simp [Dbl.lt] at this

/-! ### C48: Glop -/

namespace Glop

/-- The parameters a client expects to read after setting `p`: defaults replaced by the values the
interface documents; without timing there is no limit. -/
def resolved (p : LpParameters) : LpParameters :=
  { p with
    scaling := if p.scaling = .default then .equilibration else p.scaling
    pricing := if p.pricing = .default then .steepestEdge else p.pricing
    feasibilityTolerance :=
      if p.feasibilityTolerance = .fin (-1) then .fin (1 / 10 ^ 8) else p.feasibilityTolerance
    optimalityTolerance :=
      if p.optimalityTolerance = .fin (-1) then .fin (1 / 10 ^ 8) else p.optimalityTolerance
    timeLimit := if p.timing = .off then .pinf else p.timeLimit
    numThreads := if p.numThreads = 0 then 1 else p.numThreads }

theorem glopTolerance_eq (x : Dbl) :
    glopTolerance x = if x = .fin (-1) then .fin (1 / 10 ^ 8) else x := by
  cases x <;> simp [glopTolerance, Dbl.eq]

theorem supported_iff (p : LpParameters) : supported p = true ↔
    lpParametersAreValid p = true ∧ p.solverType = .glop ∧ p.scaling ≠ .leastSquares ∧
    p.pricing ≠ .steepestEdgeQuickStart ∧ p.pricing ≠ .partialDantzig ∧
    p.minMarkowitz = .fin (-1) ∧ p.refactorization = 0 := by
  have hm : Dbl.ne p.minMarkowitz (.fin (-1)) = true ↔ p.minMarkowitz ≠ .fin (-1) := by
    cases p.minMarkowitz <;> simp [Dbl.ne, Dbl.eq]
  unfold supported
  split_ifs <;> simp_all
  tauto

/-- **C48**, first half, for all messages: a rejected message changes neither the settings of the
interface nor the global flag. -/
theorem C48_rejection_harmless (usertime : Bool) (s : Settings) (p : LpParameters)
    (h : (setLpParameters usertime s p).2.2 = false) :
    setLpParameters usertime s p = (usertime, s, false) := by
  unfold setLpParameters at h ⊢
  cases hs : supported p with
  | false => simp
  | true =>
    obtain ⟨-, -, h1, h2, h3, -⟩ := (supported_iff p).mp hs
    simp only [hs] at h ⊢
    cases hp : p.scaling <;> cases hq : p.pricing <;> simp_all [scalingOf, ruleOf]

example : (setLpParameters false ⟨false, true, .equilibration, true, .steepestEdge, .steepestEdge,
    .fin 0, .fin 0, .ninf, .pinf, .pinf, .pinf, -1, 1, 0, false⟩
    { randomSeed := -1 }).2.2 = false := by decide +kernel

/-- The state after an accepted message. -/
theorem set_ok {usertime : Bool} {s : Settings} {p : LpParameters}
    (h : (setLpParameters usertime s p).2.2 = true) :
    supported p = true ∧ ∃ sc rule, scalingOf p.scaling = some sc ∧ ruleOf p.pricing = some rule ∧
      setLpParameters usertime s p =
        ((timesOf usertime p.timing p.timeLimit).2.2,
          { solveFromScratch := p.solveFromScratch
            useScaling := sc.1
            scalingMethod := sc.2
            usePreprocessing := p.usePresolve
            feasibilityRule := rule
            optimizationRule := rule
            primalTolerance := glopTolerance p.feasibilityTolerance
            dualTolerance := glopTolerance p.optimalityTolerance
            objectiveLower := p.objectiveLower
            objectiveUpper := p.objectiveUpper
            maxTime := (timesOf usertime p.timing p.timeLimit).1
            maxDeterministicTime := (timesOf usertime p.timing p.timeLimit).2.1
            maxIterations := if p.iterationLimit = 0 then -1 else p.iterationLimit
            numThreads := if p.numThreads = 0 then 1 else p.numThreads
            randomSeed := p.randomSeed
            logSearchProgress := p.output }, true) := by
  unfold setLpParameters at h ⊢
  cases hs : supported p with
  | false => simp [hs] at h
  | true =>
    simp only [hs, Bool.not_true, Bool.false_eq_true, if_false] at h ⊢
    cases h1 : scalingOf p.scaling with
    | none => simp [h1] at h
    | some sc =>
      cases h2 : ruleOf p.pricing with
      | none => simp [h1, h2] at h
      | some rule => exact ⟨by simp, sc, rule, rfl, rfl, rfl⟩

/-- **C48**, second half, partial: what is missing are infinite or NaN limits with timing on
(`C48_infinite_limit_violated`) and other interfaces in the same process
(`C48_other_interface_violated`).  After an accepted message, `GetLpParameters` returns it with the
defaults resolved. -/
theorem C48_set_get_partial (usertime : Bool) (s : Settings) (p : LpParameters)
    (h : (setLpParameters usertime s p).2.2 = true)
    (ht : p.timing ≠ .off → ∃ t, p.timeLimit = .fin t) :
    getLpParameters (setLpParameters usertime s p).1 (setLpParameters usertime s p).2.1 =
      resolved p := by
  obtain ⟨hs, sc, rule, h1, h2, h3⟩ := set_ok h
  obtain ⟨hv, hty, h4, h5, h6, h7, h8⟩ := (supported_iff p).mp hs
  obtain ⟨-, -, -, -, -, h9, -, -⟩ := (lpParametersAreValid_iff p).mp hv
  rw [h3]
  have hfin : p.timing ≠ .off → ∃ q, p.timeLimit = .fin q := ht
  have hit : (if (if p.iterationLimit = 0 then -1 else p.iterationLimit) = -1 then (0 : Int)
      else if p.iterationLimit = 0 then -1 else p.iterationLimit) = p.iterationLimit := by
    split_ifs <;> omega
  have hsc : (if sc.1 then scalingMethodBack sc.2 else .off) =
      if p.scaling = .default then .equilibration else p.scaling := by
    cases hp : p.scaling <;> rw [hp] at h1 <;> simp [scalingOf] at h1 <;> subst h1 <;> simp [scalingMethodBack]
  have hpr : ruleBack rule = if p.pricing = .default then .steepestEdge else p.pricing := by
    cases hp : p.pricing <;> rw [hp] at h2 <;> simp [ruleOf] at h2 <;> subst h2 <;> simp [ruleBack]
  cases htm : p.timing with
  | off =>
    simp only [getLpParameters, timesOf, hit, hsc, hpr, resolved, glopTolerance_eq, htm]
    simp [Dbl.lt, hty, h7, h8]
  | wallclock =>
    obtain ⟨q, hq⟩ := hfin (by simp [htm])
    simp only [getLpParameters, timesOf, hit, hsc, hpr, resolved, glopTolerance_eq, htm, hq]
    simp [Dbl.lt, hty, h7, h8]
  | cpu =>
    obtain ⟨q, hq⟩ := hfin (by simp [htm])
    simp only [getLpParameters, timesOf, hit, hsc, hpr, resolved, glopTolerance_eq, htm, hq]
    simp [Dbl.lt, hty, h7, h8]
  | deterministic =>
    obtain ⟨q, hq⟩ := hfin (by simp [htm])
    simp only [getLpParameters, timesOf, hit, hsc, hpr, resolved, glopTolerance_eq, htm, hq]
    simp [Dbl.lt, hty, h7, h8]

/-- A resolved message is its own resolution, and it is accepted when the message was. -/
theorem resolved_resolved (p : LpParameters) (h : supported p = true) :
    supported (resolved p) = true ∧ resolved (resolved p) = resolved p := by
  obtain ⟨hv, hty, h4, h5, h6, h7, h8⟩ := (supported_iff p).mp h
  obtain ⟨a, b, c, d, e, f, g, i⟩ := (lpParametersAreValid_iff p).mp hv
  constructor
  · rw [supported_iff, lpParametersAreValid_iff]
    have htol : ∀ x, (ToleranceOk x ∨ x = .nan) →
        (ToleranceOk (if x = .fin (-1) then .fin (1 / 10 ^ 8) else x) ∨
          (if x = .fin (-1) then .fin (1 / 10 ^ 8) else x) = .nan) := by
      intro x hx
      split_ifs
      · left; left; norm_num [Dbl.le]
      · exact hx
    refine ⟨⟨htol _ a, htol _ b, c, d, ?_, f, ?_, i⟩, hty, ?_, ?_, ?_, h7, h8⟩
    · intro ht
      have ht : p.timing ≠ .off := ht
      simpa [resolved, ht] using e ht
    · simp only [resolved]; split_ifs <;> omega
    · simp only [resolved]; split_ifs <;> simp_all
    · simp only [resolved]; split_ifs <;> simp_all
    · simp only [resolved]; split_ifs <;> simp_all
  · cases p
    simp only [resolved, LpParameters.mk.injEq]
    refine ⟨trivial, trivial, ?_, trivial, ?_, ?_, ?_, trivial, trivial, trivial, trivial, trivial,
      ?_, trivial, ?_, trivial, trivial⟩ <;>
      split_ifs <;> simp_all

/-- **C48**, last part, partial as above: setting what was read back is accepted and changes
nothing. -/
theorem C48_set_back_partial (usertime : Bool) (s : Settings) (p : LpParameters)
    (h : (setLpParameters usertime s p).2.2 = true)
    (ht : p.timing ≠ .off → ∃ t, p.timeLimit = .fin t) :
    let u' := (setLpParameters usertime s p).1
    let s' := (setLpParameters usertime s p).2.1
    setLpParameters u' s' (getLpParameters u' s') = (u', s', true) := by
  intro u' s'
  rw [C48_set_get_partial usertime s p h ht]
  obtain ⟨hs, sc, rule, h1, h2, h3⟩ := set_ok h
  have hs' := (resolved_resolved p hs).1
  have hu : u' = (timesOf usertime p.timing p.timeLimit).2.2 := by simp only [u', h3]
  have hse : s' = _ := congrArg (fun x => x.2.1) h3
  simp only at hse
  have hsc : scalingOf (resolved p).scaling = some sc := by
    cases hp : p.scaling <;> rw [hp] at h1 <;> simp_all [scalingOf, resolved]
  have hru : ruleOf (resolved p).pricing = some rule := by
    cases hp : p.pricing <;> rw [hp] at h2 <;> simp_all [ruleOf, resolved]
  unfold setLpParameters
  simp only [hs', hsc, hru, Bool.not_true, Bool.false_eq_true, if_false]
  rw [hu, hse]
  have h4 : glopTolerance (resolved p).feasibilityTolerance = glopTolerance p.feasibilityTolerance := by
    simp only [glopTolerance_eq, resolved]; split_ifs <;> simp_all
  have h5 : glopTolerance (resolved p).optimalityTolerance = glopTolerance p.optimalityTolerance := by
    simp only [glopTolerance_eq, resolved]; split_ifs <;> simp_all
  have h6 : timesOf (timesOf usertime p.timing p.timeLimit).2.2 (resolved p).timing
      (resolved p).timeLimit = timesOf usertime p.timing p.timeLimit := by
    cases htm : p.timing <;> simp [timesOf, resolved, htm]
  have h7 : (if (resolved p).numThreads = 0 then 1 else (resolved p).numThreads) =
      if p.numThreads = 0 then 1 else p.numThreads := by
    simp only [resolved]; split_ifs <;> simp_all
  rw [h4, h5, h6, h7]
  rfl

/-- A message that meets the hypotheses of the two theorems. -/
example : (setLpParameters false ⟨false, true, .equilibration, true, .steepestEdge, .steepestEdge,
    .fin 0, .fin 0, .ninf, .pinf, .pinf, .pinf, -1, 1, 0, false⟩
    { timing := .wallclock, timeLimit := .fin 10, iterationLimit := 3 }).2.2 = true := by
  decide +kernel

/-- **C48** is violated when timing is on without a limit: for every interface, the accepted message
"wall clock, infinite limit" is read back as "timing off". -/
theorem C48_infinite_limit_violated (usertime : Bool) (s : Settings) :
    let r := setLpParameters usertime s { timing := .wallclock, timeLimit := .pinf }
    r.2.2 = true ∧ (getLpParameters r.1 r.2.1).timing = .off :=
  ⟨rfl, rfl⟩

/-- **C48** is violated by the global flag: interface `s` is set to wall clock, interface `s2` to CPU
time, and interface `s` now reads CPU time. -/
theorem C48_other_interface_violated (usertime : Bool) (s s2 : Settings) :
    let r := setLpParameters usertime s { timing := .wallclock, timeLimit := .fin 10 }
    let r2 := setLpParameters r.1 s2 { timing := .cpu, timeLimit := .fin 5 }
    r.2.2 = true ∧ r2.2.2 = true ∧
    (getLpParameters r.1 r.2.1).timing = .wallclock ∧
    (getLpParameters r2.1 r.2.1).timing = .cpu :=
  ⟨rfl, rfl, rfl, rfl⟩

end Glop

/-! ### C49 and C65: SoPlex -/

namespace Soplex

/-- The parameters a client expects to read after setting `p`: defaults resolved, limits trimmed to
SoPlex's infinity, no limit without timing. -/
def resolved (p : LpParameters) : LpParameters :=
  { p with
    scaling := if p.scaling = .default then .equilibration else p.scaling
    feasibilityTolerance :=
      if p.feasibilityTolerance = .fin (-1) then .fin (1 / 10 ^ 6) else p.feasibilityTolerance
    optimalityTolerance :=
      if p.optimalityTolerance = .fin (-1) then .fin (1 / 10 ^ 6) else p.optimalityTolerance
    minMarkowitz := if p.minMarkowitz = .fin (-1) then .fin (1 / 10 ^ 4) else p.minMarkowitz
    objectiveLower := Dbl.max (.fin (-(10 ^ 100))) p.objectiveLower
    objectiveUpper := Dbl.min (.fin (10 ^ 100)) p.objectiveUpper
    timeLimit := if p.timing = .off then .pinf
      else if Dbl.le (.fin (10 ^ 100)) p.timeLimit then .fin (10 ^ 100 / 2) else p.timeLimit
    iterationLimit := if p.iterationLimit ≥ 2147483647 then 0 else p.iterationLimit }

theorem orDefault_eq (x : Dbl) (d : ℚ) : orDefault x d = if x = .fin (-1) then .fin d else x := by
  cases x <;> simp [orDefault, Dbl.eq]

theorem supported_iff (p : LpParameters) : supported p = true ↔
    lpParametersAreValid p = true ∧ p.solverType = .soplex ∧ p.scaling ≠ .linearProgram ∧
    (p.minMarkowitz = .fin (-1) ∨ (Dbl.lt p.minMarkowitz (.fin (1 / 10 ^ 4)) = false ∧
      Dbl.lt (.fin (1 - 1 / 10 ^ 4)) p.minMarkowitz = false)) ∧
    p.timing ≠ .deterministic ∧ (p.numThreads = 0 ∨ p.numThreads = 1) := by
  have hm : Dbl.ne p.minMarkowitz (.fin (-1)) = true ↔ p.minMarkowitz ≠ .fin (-1) := by
    cases p.minMarkowitz <;> simp [Dbl.ne, Dbl.eq]
  unfold supported
  simp only [hm]
  clear hm
  generalize Dbl.lt p.minMarkowitz (.fin (1 / 10 ^ 4)) = x
  generalize Dbl.lt (.fin (1 - 1 / 10 ^ 4)) p.minMarkowitz = y
  cases x <;> cases y <;> split_ifs <;> simp_all <;> tauto

/-- The settings after all values were accepted. -/
theorem assign_ok {a : Accepts} {s : Settings} {p : LpParameters} (h : (assign a s p).2 = true) :
    (assign a s p).1 =
      { solveFromScratch := s.solveFromScratch
        scaler := (scalerOf p.scaling).1
        simplifier := p.usePresolve
        pricer := pricerOf p.pricing
        feastol := orDefault p.feasibilityTolerance (1 / 10 ^ 6)
        opttol := orDefault p.optimalityTolerance (1 / 10 ^ 6)
        minMarkowitz := orDefault p.minMarkowitz (1 / 10 ^ 4)
        factorUpdateMax := p.refactorization
        objlimitLower := Dbl.max (Dbl.neg infinity) p.objectiveLower
        objlimitUpper := Dbl.min infinity p.objectiveUpper
        timer := (timerOf p.timing).1
        timelimit := timeLimitOf p.timeLimit
        iterlimit := iterationLimitOf p.iterationLimit
        seed := p.randomSeed
        debug := p.output } := by
  simp only [assign, Bool.and_eq_true] at h
  obtain ⟨⟨⟨⟨⟨⟨⟨⟨⟨h1, h2⟩, h3⟩, h4⟩, h5⟩, h6⟩, h7⟩, h8⟩, h9⟩, h10⟩ := h
  simp only [assign, h2, h3, h4, h5, h6, h7, h9, h10, if_true]

theorem set_true {a : Accepts} {n : Nat} {s s' : Settings} {p : LpParameters}
    (h : setLpParameters a n s p = .ok (s', true)) :
    supported p = true ∧ (assign a s p).2 = true ∧ s' = (assign a s p).1 := by
  cases n with
  | zero => simp [setLpParameters] at h
  | succ n =>
    rw [setLpParameters] at h
    cases hs : supported p with
    | false => simp [hs] at h
    | true =>
      simp only [hs, Bool.not_true, Bool.false_eq_true, if_false] at h
      cases ha : (assign a s p).2 with
      | true =>
        simp only [ha, if_true] at h
        have h := Outcome.ok.inj h
        simp only [Prod.mk.injEq] at h
        exact ⟨rfl, rfl, h.1.symm⟩
      | false =>
        simp only [ha, Bool.false_eq_true, if_false] at h
        obtain ⟨⟨s1, ok⟩, -, h⟩ := Outcome.bind_eq_ok.mp h
        obtain ⟨-, -, h⟩ := Outcome.bind_eq_ok.mp h
        have h := Outcome.ok.inj h
        simp at h

theorem timeLimitOf_eq {x : Dbl} (h : Dbl.lt (.fin 0) x = true ∨ x = .nan) :
    timeLimitOf x = if Dbl.le (.fin (10 ^ 100)) x then .fin (10 ^ 100 / 2) else x := by
  rcases h with h | rfl
  · cases x <;> simp [timeLimitOf, infinity, Dbl.eq, Dbl.lt] at h ⊢
    rename_i q
    have : q ≠ 0 := ne_of_gt h
    simp [this]
  · rfl

theorem iterationLimit_eq (x : Int) (h : 0 ≤ x) :
    (if iterationLimitOf x = -1 then 0 else iterationLimitOf x) =
      if x ≥ 2147483647 then 0 else x := by
  simp only [iterationLimitOf, intMax]
  split_ifs <;> omega

/-- What `GetLpParameters` returns after an accepted message: the message resolved, except that
`solve_from_scratch` is the old one and `num_threads` is not returned. -/
theorem get_assign {a : Accepts} {s : Settings} {p : LpParameters} (hs : supported p = true)
    (h : (assign a s p).2 = true) :
    getLpParameters (assign a s p).1 =
      { resolved p with solveFromScratch := s.solveFromScratch, numThreads := 0 } := by
  obtain ⟨hv, hty, h4, h5, h6, h7⟩ := (supported_iff p).mp hs
  obtain ⟨-, -, -, -, ht, hi, -, -⟩ := (lpParametersAreValid_iff p).mp hv
  rw [assign_ok h]
  simp only [getLpParameters, resolved, LpParameters.mk.injEq, orDefault_eq, iterationLimit_eq _ hi]
  refine ⟨hty.symm, trivial, ?_, trivial, ?_, trivial, trivial, trivial, trivial, rfl, rfl, ?_, ?_,
    trivial, trivial, trivial, trivial⟩
  · cases hp : p.scaling <;> simp_all [scalerOf]
  · cases hp : p.pricing <;> simp [pricerOf]
  · cases hp : p.timing <;> simp_all [timerOf]
  · cases hp : p.timing with
    | off => simp [timerOf]
    | deterministic => exact absurd hp h6
    | wallclock =>
      simp only [timerOf]
      rw [timeLimitOf_eq (ht (by simp [hp]))]
      simp
    | cpu =>
      simp only [timerOf]
      rw [timeLimitOf_eq (ht (by simp [hp]))]
      simp

/-- **C49**, partial: what is missing are `solve_from_scratch` and `num_threads`
(`C49_solve_from_scratch_violated`, `C49_num_threads_violated`).  After an accepted message,
`GetLpParameters` returns its other fields with the defaults resolved. -/
theorem C49_set_get_partial (a : Accepts) (n : Nat) (s s' : Settings) (p : LpParameters)
    (h : setLpParameters a n s p = .ok (s', true)) :
    getLpParameters s' =
      { resolved p with
        solveFromScratch := (getLpParameters s).solveFromScratch, numThreads := 0 } := by
  obtain ⟨hs, h1, rfl⟩ := set_true h
  exact get_assign hs h1

/-- A SoPlex that accepts every value and the settings of a new interface. -/
def acceptAll : Accepts := ⟨fun _ _ => true, fun _ _ => true⟩
def initialSettings : Settings :=
  ⟨false, .biequi, true, .auto, .fin (1 / 10 ^ 6), .fin (1 / 10 ^ 6), .fin (1 / 10 ^ 4), 0,
    .fin (-(10 ^ 100)), .fin (10 ^ 100), .off, .fin (10 ^ 100 / 2), -1, 0, false⟩

example : ∃ s', setLpParameters acceptAll 1 initialSettings
    { solverType := .soplex, timing := .cpu, timeLimit := .fin 10 } = .ok (s', true) := ⟨_, rfl⟩

/-- **C49** is violated by `solve_from_scratch`: no accepted message ever changes what is read. -/
theorem C49_solve_from_scratch_violated (a : Accepts) (n : Nat) (s s' : Settings)
    (p : LpParameters) (h : setLpParameters a n s p = .ok (s', true))
    (hp : p.solveFromScratch ≠ s.solveFromScratch) :
    (getLpParameters s').solveFromScratch ≠ p.solveFromScratch := by
  rw [C49_set_get_partial a n s s' p h]
  exact fun h' => hp h'.symm

example : ∃ s', setLpParameters acceptAll 1 initialSettings
    { solverType := .soplex, solveFromScratch := true } = .ok (s', true) := ⟨_, rfl⟩

/-- **C49** is violated by `num_threads`: 1 is accepted and 0 is read. -/
theorem C49_num_threads_violated :
    ∃ s', setLpParameters acceptAll 1 initialSettings
      { solverType := .soplex, numThreads := 1 } = .ok (s', true) ∧
      (getLpParameters s').numThreads = 0 := ⟨_, rfl, rfl⟩

theorem max_max (x y : Dbl) : Dbl.max x (Dbl.max x y) = Dbl.max x y := by
  cases hl : Dbl.lt x y with
  | true => simp [Dbl.max, hl]
  | false =>
    have : Dbl.lt x x = false := by cases x <;> simp [Dbl.lt]
    simp [Dbl.max, hl, this]

theorem min_min (x y : Dbl) : Dbl.min x (Dbl.min x y) = Dbl.min x y := by
  cases hl : Dbl.lt y x with
  | true => simp [Dbl.min, hl]
  | false =>
    have : Dbl.lt x x = false := by cases x <;> simp [Dbl.lt]
    simp [Dbl.min, hl, this]

/-- Reading back an accepted message gives a message that is supported, and whose values SoPlex
accepts. -/
theorem restore_ok {a : Accepts} {s0 s1 : Settings} {p : LpParameters} (hs : supported p = true)
    (h : (assign a s0 p).2 = true) (ht : a.real .timelimit (.fin (10 ^ 100 / 2)) = true) :
    supported (getLpParameters (assign a s0 p).1) = true ∧
    (assign a s1 (getLpParameters (assign a s0 p).1)).2 = true := by
  rw [get_assign hs h]
  obtain ⟨hv, hty, h4, h5, h6, h7⟩ := (supported_iff p).mp hs
  obtain ⟨va, vb, vc, vd, ve, vf, vg, vi⟩ := (lpParametersAreValid_iff p).mp hv
  have htol : ∀ (x : Dbl) (d : ℚ), 0 ≤ d → (ToleranceOk x ∨ x = .nan) →
      (ToleranceOk (if x = .fin (-1) then .fin d else x) ∨
        (if x = .fin (-1) then .fin d else x) = .nan) := by
    intro x d hd hx
    split_ifs
    · left; left; simpa [Dbl.le] using hd
    · exact hx
  constructor
  · rw [supported_iff, lpParametersAreValid_iff]
    refine ⟨⟨htol _ _ (by norm_num) va, htol _ _ (by norm_num) vb, htol _ _ (by norm_num) vc, vd, ?_,
      ?_, by simp, vi⟩, hty, ?_, ?_, h6, by simp⟩
    · intro htm
      have htm : p.timing ≠ .off := htm
      simp only [resolved, htm, if_false]
      split_ifs
      · left; norm_num [Dbl.lt]
      · exact ve htm
    · simp only [resolved]; split_ifs <;> omega
    · simp only [resolved]; split_ifs <;> simp_all
    · simp only [resolved]
      split_ifs with hm
      · right; norm_num [Dbl.lt]
      · rcases h5 with h5 | h5
        · exact absurd h5 hm
        · exact .inr h5
  · simp only [assign, Bool.and_eq_true] at h ⊢
    obtain ⟨⟨⟨⟨⟨⟨⟨⟨⟨h1, h2⟩, h3⟩, h4'⟩, h5'⟩, h6'⟩, h7'⟩, h8⟩, h9⟩, h10⟩ := h
    have hod : ∀ (x : Dbl) (d : ℚ), orDefault (if x = .fin (-1) then .fin d else x) d =
        orDefault x d := by
      intro x d; simp only [orDefault_eq]; split_ifs <;> simp_all
    refine ⟨⟨⟨⟨⟨⟨⟨⟨⟨?_, ?_⟩, ?_⟩, ?_⟩, ?_⟩, ?_⟩, ?_⟩, ?_⟩, ?_⟩, ?_⟩
    · cases hp : p.scaling <;> simp_all [resolved, scalerOf]
    · simpa only [resolved, hod] using h2
    · simpa only [resolved, hod] using h3
    · simpa only [resolved, hod] using h4'
    · exact h5'
    · have : Dbl.max (Dbl.neg infinity) (resolved p).objectiveLower =
          Dbl.max (Dbl.neg infinity) p.objectiveLower := max_max _ _
      rw [this]; exact h6'
    · have : Dbl.min infinity (resolved p).objectiveUpper = Dbl.min infinity p.objectiveUpper :=
        min_min _ _
      rw [this]; exact h7'
    · exact h8
    · by_cases htm : p.timing = .off
      · have : timeLimitOf (resolved p).timeLimit = .fin (10 ^ 100 / 2) := by
          simp [resolved, htm, timeLimitOf, infinity, Dbl.eq, Dbl.le]
        rw [this]; exact ht
      · have h11 := timeLimitOf_eq (ve htm)
        have : timeLimitOf (resolved p).timeLimit = timeLimitOf p.timeLimit := by
          rw [h11]
          simp only [resolved, htm, if_false]
          split_ifs with h12
          · simp only [timeLimitOf, infinity, Dbl.eq, Dbl.le]
            norm_num
          · rw [h11, if_neg h12]
        rw [this]; exact h9
    · have : iterationLimitOf (resolved p).iterationLimit = iterationLimitOf p.iterationLimit := by
        simp only [resolved, iterationLimitOf, intMax]; split_ifs <;> omega
      rw [this]; exact h10

/-- Reading, setting and reading again gives what was read first. -/
theorem get_restore {a : Accepts} {s0 s1 : Settings} {p : LpParameters} (hs : supported p = true)
    (h : (assign a s0 p).2 = true) (ht : a.real .timelimit (.fin (10 ^ 100 / 2)) = true)
    (hf : s1.solveFromScratch = s0.solveFromScratch) :
    getLpParameters (assign a s1 (getLpParameters (assign a s0 p).1)).1 =
      getLpParameters (assign a s0 p).1 := by
  obtain ⟨h1, h2⟩ := restore_ok (s1 := s1) hs h ht
  rw [get_assign h1 h2, get_assign hs h]
  simp only [resolved, LpParameters.mk.injEq, hf]
  refine ⟨trivial, trivial, ?_, trivial, trivial, ?_, ?_, ?_, trivial, max_max _ _, min_min _ _,
    trivial, ?_, ?_, trivial, trivial, trivial⟩
  · split_ifs <;> simp_all
  · split_ifs <;> simp_all
  · split_ifs <;> simp_all
  · split_ifs <;> simp_all
  · by_cases h3 : p.timing = .off
    · simp [h3]
    · by_cases h4 : Dbl.le (.fin (10 ^ 100)) p.timeLimit = true
      · simp only [h3, h4, if_true, if_false]
        split_ifs <;> rfl
      · simp [h3, h4]
  · split_ifs <;> omega

/-- The settings result from an accepted message (the constructor sets one). -/
def Reached (a : Accepts) (s : Settings) : Prop :=
  ∃ n s0 p, setLpParameters a n s0 p = .ok (s, true)

/-- **C65.**  A message that SoPlex rejects is harmless: on every interface whose parameters were set
before, the call ends (the `CHECK_OK` never fails, one restoring call suffices) and, if the status is
not OK, `GetLpParameters` returns what it returned before.  SoPlex must accept the time limit
1e100 / 2 that stands for "no limit". -/
theorem C65_rejection_harmless (a : Accepts) (ht : a.real .timelimit (.fin (10 ^ 100 / 2)) = true)
    (s : Settings) (hr : Reached a s) (p : LpParameters) (n : Nat) :
    ∃ s' ok, setLpParameters a (n + 2) s p = .ok (s', ok) ∧
      (ok = false → getLpParameters s' = getLpParameters s) := by
  obtain ⟨m, s0, p0, h0⟩ := hr
  obtain ⟨hs0, ha0, rfl⟩ := set_true h0
  rw [setLpParameters]
  cases hs : supported p with
  | false => exact ⟨_, false, by simp, fun _ => rfl⟩
  | true =>
    simp only [Bool.not_true, Bool.false_eq_true, if_false]
    cases ha : (assign a (assign a s0 p0).1 p).2 with
    | true => exact ⟨_, true, by simp only [if_true]; rfl, by simp⟩
    | false =>
      simp only [Bool.false_eq_true, if_false]
      obtain ⟨h1, h2⟩ := restore_ok (s1 := (assign a (assign a s0 p0).1 p).1) hs0 ha0 ht
      rw [setLpParameters]
      simp only [h1, Bool.not_true, Bool.false_eq_true, if_false, h2, if_true, Outcome.bind_ok,
        Outcome.check, Outcome.pure_eq]
      exact ⟨_, false, rfl, fun _ => get_restore hs0 ha0 ht rfl⟩

example : Reached acceptAll initialSettings :=
  ⟨1, initialSettings, { solverType := .soplex }, by
    simp only [setLpParameters]
    decide +kernel⟩

end Soplex

end MiniMip
