import Verif.Props.ProgramRounding
import Verif.Props.ProgramCuts
import Verif.Props.ProgramCutoff
import Verif.Props.ProgramUnbounded

/-!
# C110: equivalent problems get the same answer

Two problems are equivalent if their feasible points correspond, with the same objective values: rows scaled, permuted,
repeated or tightened, variables renamed or substituted.  The optimum that a user reads off must then be the same, with
whatever parameters, LP interface and LP code.
-/

namespace MiniMip
namespace Program

open Solver (point)

/-! ### Specification -/

/-- To every feasible point of one problem there is one of the other with the same objective value. -/
def Equivalent (p p' : Problem) : Prop :=
  p.isMaximization = p'.isMaximization ∧
  (∀ y, p.Feasible y → ∃ y', p'.Feasible y' ∧ p'.userObjective y' = p.userObjective y) ∧
  ∀ y', p'.Feasible y' → ∃ y, p.Feasible y ∧ p.userObjective y = p'.userObjective y'

/-- The optimum that a user reads off what `Solve` returned: none if there was an error or no solution, else the objective
value of the best solution, after `Read` has been applied to it (nothing, or rounding). -/
def Reports (p : Problem) (Read : (Int → ℚ) → (Int → ℚ) → Prop) (o : Outcome (Solver.State (Runner World)))
    (v : Option ℚ) : Prop :=
  ((∃ m, o = .error m) ∧ v = none) ∨
  ∃ s, o = .ok s ∧ ((s.result.best = {} ∧ v = none) ∨
    s.result.best ≠ {} ∧ ∃ z, Read (point s.result.best.values) z ∧ v = some (p.userObjective z))

/-- Cuts cannot change the optimum: they are switched off, or the tolerance is 0, integer variables are not negative,
constraints have integral sides, and the LP code hands out rows in order. -/
def CutsHarmless (e : Engine) (p : Problem) (user : Setup.ParamsMsg) (c : Setup.Created) : Prop :=
  NoCuts c.runner.params ∨
  (e.InOrder ∧ e.Sorted ∧ NonnegativeIntegers p ∧ IntegralSides p ∧ user.integralityTolerance = some 0)

/-! ### Proof -/

/-- C75 and C114 in both cases. -/
theorem harmless_optimal {e : Engine} (he : e.Right) {x : Setup.External} {p : Problem} (hp : p.WellFormed)
    {user : Setup.ParamsMsg} {c : Setup.Created} (h : Setup.create x p user = .ok c)
    (hn : CutsHarmless e p user c) (fuel : Nat) :
    (∀ s, solve e c fuel = some (.ok s) → ∀ y, p.Feasible y →
      s.result.best ≠ {} ∧
      if p.isMaximization then p.userObjective y ≤ p.userObjective (point s.result.best.values)
      else p.userObjective (point s.result.best.values) ≤ p.userObjective y) ∧
    ∀ m, solve e c fuel = some (.error m) → (∀ y, ¬ p.Feasible y) ∨ Unbounded p := by
  have key : Bounded p → (∀ s, solve e c fuel = some (.ok s) → ∀ y, p.Feasible y →
      s.result.best ≠ {} ∧
      if p.isMaximization then p.userObjective y ≤ p.userObjective (point s.result.best.values)
      else p.userObjective (point s.result.best.values) ≤ p.userObjective y) ∧
      ∀ m, solve e c fuel = some (.error m) → ∀ y, ¬ p.Feasible y := by
    intro hB
    rcases hn with hn | ⟨ho, hs, hn, hi, ht⟩
    · exact C75_optimal_partial he hp hB h hn fuel
    · exact C75_with_cuts_partial he ho hs hp hB hn hi ht h fuel
  exact ⟨fun s hs => (key (bounded_of_ok he.seesUnbounded hp h hs)).1 s hs,
    fun m hm => no_optimum_of hp fun hB => (key hB).2 m hm⟩

/-- The optimum of a problem; none if there is no feasible point or the problem is unbounded. -/
def IsOptimum (p : Problem) : Option ℚ → Prop
  | none => (∀ y, ¬ p.Feasible y) ∨ Unbounded p
  | some q => ∃ y, p.Optimal y ∧ p.userObjective y = q

theorem no_optimum {p p' : Problem} (hm : p.isMaximization = p'.isMaximization)
    (h : ∀ y, p.Feasible y → ∃ y', p'.Feasible y' ∧ p'.userObjective y' = p.userObjective y)
    (h' : ∀ y', p'.Feasible y' → ∃ y, p.Feasible y ∧ p.userObjective y = p'.userObjective y')
    (hv : IsOptimum p none) {y' : Int → ℚ} (hy' : p'.Optimal y') : False := by
  rcases hv with hv | hv
  · obtain ⟨y, hy, -⟩ := h' y' hy'.1
    exact hv y hy
  · obtain ⟨y, hy, hlt⟩ := hv (p'.userObjective y')
    obtain ⟨z, hz, he⟩ := h y hy
    have := hy'.2 z hz
    rw [he, ← hm] at this
    split at this <;> rename_i hmax <;> simp only [hmax, if_true, if_false, Bool.false_eq_true] at hlt <;> linarith

theorem IsOptimum.unique {p p' : Problem} (h : Equivalent p p') {v v' : Option ℚ} (hv : IsOptimum p v)
    (hv' : IsOptimum p' v') : v = v' := by
  obtain ⟨hm, h1, h2⟩ := h
  cases v with
  | none =>
    cases v' with
    | none => rfl
    | some q' =>
      obtain ⟨y', hy', -⟩ := hv'
      exact (no_optimum hm h1 h2 hv hy').elim
  | some q =>
    obtain ⟨y, hy, hq⟩ := hv
    cases v' with
    | none => exact (no_optimum hm.symm h2 h1 hv' hy).elim
    | some q' =>
      obtain ⟨y', hy', hq'⟩ := hv'
      obtain ⟨z', hz', e1⟩ := h1 y hy.1
      obtain ⟨z, hz, e2⟩ := h2 y' hy'.1
      have a1 := hy.2 z hz
      have a2 := hy'.2 z' hz'
      rw [e2] at a1
      rw [e1] at a2
      rw [← hm] at a2
      congr 1
      rw [← hq, ← hq']
      cases hmax : p.isMaximization <;> simp only [hmax, Bool.false_eq_true, if_false, if_true] at a1 a2 <;> linarith

theorem feasible_of_zero {p : Problem} {y : Int → ℚ} (h : p.FeasibleUpTo 0 y) : p.Feasible y := by
  refine ⟨fun n v hv => ⟨(h.1 n v hv).1, fun hi => ?_⟩, h.2⟩
  obtain ⟨k, hk⟩ := (h.1 n v hv).2 hi
  exact ⟨k, by linarith [abs_nonpos_iff.1 hk]⟩

/-- What `Solve` reports is the optimum if solutions, as they are read, are feasible and no worse. -/
theorem reports_optimum {e : Engine} (he : e.Right) {x : Setup.External} {p : Problem} (hp : p.WellFormed)
    {user : Setup.ParamsMsg} {c : Setup.Created} (h : Setup.create x p user = .ok c)
    (hn : CutsHarmless e p user c) {Read : (Int → ℚ) → (Int → ℚ) → Prop}
    (hread : ∀ s fuel, solve e c fuel = some (.ok s) → s.result.best ≠ {} →
      p.FeasibleUpTo (user.integralityTolerance.getD (1 / 10 ^ 6)) (point s.result.best.values) →
      (∀ y, p.Feasible y → if p.isMaximization then p.userObjective y ≤ p.userObjective (point s.result.best.values)
        else p.userObjective (point s.result.best.values) ≤ p.userObjective y) →
      ∀ z, Read (point s.result.best.values) z → p.Optimal z)
    {fuel : Nat} {o : Outcome (Solver.State (Runner World))} (hs : solve e c fuel = some o) {v : Option ℚ}
    (hv : Reports p Read o v) : IsOptimum p v := by
  obtain ⟨h1, h2⟩ := harmless_optimal he hp h hn fuel
  rcases hv with ⟨⟨m, rfl⟩, rfl⟩ | ⟨s, rfl, ⟨hb, rfl⟩ | ⟨hb, z, hz, rfl⟩⟩
  · exact h2 m hs
  · exact Or.inl fun y hy => (h1 s hs y hy).1 hb
  · have hf := ((C74_solutions_feasible he.feasible hp h).2 fuel s hs).1
    exact ⟨z, hread s fuel hs hb (hf.resolve_left hb) (fun y hy => (h1 s hs y hy).2) z hz, rfl⟩

/-- The same with rounded solutions, for problems with integral numbers. -/
theorem rounded_reports_optimum {e : Engine} (he : e.Right) {x : Setup.External} {p : Problem} (hp : p.WellFormed)
    {user : Setup.ParamsMsg} {c : Setup.Created} (h : Setup.create x p user = .ok c) (hn : NoCuts c.runner.params)
    (ht : user.integralityTolerance.getD (1 / 10 ^ 6) < 1 / 2)
    (hw : WholeProblem p (user.integralityTolerance.getD (1 / 10 ^ 6))) {fuel : Nat}
    {o : Outcome (Solver.State (Runner World))} (hs : solve e c fuel = some o) {v : Option ℚ}
    (hv : Reports p (Rounded p) o v) : IsOptimum p v := by
  refine reports_optimum he hp h (.inl hn) (fun s fuel _ hb hf hopt z hz => ?_) hs hv
  rcases rounded_optimal hp ht hw (o := some (.ok s)) (.inr ⟨s, rfl, fun _ => hf, fun y hy => ⟨hb, hopt y hy⟩⟩) with
    ⟨-, h | ⟨s₁, h1, h2⟩⟩ | ⟨s₁, h1, -, h2⟩
  · cases h
  · cases h1; exact absurd h2 hb
  · cases h1; exact h2 z hz

/-- **C110**, the part that holds: with tolerance 0.  For all equivalent well-formed problems, bounded or not, all parameters
with harmless cuts (they may differ, and one may have cuts and the other not), both LP interfaces (they may differ), every branching rule and all LP code that answers
rightly (it may differ too): if both calls of `Solve` return, they report the same optimum, or both report that there is
none. -/
theorem C110_exact_partial {p p' : Problem} (heq : Equivalent p p') (hp : p.WellFormed) (hp' : p'.WellFormed)
    {e e' : Engine} (he : e.Right) (he' : e'.Right) {x x' : Setup.External}
    {user user' : Setup.ParamsMsg} {c c' : Setup.Created} (h : Setup.create x p user = .ok c)
    (h' : Setup.create x' p' user' = .ok c') (hn : CutsHarmless e p user c) (hn' : CutsHarmless e' p' user' c')
    (ht : user.integralityTolerance = some 0) (ht' : user'.integralityTolerance = some 0) {fuel fuel' : Nat}
    {o o' : Outcome (Solver.State (Runner World))} (hs : solve e c fuel = some o) (hs' : solve e' c' fuel' = some o')
    {v v' : Option ℚ} (hv : Reports p Eq o v) (hv' : Reports p' Eq o' v') : v = v' := by
  refine IsOptimum.unique heq (reports_optimum he hp h hn ?_ hs hv) (reports_optimum he' hp' h' hn' ?_ hs' hv')
  · rintro s fuel - - hf hopt z rfl
    rw [ht] at hf
    exact ⟨feasible_of_zero hf, hopt⟩
  · rintro s fuel - - hf hopt z rfl
    rw [ht'] at hf
    exact ⟨feasible_of_zero hf, hopt⟩

/-- **C110**, the part that holds: problems with integer variables only and integral numbers, in which the tolerance changes no
constraint and no objective value by one.  The optima that two such equivalent problems report agree after rounding. -/
theorem C110_rounded_partial {p p' : Problem} (heq : Equivalent p p') (hp : p.WellFormed) (hp' : p'.WellFormed)
    {e e' : Engine} (he : e.Right) (he' : e'.Right) {x x' : Setup.External}
    {user user' : Setup.ParamsMsg} {c c' : Setup.Created} (h : Setup.create x p user = .ok c)
    (h' : Setup.create x' p' user' = .ok c') (hn : NoCuts c.runner.params) (hn' : NoCuts c'.runner.params)
    (ht : user.integralityTolerance.getD (1 / 10 ^ 6) < 1 / 2)
    (ht' : user'.integralityTolerance.getD (1 / 10 ^ 6) < 1 / 2)
    (hw : WholeProblem p (user.integralityTolerance.getD (1 / 10 ^ 6)))
    (hw' : WholeProblem p' (user'.integralityTolerance.getD (1 / 10 ^ 6))) {fuel fuel' : Nat}
    {o o' : Outcome (Solver.State (Runner World))} (hs : solve e c fuel = some o) (hs' : solve e' c' fuel' = some o')
    {v v' : Option ℚ} (hv : Reports p (Rounded p) o v) (hv' : Reports p' (Rounded p') o' v') : v = v' := by
  exact IsOptimum.unique heq (rounded_reports_optimum he hp h hn ht hw hs hv)
    (rounded_reports_optimum he' hp' h' hn' ht' hw' hs' hv')

/-! ### Equivalent problems with different answers -/

/-- `charge` with the constraint tightened to `y ≤ x`, which changes no feasible point. -/
def charge' : Problem :=
  { charge with
    constraints := [{ name := "c", varIndices := [0, 1], coefficients := [-1, 1], lhs := .ninf, rhs := .fin 0 }] }

theorem charge'_relaxed (y : Int → ℚ) : charge'.RelaxedFeasible y ↔
    0 ≤ y 0 ∧ y 0 ≤ 1 ∧ 0 ≤ y 1 ∧ y 1 ≤ 1 ∧ y 1 ≤ y 0 := by
  constructor
  · rintro ⟨h1, h2⟩
    have hx := h1 0 _ rfl
    have hy := h1 1 _ rfl
    have hc := h2 _ (List.mem_singleton.2 rfl)
    simp [Between, Constraint.activity] at hx hy hc
    exact ⟨hx.1, hx.2, hy.1, hy.2, by linarith⟩
  · rintro ⟨h1, h2, h3, h4, h5⟩
    refine ⟨fun n v hv => ?_, fun k hk => ?_⟩
    · match n with
      | 0 => simp [charge', charge] at hv; subst hv; simpa [Between] using ⟨h1, h2⟩
      | 1 => simp [charge', charge] at hv; subst hv; simpa [Between] using ⟨h3, h4⟩
      | n + 2 => simp [charge', charge] at hv
    · simp [charge'] at hk
      subst hk
      simp [Between, Constraint.activity]
      linarith

theorem charge'_objective (y : Int → ℚ) : charge'.userObjective y = -2 * y 0 + y 1 := charge_objective y

/-- The feasible points of both are the same. -/
theorem charge'_feasible (y : Int → ℚ) : charge'.Feasible y ↔ charge.Feasible y := by
  have split : ∀ p : Problem, p.Feasible y ↔ p.RelaxedFeasible y ∧
      ∀ (n : Nat) (v : Variable), p.vars[n]? = some v → v.isInteger = true → ∃ k : Int, y n = k := by
    intro p
    constructor
    · exact fun h => ⟨⟨fun n v hv => (h.1 n v hv).1, h.2⟩, fun n v hv hi => (h.1 n v hv).2 hi⟩
    · exact fun h => ⟨fun n v hv => ⟨h.1.1 n v hv, h.2 n v hv⟩, h.1.2⟩
  rw [split charge', split charge, charge'_relaxed, charge_relaxed]
  refine and_congr_left fun hint => ?_
  obtain ⟨k, hk⟩ := hint 0 _ rfl rfl
  have hk : y 0 = k := hk
  constructor
  · rintro ⟨h1, h2, h3, h4, h5⟩
    exact ⟨h1, h2, h3, h4, by linarith⟩
  · rintro ⟨h1, h2, h3, h4, h5⟩
    refine ⟨h1, h2, h3, h4, ?_⟩
    rw [hk] at h1 h2 h5 ⊢
    have h1 : 0 ≤ k := by exact_mod_cast h1
    rcases h1.eq_or_lt with h | h
    · rw [← h] at h5 ⊢
      simpa using h5
    · have : (1 : ℚ) ≤ k := by exact_mod_cast h
      linarith

theorem charge'_spec : charge'.WellFormed ∧ FiniteIntegers charge' ∧ IntegralIntegers charge' ∧ Bounded charge' := by
  refine ⟨?_, charge_spec.2.1, charge_spec.2.2.1, 1, fun y hy => ?_⟩
  · simp [Problem.WellFormed, charge', charge, Variable.WellFormed, Constraint.WellFormed, Ordered, Dbl.le]
  · have := (charge'_relaxed y).1 hy
    rw [show charge'.isMaximization = true from rfl, if_pos rfl, charge'_objective]
    linarith [this.1, this.2.2.2.1]

/-- **C110 fails.**  `max y - 2 x`, `x` in {0, 1}, `0 ≤ y ≤ 1` with `y ≤ 10^7 x`, and the same with `y ≤ x`, have the same feasible points and the
same objective.  With the cut runner switched off and all other parameters at their defaults, `Solve` returns OK on both,
whatever LP code that answers rightly it runs on, and reports an optimum above 999/1000 for one and 0 for the other. -/
theorem C110_tightened_violated :
    Equivalent charge charge' ∧ (∀ y, charge'.Feasible y ↔ charge.Feasible y) ∧
    ∀ x, ∃ c c', Setup.create x charge exUser = .ok c ∧ Setup.create x charge' exUser = .ok c' ∧
      ∀ e e' : Engine, e.Right → e.GlopReturns → e'.Right → e'.GlopReturns →
        ∃ o o' v, solve e c 2 = some o ∧ solve e' c' (iterationBound charge') = some o' ∧
          Reports charge Eq o (some v) ∧ 999 / 1000 < v ∧ Reports charge' Eq o' (some 0) := by
  refine ⟨⟨rfl, fun y hy => ⟨y, (charge'_feasible y).2 hy, rfl⟩, fun y hy => ⟨y, (charge'_feasible y).1 hy, rfl⟩⟩,
    charge'_feasible, fun x => ?_⟩
  obtain ⟨c, hc⟩ := (C105_charge_violated.2.1 x).1
  obtain ⟨h1, h2, h3, h4⟩ := charge'_spec
  obtain ⟨c', hc', hsol⟩ := C78_total_correctness charge' h1 h2 h4 x exUser _ (Setup.lpWins _)
    (by refine ⟨⟨?_, ?_, ?_, ?_, ?_, ?_, ?_, ?_⟩, rfl, ?_, ?_, rfl, rfl⟩ <;> simp [exUser, Setup.LpMsg.read, ToleranceOk])
    ⟨0, le_refl _, rfl⟩ (by intro s; simp [exUser]) (by norm_num [exUser])
  refine ⟨c, c', hc, hc', fun e e' he hret he' hret' => ?_⟩
  obtain ⟨s, hs, -, hv, -⟩ := (C105_charge_violated.2.1 x).2 c hc e he hret
  have hz : charge'.Feasible fun _ => 0 := (charge'_feasible _).2 charge_spec.2.2.2.2.1
  rcases hsol e' he' hret' with ⟨-, hno⟩ | ⟨s', hs', hf, hopt⟩
  · exact absurd hz (hno _)
  · obtain ⟨hb, hge⟩ := hopt _ hz
    rw [show charge'.isMaximization = true from rfl, if_pos rfl, charge'_objective, charge'_objective] at hge
    have hrel := (charge'_relaxed _).1 ⟨fun n v hv => ((hf hb).1 n v hv).1, (hf hb).2⟩
    refine ⟨_, _, _, hs, hs', .inr ⟨s, rfl, .inr ⟨?_, _, rfl, rfl⟩⟩, hv, .inr ⟨s', rfl, .inr ⟨hb, _, rfl, ?_⟩⟩⟩
    · intro hbe
      rw [hbe, charge_objective] at hv
      norm_num [point] at hv
    · rw [charge'_objective]
      congr 1
      norm_num at hge
      linarith [hrel.1, hrel.2.2.2.2]

/-- **C110 fails** for one problem and two settings of the number of cut rounds.  `max x`, `2 x ≤ 5/2`, `0 ≤ x ≤ 9`, `x` integer, with
tolerance 0: whatever LP code that answers rightly, returns, keeps a basis and stops at no limit, `Solve` reports an optimum
below 1 with one round of cuts, and 1 without. -/
theorem C110_cut_rounds_violated : ∀ x c, Setup.create x tight oneRoundUser = .ok c →
    ∃ c', Setup.create x tight { exUser with integralityTolerance := some 0 } = .ok c' ∧
      ∀ e : Engine, e.Right → e.GlopReturns → e.GlopBasic → e.GlopInTime →
        ∃ o o' v, solve e c 4 = some o ∧ solve e c' (iterationBound tight) = some o' ∧
          Reports tight Eq o v ∧ v ≠ some 1 ∧ Reports tight Eq o' (some 1) := by
  intro x c hc
  obtain ⟨⟨h1, h2, h3, -, h5⟩, -, -, hbad⟩ := C75_fractional_side_violated
  obtain ⟨c', hc', hsol⟩ := C78_total_correctness tight h1 h2 h3 x { exUser with integralityTolerance := some 0 } _
    (Setup.lpWins _)
    (by refine ⟨⟨?_, ?_, ?_, ?_, ?_, ?_, ?_, ?_⟩, rfl, ?_, ?_, rfl, rfl⟩ <;> simp [exUser, Setup.LpMsg.read, ToleranceOk])
    ⟨0, le_refl _, rfl⟩ (by intro s; simp [exUser]) (by norm_num [exUser])
  refine ⟨c', hc', fun e he hret hbas hin => ?_⟩
  obtain ⟨s, hs, -, hlt⟩ := hbad x c hc e he hret hbas hin
  have hobj : ∀ y : Int → ℚ, tight.userObjective y = y 0 := by
    intro y; simp [Problem.userObjective, objectiveFrom, tight]
  rcases hsol e he hret with ⟨-, hno⟩ | ⟨s', hs', hf, hopt⟩
  · exact absurd h5 (hno _)
  · obtain ⟨hb, hge⟩ := hopt _ h5
    have hfe := feasible_of_zero (hf hb)
    have hle : point s'.result.best.values 0 ≤ 1 := by
      obtain ⟨k, hk⟩ := (hfe.1 0 _ rfl).2 rfl
      have hc2 := (hfe.2 _ (List.mem_singleton.2 rfl)).2
      have hk : point s'.result.best.values 0 = k := hk
      simp [Constraint.activity, hk] at hc2
      rw [hk]
      have : (k : ℚ) < 2 := by linarith
      have : k < 2 := by exact_mod_cast this
      exact_mod_cast (by omega : k ≤ 1)
    rw [show tight.isMaximization = true from rfl, if_pos rfl, hobj, hobj] at hge
    rw [hobj, hobj] at hlt
    by_cases hbe : s.result.best = {}
    · exact ⟨_, _, none, hs, hs', .inr ⟨s, rfl, .inl ⟨hbe, rfl⟩⟩, by simp,
        .inr ⟨s', rfl, .inr ⟨hb, _, rfl, by rw [hobj]; congr 1; linarith⟩⟩⟩
    · refine ⟨_, _, _, hs, hs', .inr ⟨s, rfl, .inr ⟨hbe, _, rfl, rfl⟩⟩, ?_,
        .inr ⟨s', rfl, .inr ⟨hb, _, rfl, by rw [hobj]; congr 1; linarith⟩⟩⟩
      rw [hobj]
      intro h
      injection h with h
      linarith

/-! ### The hypotheses are met -/

/-- Every run that returns OK or an error reports something. -/
theorem reports_of_solves {p : Problem} {tol : ℚ} {o : Option (Outcome (Solver.State (Runner World)))} (h : Solves p tol o) :
    ∃ r v, o = some r ∧ Reports p Eq r v := by
  rcases h with ⟨h, -⟩ | ⟨s, h, -⟩
  · exact ⟨_, none, h, .inl ⟨⟨_, rfl⟩, rfl⟩⟩
  · by_cases hb : s.result.best = {}
    · exact ⟨_, none, h, .inr ⟨s, rfl, .inl ⟨hb, rfl⟩⟩⟩
    · exact ⟨_, _, h, .inr ⟨s, rfl, .inr ⟨hb, _, rfl, rfl⟩⟩⟩

/-- With tolerance 0 the two formulations report the same: the hypotheses of `C110_exact_partial` are met by two problems that
differ, and by what `Solve` returns for them. -/
example : ∃ (x : Setup.External) (c c' : Setup.Created) (fuel : Nat) (o o' : Outcome (Solver.State (Runner World))) (v : Option ℚ),
    Setup.create x charge { exUser with integralityTolerance := some 0 } = .ok c ∧
    Setup.create x charge' { exUser with integralityTolerance := some 0 } = .ok c' ∧
    solve perfect c fuel = some o ∧ solve perfect c' fuel = some o' ∧ Reports charge Eq o v ∧ Reports charge' Eq o' v := by
  obtain ⟨h1, h2, -, h4⟩ := charge'_spec
  obtain ⟨g1, g2, -, g4, -⟩ := charge_spec
  have ht : Setup.GlopTakes (({ exUser with integralityTolerance := some 0 } : Setup.ParamsMsg).lp.getD {}).read := by
    refine ⟨⟨?_, ?_, ?_, ?_, ?_, ?_, ?_, ?_⟩, rfl, ?_, ?_, rfl, rfl⟩ <;> simp [exUser, Setup.LpMsg.read, ToleranceOk]
  obtain ⟨c, hc, hs⟩ := C78_total_correctness charge g1 g2 g4 Setup.exExternal { exUser with integralityTolerance := some 0 } _
    (Setup.lpWins _) ht ⟨0, le_refl _, rfl⟩ (by intro s; simp [exUser]) (by norm_num [exUser])
  obtain ⟨c', hc', hs'⟩ := C78_total_correctness charge' h1 h2 h4 Setup.exExternal { exUser with integralityTolerance := some 0 } _
    (Setup.lpWins _) ht ⟨0, le_refl _, rfl⟩ (by intro s; simp [exUser]) (by norm_num [exUser])
  obtain ⟨o, v, ho, hv⟩ := reports_of_solves (hs perfect perfect_spec.1 perfect_spec.2)
  obtain ⟨o', v', ho', hv'⟩ := reports_of_solves (hs' perfect perfect_spec.1 perfect_spec.2)
  have := C110_exact_partial C110_tightened_violated.1 g1 h1 perfect_spec.1 perfect_spec.1 hc hc'
    (.inl (rule_of g1 hc ⟨0, le_rfl, rfl⟩ (by simp [exUser])).1)
    (.inl (rule_of h1 hc' ⟨0, le_rfl, rfl⟩ (by simp [exUser])).1) rfl rfl ho ho' hv hv'
  subst this
  exact ⟨_, c, c', _, o, o', v, hc, hc', ho, ho', hv, hv'⟩

/-- The hypotheses of `C110_exact_partial` are met by one problem with a round of cuts and without. -/
example : ∃ (x : Setup.External) (c c' : Setup.Created) (fuel : Nat) (o o' : Outcome (Solver.State (Runner World))) (v : Option ℚ),
    Setup.create x exProblem oneRoundUser = .ok c ∧
    Setup.create x exProblem { exUser with integralityTolerance := some 0 } = .ok c' ∧
    solve perfect c fuel = some o ∧ solve perfect c' fuel = some o' ∧ Reports exProblem Eq o v ∧ Reports exProblem Eq o' v := by
  obtain ⟨h1, h2, h3, h4⟩ := exProblem_spec
  have hn : NonnegativeIntegers exProblem := by
    intro v hv hi
    simp [exProblem] at hv
    rcases hv with rfl | rfl <;> norm_num [Dbl.le]
  have hi : IntegralSides exProblem := by
    intro k hk q hq
    simp [exProblem] at hk
    subst hk
    simp at hq
    exact ⟨7, by rw [← hq]; norm_num⟩
  obtain ⟨c, hc, hs⟩ := C83_one_round_total_correctness_partial exProblem h1 h2 h3 hn hi h4 Setup.exExternal oneRoundUser _
    (Setup.lpWins _)
    (by refine ⟨⟨?_, ?_, ?_, ?_, ?_, ?_, ?_, ?_⟩, rfl, ?_, ?_, rfl, rfl⟩ <;> simp [oneRoundUser, Setup.LpMsg.read, ToleranceOk])
    ⟨⟨1, le_refl _, rfl⟩, by simp [oneRoundUser]⟩ (by simp [oneRoundUser]) rfl
  obtain ⟨c', hc', hs'⟩ := C78_total_correctness exProblem h1 h2 h3 Setup.exExternal { exUser with integralityTolerance := some 0 } _
    (Setup.lpWins _)
    (by refine ⟨⟨?_, ?_, ?_, ?_, ?_, ?_, ?_, ?_⟩, rfl, ?_, ?_, rfl, rfl⟩ <;> simp [exUser, Setup.LpMsg.read, ToleranceOk])
    ⟨0, le_refl _, rfl⟩ (by intro s; simp [exUser]) (by norm_num [exUser])
  have hio : perfect.InOrder := fun _ _ => rfl
  have hso : perfect.Sorted := fun _ _ _ => List.Pairwise.nil
  obtain ⟨o, v, ho, hv⟩ := reports_of_solves (hs perfect perfect_spec.1 perfect_spec.2 perfect_basic.1.fits hio hso)
  obtain ⟨o', v', ho', hv'⟩ := reports_of_solves (hs' perfect perfect_spec.1 perfect_spec.2)
  have := C110_exact_partial ⟨rfl, fun y hy => ⟨y, hy, rfl⟩, fun y hy => ⟨y, hy, rfl⟩⟩ h1 h1 perfect_spec.1 perfect_spec.1
    hc hc' (.inr ⟨hio, hso, hn, hi, rfl⟩) (.inl (rule_of h1 hc' ⟨0, le_rfl, rfl⟩ (by simp [exUser])).1) rfl rfl ho ho' hv hv'
  subst this
  exact ⟨_, c, c', _, o, o', v, hc, hc', ho, ho', hv, hv'⟩

/-- The constraints written twice. -/
def repeated (p : Problem) : Problem := { p with constraints := p.constraints ++ p.constraints }

theorem repeated_equivalent (p : Problem) : Equivalent p (repeated p) := by
  have : ∀ y, (repeated p).Feasible y ↔ p.Feasible y := by
    intro y
    simp only [Problem.Feasible, repeated, List.mem_append, or_self]
  exact ⟨rfl, fun y hy => ⟨y, (this y).2 hy, rfl⟩, fun y hy => ⟨y, (this y).1 hy, rfl⟩⟩

/-- The hypotheses on the problems in `C110_rounded_partial` are met by two problems that differ. -/
example : Equivalent openProblem (repeated openProblem) ∧ openProblem.WellFormed ∧ (repeated openProblem).WellFormed ∧
    Bounded openProblem ∧ Bounded (repeated openProblem) ∧ WholeProblem openProblem (1 / 10 ^ 6) ∧
    WholeProblem (repeated openProblem) (1 / 10 ^ 6) ∧
    ∀ x, (∃ c, Setup.create x openProblem exUser = .ok c) ∧ ∃ c, Setup.create x (repeated openProblem) exUser = .ok c := by
  obtain ⟨h1, -, -, -, h5, -⟩ := openProblem_spec
  have hrel : ∀ y, (repeated openProblem).RelaxedFeasible y ↔ openProblem.RelaxedFeasible y := by
    intro y
    simp only [Problem.RelaxedFeasible, repeated, List.mem_append, or_self]
  have hw : (repeated openProblem).WellFormed := by
    simp [Problem.WellFormed, repeated, openProblem, Variable.WellFormed, Constraint.WellFormed, Ordered, Dbl.le]
  have ht : Setup.GlopTakes (exUser.lp.getD {}).read := by
    refine ⟨⟨?_, ?_, ?_, ?_, ?_, ?_, ?_, ?_⟩, rfl, ?_, ?_, rfl, rfl⟩ <;> simp [exUser, Setup.LpMsg.read, ToleranceOk]
  refine ⟨repeated_equivalent _, h1, hw, h5, ?_, open_whole, ?_, fun x => ⟨?_, ?_⟩⟩
  · obtain ⟨b, hb⟩ := h5
    exact ⟨b, fun y hy => hb y ((hrel y).1 hy)⟩
  · have := open_whole
    refine ⟨this.integers, this.bounds, fun k hk => ?_, this.objective⟩
    simp only [repeated, List.mem_append, or_self] at hk
    obtain ⟨⟨h1, h2, h3⟩, h4⟩ := this.rows k hk
    exact ⟨⟨h1, h2, h3⟩, h4⟩
  · exact (Setup.C73_glop_partial x _ h1 exUser _ (Setup.lpWins _) rfl).1 ht
  · exact (Setup.C73_glop_partial x _ hw exUser _ (Setup.lpWins _) rfl).1 ht

end Program
end MiniMip
