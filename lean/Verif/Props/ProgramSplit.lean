import Verif.Props.ProgramKeep

/-!
# C136: splitting a problem at an integer variable splits the optimum

The optimum of a problem is the better one of the optima of its two halves, where an integer variable is at most `k` and at least
`k + 1`: what `Solve` does inside, done by the user from outside with three calls.
-/

namespace MiniMip
namespace Program

open Solver (point)

/-! ### Specification -/

/-- The problem with `x_n ≤ k` as well. -/
def lowHalf (p : Problem) (n : Nat) (k : Int) : Problem :=
  { p with constraints := { name := "low", varIndices := [(n : Int)], coefficients := [1], rhs := .fin k } :: p.constraints }

/-- The problem with `x_n ≥ k + 1` as well. -/
def highHalf (p : Problem) (n : Nat) (k : Int) : Problem :=
  { p with constraints := { name := "high", varIndices := [(n : Int)], coefficients := [1], lhs := .fin (k + 1 : Int) } :: p.constraints }

/-- The optimum `v` of a problem is the better one of `v₁` and `v₂`.  If there is none, one half has none either, and neither
half has one unless the problem is unbounded. -/
def BetterOf (p : Problem) (v v₁ v₂ : Option ℚ) : Prop :=
  (∀ q, v = some q → (v₁ = some q ∨ v₂ = some q) ∧ ∀ q', v₁ = some q' ∨ v₂ = some q' → NoBetter p.isMaximization q' q) ∧
  (v = none → (v₁ = none ∨ v₂ = none) ∧ ((v₁ = none ∧ v₂ = none) ∨ Unbounded p))

/-! ### Proof -/

theorem lowHalf_feasible (p : Problem) (n : Nat) (k : Int) (y : Int → ℚ) :
    (lowHalf p n k).Feasible y ↔ p.Feasible y ∧ y n ≤ k := by
  constructor
  · rintro ⟨h1, h2⟩
    refine ⟨⟨h1, fun c hc => h2 c (List.mem_cons_of_mem _ hc)⟩, ?_⟩
    simpa [Between, Constraint.activity, Dbl.le] using h2 _ (List.mem_cons_self ..)
  · rintro ⟨⟨h1, h2⟩, h3⟩
    refine ⟨h1, fun c hc => ?_⟩
    rcases List.mem_cons.1 hc with rfl | hc
    · simpa [Between, Constraint.activity, Dbl.le] using h3
    · exact h2 c hc

theorem highHalf_feasible (p : Problem) (n : Nat) (k : Int) (y : Int → ℚ) :
    (highHalf p n k).Feasible y ↔ p.Feasible y ∧ k + 1 ≤ y n := by
  constructor
  · rintro ⟨h1, h2⟩
    refine ⟨⟨h1, fun c hc => h2 c (List.mem_cons_of_mem _ hc)⟩, ?_⟩
    simpa [Between, Constraint.activity, Dbl.le] using h2 _ (List.mem_cons_self ..)
  · rintro ⟨⟨h1, h2⟩, h3⟩
    refine ⟨h1, fun c hc => ?_⟩
    rcases List.mem_cons.1 hc with rfl | hc
    · simpa [Between, Constraint.activity, Dbl.le] using h3
    · exact h2 c hc

/-- **C136**, the halves: a point is feasible for the problem iff it is feasible for one of the halves, and for no point both. -/
theorem C136_halves {p : Problem} {n : Nat} {v : Variable} (hn : p.vars[n]? = some v) (hi : v.isInteger = true) (k : Int)
    (y : Int → ℚ) : (p.Feasible y ↔ (lowHalf p n k).Feasible y ∨ (highHalf p n k).Feasible y) ∧
    ¬ ((lowHalf p n k).Feasible y ∧ (highHalf p n k).Feasible y) := by
  rw [lowHalf_feasible, highHalf_feasible]
  refine ⟨⟨fun h => ?_, fun h => h.elim (·.1) (·.1)⟩, fun h => by linarith [h.1.2, h.2.2]⟩
  obtain ⟨i, hy⟩ := (h.1 n v hn).2 hi
  rcases le_or_gt i k with hik | hik
  · exact .inl ⟨h, by rw [hy]; exact_mod_cast hik⟩
  · exact .inr ⟨h, by rw [hy]; exact_mod_cast hik⟩

/-- The optimum of a half that contains an optimal point of the problem. -/
theorem half_optimum {p h : Problem} (hm : h.isMaximization = p.isMaximization) (ho : ∀ y, h.userObjective y = p.userObjective y)
    (hf : ∀ y, h.Feasible y → p.Feasible y) {y : Int → ℚ} (hy : p.Optimal y) (hyh : h.Feasible y) {v : Option ℚ}
    (hv : IsOptimum h v) : v = some (p.userObjective y) := by
  cases v with
  | none =>
    rcases hv with hv | hv
    · exact absurd hyh (hv y)
    · obtain ⟨z, hz, hlt⟩ := hv (p.userObjective y)
      have := hy.2 z (hf z hz)
      rw [ho, hm] at hlt
      cases hmax : p.isMaximization <;> simp only [hmax, Bool.false_eq_true, if_false, if_true] at this hlt <;> linarith
  | some q =>
    obtain ⟨z, hz, rfl⟩ := hv
    have h1 := hy.2 z (hf z hz.1)
    have h2 := hz.2 y hyh
    rw [ho, ho, hm] at h2
    rw [ho]
    congr 1
    cases hmax : p.isMaximization <;> simp only [hmax, Bool.false_eq_true, if_false, if_true] at h1 h2 <;> linarith

theorem betterOf_of_optima {p : Problem} {n : Nat} {w : Variable} (hn : p.vars[n]? = some w) (hi : w.isInteger = true) {k : Int}
    {v v₁ v₂ : Option ℚ} (hv : IsOptimum p v) (hv₁ : IsOptimum (lowHalf p n k) v₁) (hv₂ : IsOptimum (highHalf p n k) v₂) :
    BetterOf p v v₁ v₂ := by
  have hcover := fun y => (C136_halves hn hi k y).1
  have ho₁ : ∀ y, (lowHalf p n k).userObjective y = p.userObjective y := fun _ => rfl
  have ho₂ : ∀ y, (highHalf p n k).userObjective y = p.userObjective y := fun _ => rfl
  constructor
  · rintro q rfl
    obtain ⟨y, hy, rfl⟩ := hv
    constructor
    · rcases (hcover y).1 hy.1 with h | h
      · exact .inl (half_optimum (p := p) (h := lowHalf p n k) rfl ho₁ (fun z hz => (hcover z).2 (.inl hz)) hy h hv₁)
      · exact .inr (half_optimum (p := p) (h := highHalf p n k) rfl ho₂ (fun z hz => (hcover z).2 (.inr hz)) hy h hv₂)
    · rintro q' (rfl | rfl)
      · obtain ⟨z, hz, rfl⟩ := hv₁
        exact hy.2 z ((hcover z).2 (.inl hz.1))
      · obtain ⟨z, hz, rfl⟩ := hv₂
        exact hy.2 z ((hcover z).2 (.inr hz.1))
  · rintro rfl
    rcases hv with hno | hu
    · have h1 : v₁ = none := by
        cases v₁ with
        | none => rfl
        | some q => obtain ⟨z, hz, -⟩ := hv₁; exact absurd ((hcover z).2 (.inl hz.1)) (hno z)
      have h2 : v₂ = none := by
        cases v₂ with
        | none => rfl
        | some q => obtain ⟨z, hz, -⟩ := hv₂; exact absurd ((hcover z).2 (.inr hz.1)) (hno z)
      exact ⟨.inl h1, .inl ⟨h1, h2⟩⟩
    · refine ⟨?_, .inr hu⟩
      cases v₁ with
      | none => exact .inl rfl
      | some q₁ =>
        cases v₂ with
        | none => exact .inr rfl
        | some q₂ =>
          exfalso
          obtain ⟨z₁, hz₁, rfl⟩ := hv₁
          obtain ⟨z₂, hz₂, rfl⟩ := hv₂
          obtain ⟨y, hy, hlt⟩ := hu (if p.isMaximization then max (p.userObjective z₁) (p.userObjective z₂)
            else min (p.userObjective z₁) (p.userObjective z₂))
          rcases (hcover y).1 hy with h | h
          · have := hz₁.2 y h
            rw [ho₁, ho₁, show (lowHalf p n k).isMaximization = p.isMaximization from rfl] at this
            cases hmax : p.isMaximization <;> simp only [hmax, Bool.false_eq_true, if_false, if_true] at this hlt
            · exact absurd (hlt.trans_le (min_le_left _ _)) (not_lt.2 this)
            · exact absurd ((le_max_left _ _).trans_lt hlt) (not_lt.2 this)
          · have := hz₂.2 y h
            rw [ho₂, ho₂, show (highHalf p n k).isMaximization = p.isMaximization from rfl] at this
            cases hmax : p.isMaximization <;> simp only [hmax, Bool.false_eq_true, if_false, if_true] at this hlt
            · exact absurd (hlt.trans_le (min_le_right _ _)) (not_lt.2 this)
            · exact absurd ((le_max_right _ _).trans_lt hlt) (not_lt.2 this)

/-- The halves of a well-formed problem are well-formed. -/
theorem halves_wellFormed {p : Problem} (hp : p.WellFormed) {n : Nat} (hn : n < p.vars.length) (k : Int) :
    (lowHalf p n k).WellFormed ∧ (highHalf p n k).WellFormed := by
  constructor
  · refine ⟨hp.1, fun c hc => ?_⟩
    rcases List.mem_cons.1 hc with rfl | hc
    · exact ⟨by simp, by simp [Ordered, Dbl.le], by simp, by simp, by simpa [lowHalf] using hn⟩
    · exact hp.2 c hc
  · refine ⟨hp.1, fun c hc => ?_⟩
    rcases List.mem_cons.1 hc with rfl | hc
    · exact ⟨by simp, by simp [Ordered, Dbl.le], by simp, by simp, by simpa [highHalf] using hn⟩
    · exact hp.2 c hc

/-- **C136**, the part that holds: with tolerance 0.  For all well-formed problems, bounded or not, every integer variable and
integer to split at, all parameters with harmless cuts, both LP interfaces, every branching rule and all LP code that answers
rightly (all of which may differ between the runs): if the three calls of `Solve` return, the optimum reported for the problem
is the better one of those reported for the halves. -/
theorem C136_exact_partial {p : Problem} {n : Nat} {w : Variable} (hw : p.vars[n]? = some w) (hi : w.isInteger = true) {k : Int}
    (hp : p.WellFormed) {e e₁ e₂ : Engine} (he : e.Right) (he₁ : e₁.Right) (he₂ : e₂.Right) {x x₁ x₂ : Setup.External}
    {user user₁ user₂ : Setup.ParamsMsg} {c c₁ c₂ : Setup.Created} (h : Setup.create x p user = .ok c)
    (h₁ : Setup.create x₁ (lowHalf p n k) user₁ = .ok c₁) (h₂ : Setup.create x₂ (highHalf p n k) user₂ = .ok c₂)
    (hn : CutsHarmless e p user c) (hn₁ : CutsHarmless e₁ (lowHalf p n k) user₁ c₁)
    (hn₂ : CutsHarmless e₂ (highHalf p n k) user₂ c₂) (ht : user.integralityTolerance = some 0)
    (ht₁ : user₁.integralityTolerance = some 0) (ht₂ : user₂.integralityTolerance = some 0) {fuel fuel₁ fuel₂ : Nat}
    {o o₁ o₂ : Outcome (Solver.State (Runner World))} (hs : solve e c fuel = some o) (hs₁ : solve e₁ c₁ fuel₁ = some o₁)
    (hs₂ : solve e₂ c₂ fuel₂ = some o₂) {v v₁ v₂ : Option ℚ} (hv : Reports p Eq o v)
    (hv₁ : Reports (lowHalf p n k) Eq o₁ v₁) (hv₂ : Reports (highHalf p n k) Eq o₂ v₂) : BetterOf p v v₁ v₂ := by
  obtain ⟨hp₁, hp₂⟩ := halves_wellFormed hp (List.getElem?_eq_some_iff.1 hw).1 k
  refine betterOf_of_optima hw hi (reports_optimum he hp h hn ?_ hs hv) (reports_optimum he₁ hp₁ h₁ hn₁ ?_ hs₁ hv₁)
    (reports_optimum he₂ hp₂ h₂ hn₂ ?_ hs₂ hv₂)
  · rintro s fuel - - hf hopt z rfl
    rw [ht] at hf
    exact ⟨feasible_of_zero hf, hopt⟩
  · rintro s fuel - - hf hopt z rfl
    rw [ht₁] at hf
    exact ⟨feasible_of_zero hf, hopt⟩
  · rintro s fuel - - hf hopt z rfl
    rw [ht₂] at hf
    exact ⟨feasible_of_zero hf, hopt⟩

/-- **C136**, the part that holds: problems with integer variables only and integral numbers, in which the tolerance changes no
constraint and no objective value by one, after rounding. -/
theorem C136_rounded_partial {p : Problem} {n : Nat} {w : Variable} (hw : p.vars[n]? = some w) {k : Int}
    (hp : p.WellFormed) {e e₁ e₂ : Engine} (he : e.Right) (he₁ : e₁.Right) (he₂ : e₂.Right) {x x₁ x₂ : Setup.External}
    {user user₁ user₂ : Setup.ParamsMsg} {c c₁ c₂ : Setup.Created} (h : Setup.create x p user = .ok c)
    (h₁ : Setup.create x₁ (lowHalf p n k) user₁ = .ok c₁) (h₂ : Setup.create x₂ (highHalf p n k) user₂ = .ok c₂)
    (hn : NoCuts c.runner.params) (hn₁ : NoCuts c₁.runner.params) (hn₂ : NoCuts c₂.runner.params)
    (ht : user.integralityTolerance.getD (1 / 10 ^ 6) < 1 / 2)
    (ht₁ : user₁.integralityTolerance.getD (1 / 10 ^ 6) < 1 / 2)
    (ht₂ : user₂.integralityTolerance.getD (1 / 10 ^ 6) < 1 / 2)
    (hq : WholeProblem p (user.integralityTolerance.getD (1 / 10 ^ 6)))
    (hq₁ : WholeProblem (lowHalf p n k) (user₁.integralityTolerance.getD (1 / 10 ^ 6)))
    (hq₂ : WholeProblem (highHalf p n k) (user₂.integralityTolerance.getD (1 / 10 ^ 6))) {fuel fuel₁ fuel₂ : Nat}
    {o o₁ o₂ : Outcome (Solver.State (Runner World))} (hs : solve e c fuel = some o) (hs₁ : solve e₁ c₁ fuel₁ = some o₁)
    (hs₂ : solve e₂ c₂ fuel₂ = some o₂) {v v₁ v₂ : Option ℚ} (hv : Reports p (Rounded p) o v)
    (hv₁ : Reports (lowHalf p n k) (Rounded p) o₁ v₁) (hv₂ : Reports (highHalf p n k) (Rounded p) o₂ v₂) :
    BetterOf p v v₁ v₂ := by
  obtain ⟨hp₁, hp₂⟩ := halves_wellFormed hp (List.getElem?_eq_some_iff.1 hw).1 k
  exact betterOf_of_optima hw (hq.integers w (List.mem_of_getElem? hw)).1 (rounded_reports_optimum he hp h hn ht hq hs hv)
    (rounded_reports_optimum he₁ hp₁ h₁ hn₁ ht₁ hq₁ hs₁ hv₁) (rounded_reports_optimum he₂ hp₂ h₂ hn₂ ht₂ hq₂ hs₂ hv₂)

/-! ### A problem that is better than its halves -/

theorem cappedLow_relaxed (δ : ℚ) (y : Int → ℚ) :
    (lowHalf (leakCapped δ) 0 0).RelaxedFeasible y ↔ (leakCapped δ).RelaxedFeasible y ∧ y 0 ≤ 0 := by
  constructor
  · rintro ⟨h1, h2⟩
    refine ⟨⟨h1, fun c hc => h2 c (List.mem_cons_of_mem _ hc)⟩, ?_⟩
    simpa [Between, Constraint.activity, Dbl.le] using h2 _ (List.mem_cons_self ..)
  · rintro ⟨⟨h1, h2⟩, h3⟩
    refine ⟨h1, fun c hc => ?_⟩
    rcases List.mem_cons.1 hc with rfl | hc
    · simpa [Between, Constraint.activity, Dbl.le] using h3
    · exact h2 c hc

/-- **C136 fails** without cuts, at every tolerance up to 1/4 other than 0, in particular at the default of 1e-6: `leakCapped`
(C134) split at `x ≤ 0` and `x ≥ 1`.  For every choice of the other parameters without cuts and with the max-fractional rule,
both interfaces, and whatever LP code that answers rightly and returns, `Solve` reports the maximum 1 for the problem, 0 for the
first half and none for the second. -/
theorem C136_tolerance_violated {δ : ℚ} (h0 : 0 < δ) (h1 : δ ≤ 1 / 4) :
    (∃ v, (leakCapped δ).vars[0]? = some v ∧ v.isInteger = true) ∧
    ∀ (x : Setup.External) (user : Setup.ParamsMsg) (c c₁ c₂ : Setup.Created),
      (∃ k ≤ 0, user.runner.bind (·.maxIterations) = some k) → (∀ s, user.branching.bind (·.rule) ≠ some (.random s)) →
      user.integralityTolerance.getD (1 / 10 ^ 6) = δ → Setup.create x (leakCapped δ) user = .ok c →
      Setup.create x (lowHalf (leakCapped δ) 0 0) user = .ok c₁ → Setup.create x (highHalf (leakCapped δ) 0 0) user = .ok c₂ →
      ∀ e : Engine, e.Right → CodeReturns e c → CodeReturns e c₁ → CodeReturns e c₂ →
        ∃ fuel o o₁ o₂, solve e c 2 = some o ∧ solve e c₁ 2 = some o₁ ∧ solve e c₂ fuel = some o₂ ∧
          Reports (leakCapped δ) Eq o (some 1) ∧ Reports (lowHalf (leakCapped δ) 0 0) Eq o₁ (some 0) ∧
          Reports (highHalf (leakCapped δ) 0 0) Eq o₂ none ∧ ¬ BetterOf (leakCapped δ) (some 1) (some 0) none := by
  refine ⟨⟨_, rfl, rfl⟩, fun x user c c₁ c₂ hi hru htol hc hc₁ hc₂ e he hl hl₁ hl₂ => ?_⟩
  obtain ⟨-, hf, -, hp', hB'⟩ := leak_spec δ
  obtain ⟨hp₁, hp₂⟩ := halves_wellFormed hp' (n := 0) (by simp [leakCapped, leak]) 0
  have hnonneg : 0 ≤ user.integralityTolerance.getD (1 / 10 ^ 6) := by rw [htol]; exact h0.le
  obtain ⟨s, hs, hb, hv⟩ := capped_run h0 h1 hi hru htol hc he hl
  -- the first half
  have hfirst : ∃ s₁, solve e c₁ 2 = some (.ok s₁) ∧ s₁.result.best ≠ {} ∧ point s₁.result.best.values 1 = 0 := by
    obtain ⟨hn₁, dir, hrule⟩ := rule_of hp₁ hc₁ hi hru
    have hrel : ∀ y, (lowHalf (leakCapped δ) 0 0).RelaxedFeasible y → y 0 = 0 ∧ y 1 ≤ 0 := by
      intro y hy
      obtain ⟨hy, k1⟩ := (cappedLow_relaxed δ y).1 hy
      obtain ⟨⟨k2, -⟩, -, k3, -⟩ := (leak_relaxed δ y).1 ((leakCapped_relaxed δ y).1 hy).1
      have k4 := le_antisymm k1 k2
      rw [k4, mul_zero] at k3
      exact ⟨k4, k3⟩
    have hz : (lowHalf (leakCapped δ) 0 0).RelaxedFeasible (fun _ => 0) := by
      rw [cappedLow_relaxed, leakCapped_relaxed, leak_relaxed]
      norm_num
      exact h0.le
    have hB₁ : Bounded (lowHalf (leakCapped δ) 0 0) := by
      obtain ⟨B, hB⟩ := hB'
      exact ⟨B, fun y hy => hB y ((cappedLow_relaxed δ y).1 hy).1⟩
    obtain ⟨s₁, hs₁, -, hopt⟩ := relaxed_accepted he hp₁ hB₁ ⟨_, hz⟩ (user := user) hnonneg
      (fun y hy n v hv hi => by
        match n with
        | 0 => exact ⟨0, by rw [show y ((0 : Nat) : Int) = 0 from (hrel y hy.1).1]; simpa using hnonneg⟩
        | 1 => simp [lowHalf, leakCapped, leak] at hv; subst hv; simp at hi
        | n + 2 => simp [lowHalf, leakCapped, leak] at hv) hc₁
      (hl₁.imp id fun h => ⟨h.1, h.2, leak_integral δ, dir, hrule⟩) hn₁
    refine ⟨s₁, hs₁, ((C75_optimal_partial he hp₁ hB₁ hc₁ hn₁ 2).1 s₁ hs₁ (fun _ => 0)
      ⟨fun n v hv => ⟨hz.1 n v hv, fun _ => ⟨0, by simp⟩⟩, hz.2⟩).1, ?_⟩
    have hge := hopt.2 _ hz
    rw [show (lowHalf (leakCapped δ) 0 0).isMaximization = true from rfl, if_pos rfl,
      show (lowHalf (leakCapped δ) 0 0).userObjective = (leakCapped δ).userObjective from rfl,
      leakCapped_objective, leakCapped_objective] at hge
    exact le_antisymm (hrel _ hopt.1).2 hge
  -- the second half
  have hsecond : ∃ fuel o₂, solve e c₂ fuel = some o₂ ∧ Reports (highHalf (leakCapped δ) 0 0) Eq o₂ none := by
    obtain ⟨hn₂, dir, hrule⟩ := rule_of hp₂ hc₂ hi hru
    have hno : ∀ y : Int → ℚ, (∀ k ∈ (highHalf (leakCapped δ) 0 0).constraints, Between k.lhs (k.activity y) k.rhs) → False := by
      intro y hy
      have k1 := hy _ (List.mem_cons_self ..)
      have k2 := hy _ (List.mem_cons_of_mem _ (List.mem_cons_self ..))
      simp [Between, Constraint.activity, Dbl.le] at k1 k2
      linarith
    have hB₂ : Bounded (highHalf (leakCapped δ) 0 0) := ⟨0, fun y hy => (hno y hy.2).elim⟩
    have hf₂ : FiniteIntegers (highHalf (leakCapped δ) 0 0) := hf
    refine ⟨iterationBound (highHalf (leakCapped δ) 0 0), ?_⟩
    have hret : solve e c₂ (iterationBound (highHalf (leakCapped δ) 0 0)) = none ∨
        (∃ s, solve e c₂ (iterationBound (highHalf (leakCapped δ) 0 0)) = some (.ok s)) ∨
        solve e c₂ (iterationBound (highHalf (leakCapped δ) 0 0)) = some (.error "The problem is infeasible or unbounded") := by
      rcases hl₂ with ⟨hl, hret⟩ | ⟨hl, hret⟩
      · exact C77_glop_never_aborts_partial hret hp₂ hc₂ hl hn₂ hnonneg _
      · exact C77_soplex_never_aborts_partial hret he.feasible hp₂ (leak_integral δ) hc₂ hl hn₂ hrule hnonneg _
    rcases solves_of hp₂ hB₂ hc₂ hn₂ he (C76_ends_partial _ hp₂ hf₂ e x user c₂ dir he.feasible hc₂ hrule hnonneg) hret with
      ⟨h, -⟩ | ⟨s₂, h, hfeas, -⟩
    · exact ⟨_, h, .inl ⟨⟨_, rfl⟩, rfl⟩⟩
    · refine ⟨_, h, .inr ⟨s₂, rfl, .inl ⟨?_, rfl⟩⟩⟩
      by_contra hb
      exact hno _ (hfeas hb).2
  obtain ⟨s₁, hs₁, hb₁, hv₁⟩ := hfirst
  obtain ⟨fuel, o₂, hs₂, hr₂⟩ := hsecond
  refine ⟨fuel, _, _, o₂, hs, hs₁, hs₂, .inr ⟨s, rfl, .inr ⟨hb, _, rfl, by rw [leakCapped_objective, hv]⟩⟩,
    .inr ⟨s₁, rfl, .inr ⟨hb₁, _, rfl, ?_⟩⟩, hr₂, fun hw => ?_⟩
  · rw [show (lowHalf (leakCapped δ) 0 0).userObjective (point s₁.result.best.values) =
      (leakCapped δ).userObjective (point s₁.result.best.values) from rfl, leakCapped_objective, hv₁]
  · have := (hw.1 1 rfl).1
    simp at this

/-! ### The hypotheses are met -/

/-- The hypotheses of `C136_exact_partial` are met by `tight`, split at `x ≤ 0` and `x ≥ 1`, and by what `Solve` returns. -/
example : ∃ (x : Setup.External) (c c₁ c₂ : Setup.Created) (fuel fuel₁ fuel₂ : Nat)
    (o o₁ o₂ : Outcome (Solver.State (Runner World))) (v v₁ v₂ : Option ℚ),
    Setup.create x tight { exUser with integralityTolerance := some 0 } = .ok c ∧
    Setup.create x (lowHalf tight 0 0) { exUser with integralityTolerance := some 0 } = .ok c₁ ∧
    Setup.create x (highHalf tight 0 0) { exUser with integralityTolerance := some 0 } = .ok c₂ ∧
    NoCuts c.runner.params ∧ NoCuts c₁.runner.params ∧ NoCuts c₂.runner.params ∧
    solve perfect c fuel = some o ∧ solve perfect c₁ fuel₁ = some o₁ ∧ solve perfect c₂ fuel₂ = some o₂ ∧
    Reports tight Eq o v ∧ Reports (lowHalf tight 0 0) Eq o₁ v₁ ∧ Reports (highHalf tight 0 0) Eq o₂ v₂ ∧
    BetterOf tight v v₁ v₂ := by
  obtain ⟨g1, g2, ⟨B, g4⟩, -⟩ := tight_spec
  have ht : Setup.GlopTakes (({ exUser with integralityTolerance := some 0 } : Setup.ParamsMsg).lp.getD {}).read := by
    refine ⟨⟨?_, ?_, ?_, ?_, ?_, ?_, ?_, ?_⟩, rfl, ?_, ?_, rfl, rfl⟩ <;> simp [exUser, Setup.LpMsg.read, ToleranceOk]
  obtain ⟨l1, u1⟩ := halves_wellFormed g1 (n := 0) (by simp [tight]) 0
  have l4 : Bounded (lowHalf tight 0 0) := ⟨B, fun y hy => g4 y ⟨hy.1, fun k hk => hy.2 k (List.mem_cons_of_mem _ hk)⟩⟩
  have u4 : Bounded (highHalf tight 0 0) := ⟨B, fun y hy => g4 y ⟨hy.1, fun k hk => hy.2 k (List.mem_cons_of_mem _ hk)⟩⟩
  have run : ∀ p : Problem, p.WellFormed → FiniteIntegers p → Bounded p → ∃ c fuel o v,
      Setup.create Setup.exExternal p { exUser with integralityTolerance := some 0 } = .ok c ∧ NoCuts c.runner.params ∧
      solve perfect c fuel = some o ∧ Reports p Eq o v := by
    intro p h1 h2 h4
    obtain ⟨c, hc, hs⟩ := C78_total_correctness p h1 h2 h4 Setup.exExternal { exUser with integralityTolerance := some 0 } _
      (Setup.lpWins _) ht ⟨0, le_refl _, rfl⟩ (by intro s; simp [exUser]) (by norm_num [exUser])
    obtain ⟨o, v, ho, hv⟩ := reports_of_solves (hs perfect perfect_spec.1 perfect_spec.2)
    exact ⟨c, _, o, v, hc, (rule_of h1 hc ⟨0, le_rfl, rfl⟩ (by simp [exUser])).1, ho, hv⟩
  obtain ⟨c, fuel, o, v, hc, hn, ho, hv⟩ := run tight g1 g2 ⟨B, g4⟩
  obtain ⟨c₁, fuel₁, o₁, v₁, hc₁, hn₁, ho₁, hv₁⟩ := run _ l1 g2 l4
  obtain ⟨c₂, fuel₂, o₂, v₂, hc₂, hn₂, ho₂, hv₂⟩ := run _ u1 g2 u4
  exact ⟨_, c, c₁, c₂, fuel, fuel₁, fuel₂, o, o₁, o₂, v, v₁, v₂, hc, hc₁, hc₂, hn, hn₁, hn₂, ho, ho₁, ho₂, hv, hv₁, hv₂,
    C136_exact_partial (n := 0) rfl rfl g1 perfect_spec.1 perfect_spec.1 perfect_spec.1 hc hc₁ hc₂ (.inl hn) (.inl hn₁) (.inl hn₂)
      rfl rfl rfl ho ho₁ ho₂ hv hv₁ hv₂⟩

/-- The hypotheses of `C136_tolerance_violated` are met with the parameters at their defaults except for the cut runner. -/
example (x : Setup.External) : ∃ c c₁ c₂, Setup.create x (leakCapped (1 / 10 ^ 6)) exUser = .ok c ∧
    Setup.create x (lowHalf (leakCapped (1 / 10 ^ 6)) 0 0) exUser = .ok c₁ ∧
    Setup.create x (highHalf (leakCapped (1 / 10 ^ 6)) 0 0) exUser = .ok c₂ ∧
    CodeReturns perfect c ∧ CodeReturns perfect c₁ ∧ CodeReturns perfect c₂ := by
  obtain ⟨-, -, -, hp, -⟩ := leak_spec (1 / 10 ^ 6)
  obtain ⟨hp₁, hp₂⟩ := halves_wellFormed hp (n := 0) (by simp [leakCapped, leak]) 0
  have ht : Setup.GlopTakes (exUser.lp.getD {}).read := by
    refine ⟨⟨?_, ?_, ?_, ?_, ?_, ?_, ?_, ?_⟩, rfl, ?_, ?_, rfl, rfl⟩ <;> simp [exUser, Setup.LpMsg.read, ToleranceOk]
  obtain ⟨c, hc⟩ := (Setup.C73_glop_partial x _ hp exUser _ (Setup.lpWins _) rfl).1 ht
  obtain ⟨c₁, hc₁⟩ := (Setup.C73_glop_partial x _ hp₁ exUser _ (Setup.lpWins _) rfl).1 ht
  obtain ⟨c₂, hc₂⟩ := (Setup.C73_glop_partial x _ hp₂ exUser _ (Setup.lpWins _) rfl).1 ht
  exact ⟨c, c₁, c₂, hc, hc₁, hc₂, .inl ⟨created_glop hc rfl, perfect_spec.2⟩, .inl ⟨created_glop hc₁ rfl, perfect_spec.2⟩,
    .inl ⟨created_glop hc₂ rfl, perfect_spec.2⟩⟩

/-- The conditions of `C136_rounded_partial` on the problems are met by `max 3 x + 2 y`, `5 x + 2 y ≤ 7` and its halves at
`y ≤ 2` and `y ≥ 3`, with the default tolerance. -/
example : WholeProblem openProblem (1 / 10 ^ 6) ∧ WholeProblem (lowHalf openProblem 1 2) (1 / 10 ^ 6) ∧
    WholeProblem (highHalf openProblem 1 2) (1 / 10 ^ 6) := by
  have h := open_whole
  refine ⟨h, ⟨h.1, h.2, fun k hk => ?_, h.4⟩, ⟨h.1, h.2, fun k hk => ?_, h.4⟩⟩
  · rcases List.mem_cons.1 hk with rfl | hk
    · refine ⟨⟨fun j hj => ?_, fun q hq => ?_, fun q hq => ?_⟩, ?_⟩
      · simp at hj; subst hj; rfl
      · simp at hq; exact ⟨1, by simp [hq]⟩
      · simp at hq; exact ⟨2, by simp [← hq]⟩
      · norm_num [rowMass, integerAt, lowHalf, openProblem]
    · obtain ⟨⟨a, b, c⟩, d⟩ := h.3 k hk
      exact ⟨⟨a, b, c⟩, d⟩
  · rcases List.mem_cons.1 hk with rfl | hk
    · refine ⟨⟨fun j hj => ?_, fun q hq => ?_, fun q hq => ?_⟩, ?_⟩
      · simp at hj; subst hj; rfl
      · simp at hq; exact ⟨1, by simp [hq]⟩
      · simp at hq; exact ⟨3, by norm_num [← hq]⟩
      · norm_num [rowMass, integerAt, highHalf, openProblem]
    · obtain ⟨⟨a, b, c⟩, d⟩ := h.3 k hk
      exact ⟨⟨a, b, c⟩, d⟩

end Program
end MiniMip
