import Verif.Props.ProgramSplit

/-!
# C137: changing the objective changes the optimum by no more

If the objective changes by at least `a` and at most `b` on all feasible points, so does the optimum that `Solve` reports.
-/

namespace MiniMip
namespace Program

open Solver (point)

/-! ### Specification -/

/-- The problem with `d n` added to the objective coefficient of variable `n`. -/
def addObjective (p : Problem) (d : Nat → ℚ) : Problem :=
  { p with vars := p.vars.mapIdx fun n v => { v with objective := v.objective + d n } }

/-- The problems have the same feasible points, on which their objectives differ by at least `a` and at most `b`. -/
def Changes (p p' : Problem) (a b : ℚ) : Prop :=
  p.isMaximization = p'.isMaximization ∧ (∀ y, p.Feasible y ↔ p'.Feasible y) ∧
  ∀ y, p.Feasible y → a ≤ p'.userObjective y - p.userObjective y ∧ p'.userObjective y - p.userObjective y ≤ b

/-- Optima that differ by at least `a` and at most `b`, or both are missing. -/
def Shifted (a b : ℚ) (v v' : Option ℚ) : Prop :=
  (∀ q q', v = some q → v' = some q' → a ≤ q' - q ∧ q' - q ≤ b) ∧ (v = none ↔ v' = none)

/-! ### Proof -/

theorem objectiveFrom_add (d : Nat → ℚ) (y : Int → ℚ) : ∀ (l : List Variable) (k : Nat) (f : Nat → ℚ), (∀ i, f i = d (k + i)) →
    objectiveFrom k (l.mapIdx fun n v => { v with objective := v.objective + f n }) y =
      objectiveFrom k l y + ((List.range' k l.length).map fun n : Nat => d n * y n).sum := by
  intro l
  induction l with
  | nil => intro k f _; simp [objectiveFrom]
  | cons v l ih =>
    intro k f hf
    rw [List.mapIdx_cons, objectiveFrom, objectiveFrom, List.length_cons, List.range'_succ, List.map_cons, List.sum_cons,
      ih (k + 1) (fun i => f (i + 1)) (fun i => by rw [hf]; congr 1; omega), hf 0]
    simp only [Nat.add_zero]
    ring

/-- **C137**, problems: adding to the objective coefficients changes the objective by the sum of what is added times the values,
and nothing about which points are feasible. -/
theorem C137_coefficients (p : Problem) (d : Nat → ℚ) (y : Int → ℚ) :
    (p.Feasible y ↔ (addObjective p d).Feasible y) ∧
    (addObjective p d).userObjective y - p.userObjective y = ((List.range p.vars.length).map fun n : Nat => d n * y n).sum ∧
    (p.WellFormed → (addObjective p d).WellFormed) := by
  refine ⟨and_congr ⟨fun h n v hv => ?_, fun h n v hv => ?_⟩ Iff.rfl, ?_, fun h => ⟨fun v hv => ?_, fun k hk => ?_⟩⟩
  · simp only [addObjective, List.getElem?_mapIdx] at hv
    obtain ⟨w, hw, rfl⟩ := Option.map_eq_some_iff.1 hv
    exact h n w hw
  · exact h n { v with objective := v.objective + d n } (by simp [addObjective, List.getElem?_mapIdx, hv])
  · have := objectiveFrom_add d y p.vars 0 d (fun i => by simp)
    rw [← List.range_eq_range'] at this
    simp only [Problem.userObjective, addObjective]
    rw [this]
    ring
  · simp only [addObjective, List.mem_mapIdx] at hv
    obtain ⟨i, hi, rfl⟩ := hv
    have := h.1 p.vars[i] (List.getElem_mem hi)
    exact this
  · simpa [addObjective] using h.2 k hk

theorem shifted_of_optima {p p' : Problem} {a b : ℚ} (h : Changes p p' a b) {v v' : Option ℚ} (hv : IsOptimum p v)
    (hv' : IsOptimum p' v') : Shifted a b v v' := by
  obtain ⟨hm, hf, hd⟩ := h
  refine ⟨?_, ?_⟩
  · rintro q q' rfl rfl
    obtain ⟨y, hy, rfl⟩ := hv
    obtain ⟨y', hy', rfl⟩ := hv'
    have h1 := hy.2 y' ((hf y').2 hy'.1)
    have h2 := hy'.2 y ((hf y).1 hy.1)
    have h3 := hd y hy.1
    have h4 := hd y' ((hf y').2 hy'.1)
    rw [← hm] at h2
    cases hmax : p.isMaximization <;> simp only [hmax, Bool.false_eq_true, if_false, if_true] at h1 h2 <;>
      constructor <;> linarith [h3.1, h3.2, h4.1, h4.2]
  · cases v with
    | none =>
      cases v' with
      | none => simp
      | some q' =>
        exfalso
        obtain ⟨y', hy', -⟩ := hv'
        rcases hv with hv | hv
        · exact hv y' ((hf y').2 hy'.1)
        · obtain ⟨z, hz, hlt⟩ := hv (if p.isMaximization then p'.userObjective y' - a else p'.userObjective y' - b)
          have h2 := hy'.2 z ((hf z).1 hz)
          have h3 := hd z hz
          rw [← hm] at h2
          cases hmax : p.isMaximization <;> simp only [hmax, Bool.false_eq_true, if_false, if_true] at h2 hlt <;>
            linarith [h3.1, h3.2]
    | some q =>
      cases v' with
      | some q' => simp
      | none =>
        exfalso
        obtain ⟨y, hy, -⟩ := hv
        rcases hv' with hv' | hv'
        · exact hv' y ((hf y).1 hy.1)
        · obtain ⟨z, hz, hlt⟩ := hv' (if p.isMaximization then p.userObjective y + b else p.userObjective y + a)
          have h2 := hy.2 z ((hf z).2 hz)
          have h3 := hd z ((hf z).2 hz)
          rw [← hm] at hlt
          cases hmax : p.isMaximization <;> simp only [hmax, Bool.false_eq_true, if_false, if_true] at h2 hlt <;>
            linarith [h3.1, h3.2]

/-- **C137**, the part that holds: with tolerance 0.  For all well-formed problems, bounded or not, all changes of the objective,
all parameters with harmless cuts, both LP interfaces, every branching rule and all LP code that answers rightly (all of which
may differ between the runs): if both calls of `Solve` return, the reported optimum changes by no more than the objective does on
the feasible points, and is reported for both problems or for neither. -/
theorem C137_exact_partial {p p' : Problem} {a b : ℚ} (hr : Changes p p' a b) (hp : p.WellFormed) (hp' : p'.WellFormed)
    {e e' : Engine} (he : e.Right) (he' : e'.Right) {x x' : Setup.External}
    {user user' : Setup.ParamsMsg} {c c' : Setup.Created} (h : Setup.create x p user = .ok c)
    (h' : Setup.create x' p' user' = .ok c') (hn : CutsHarmless e p user c) (hn' : CutsHarmless e' p' user' c')
    (ht : user.integralityTolerance = some 0) (ht' : user'.integralityTolerance = some 0) {fuel fuel' : Nat}
    {o o' : Outcome (Solver.State (Runner World))} (hs : solve e c fuel = some o) (hs' : solve e' c' fuel' = some o')
    {v v' : Option ℚ} (hv : Reports p Eq o v) (hv' : Reports p' Eq o' v') : Shifted a b v v' := by
  refine shifted_of_optima hr (reports_optimum he hp h hn ?_ hs hv) (reports_optimum he' hp' h' hn' ?_ hs' hv')
  · rintro s fuel - - hf hopt z rfl
    rw [ht] at hf
    exact ⟨feasible_of_zero hf, hopt⟩
  · rintro s fuel - - hf hopt z rfl
    rw [ht'] at hf
    exact ⟨feasible_of_zero hf, hopt⟩

/-- **C137**, the part that holds: problems with integer variables only and integral numbers, in which the tolerance changes no
constraint and no objective value by one, after rounding. -/
theorem C137_rounded_partial {p p' : Problem} {a b : ℚ} (hr : Changes p p' a b) (hp : p.WellFormed) (hp' : p'.WellFormed)
    {e e' : Engine} (he : e.Right) (he' : e'.Right) {x x' : Setup.External}
    {user user' : Setup.ParamsMsg} {c c' : Setup.Created} (h : Setup.create x p user = .ok c)
    (h' : Setup.create x' p' user' = .ok c') (hn : NoCuts c.runner.params) (hn' : NoCuts c'.runner.params)
    (ht : user.integralityTolerance.getD (1 / 10 ^ 6) < 1 / 2)
    (ht' : user'.integralityTolerance.getD (1 / 10 ^ 6) < 1 / 2)
    (hw : WholeProblem p (user.integralityTolerance.getD (1 / 10 ^ 6)))
    (hw' : WholeProblem p' (user'.integralityTolerance.getD (1 / 10 ^ 6))) {fuel fuel' : Nat}
    {o o' : Outcome (Solver.State (Runner World))} (hs : solve e c fuel = some o) (hs' : solve e' c' fuel' = some o')
    {v v' : Option ℚ} (hv : Reports p (Rounded p) o v) (hv' : Reports p' (Rounded p') o' v') : Shifted a b v v' :=
  shifted_of_optima hr (rounded_reports_optimum he hp h hn ht hw hs hv) (rounded_reports_optimum he' hp' h' hn' ht' hw' hs' hv')

/-! ### A change that no feasible point feels -/

/-- `leakCapped` with the objective `y - 2 x / δ`. -/
def leakTilted (δ : ℚ) : Problem := addObjective (leakCapped δ) fun n => if n = 0 then -(2 / δ) else 0

theorem leakTilted_objective (δ : ℚ) (y : Int → ℚ) : (leakTilted δ).userObjective y = y 1 - 2 / δ * y 0 := by
  have := (C137_coefficients (leakCapped δ) (fun n => if n = 0 then -(2 / δ) else 0) y).2.1
  rw [leakCapped_objective, show (leakCapped δ).vars.length = 2 from rfl] at this
  simp [List.range_succ] at this
  have e : (leakTilted δ).userObjective y =
    (addObjective (leakCapped δ) fun n => if n = 0 then -(2 / δ) else 0).userObjective y := rfl
  rw [e]
  linarith

theorem leakTilted_relaxed (δ : ℚ) (y : Int → ℚ) : (leakTilted δ).RelaxedFeasible y ↔ (leakCapped δ).RelaxedFeasible y := by
  refine and_congr ⟨fun h n v hv => ?_, fun h n v hv => ?_⟩ Iff.rfl
  · exact h n { v with objective := v.objective + if n = 0 then -(2 / δ) else 0 }
      (by simp [leakTilted, addObjective, List.getElem?_mapIdx, hv])
  · simp only [leakTilted, addObjective, List.getElem?_mapIdx] at hv
    obtain ⟨w, hw, rfl⟩ := Option.map_eq_some_iff.1 hv
    exact h n w hw

theorem leakTilted_changes {δ : ℚ} (h1 : δ ≤ 1 / 4) : Changes (leakCapped δ) (leakTilted δ) 0 0 := by
  refine ⟨rfl, fun y => (C137_coefficients _ _ y).1, fun y hy => ?_⟩
  have hrel : (leakCapped δ).RelaxedFeasible y := ⟨fun n v hv => (hy.1 n v hv).1, hy.2⟩
  obtain ⟨hl, hle⟩ := (leakCapped_relaxed δ y).1 hrel
  have hge := ((leak_relaxed δ y).1 hl).1.1
  obtain ⟨k, hk⟩ := (hy.1 0 _ rfl).2 rfl
  have hk : y 0 = k := hk
  have hy0 : y 0 = 0 := by
    rw [hk] at hle hge ⊢
    have h2 : (k : ℚ) < 1 := by linarith
    have h3 : k < 1 := by exact_mod_cast h2
    have h4 : 0 ≤ k := by exact_mod_cast hge
    exact_mod_cast (show k = 0 by omega)
  rw [leakTilted_objective, leakCapped_objective, hy0]
  simp

theorem leakTilted_spec {δ : ℚ} (h0 : 0 < δ) : (leakTilted δ).WellFormed ∧ Bounded (leakTilted δ) ∧
    IntegralIntegers (leakTilted δ) ∧ (leakTilted δ).RelaxedFeasible (fun _ => 0) := by
  refine ⟨(C137_coefficients _ _ fun _ => 0).2.2 (leak_spec δ).2.2.2.1, ⟨2, fun y hy => ?_⟩, fun v hv hi => ?_, ?_⟩
  · rw [show (leakTilted δ).isMaximization = true from rfl, if_pos rfl, leakTilted_objective]
    obtain ⟨hl, -⟩ := (leakCapped_relaxed δ y).1 ((leakTilted_relaxed δ y).1 hy)
    obtain ⟨⟨k1, -⟩, ⟨-, k2⟩, -⟩ := (leak_relaxed δ y).1 hl
    have : 0 ≤ 2 / δ * y 0 := by positivity
    linarith
  · simp only [leakTilted, addObjective, List.mem_mapIdx] at hv
    obtain ⟨i, hi', rfl⟩ := hv
    have := leak_integral δ (leakCapped δ).vars[i] (List.getElem_mem hi') hi
    exact this
  · rw [leakTilted_relaxed, leakCapped_relaxed, leak_relaxed]
    norm_num
    exact h0.le

/-- **C137 fails** without cuts, at every tolerance up to 1/4 other than 0, in particular at the default of 1e-6: `leakCapped`
(C134), where `x` is 0 in every feasible point, and the same with `2 x / δ` subtracted from the objective.
For every choice of the other parameters without cuts and with the max-fractional rule, both interfaces, and whatever LP code
that answers rightly and returns, `Solve` reports the maximum 1 for the first and 0 for the second. -/
theorem C137_tolerance_violated {δ : ℚ} (h0 : 0 < δ) (h1 : δ ≤ 1 / 4) : Changes (leakCapped δ) (leakTilted δ) 0 0 ∧
    ∀ (x : Setup.External) (user : Setup.ParamsMsg) (c c' : Setup.Created),
      (∃ k ≤ 0, user.runner.bind (·.maxIterations) = some k) → (∀ s, user.branching.bind (·.rule) ≠ some (.random s)) →
      user.integralityTolerance.getD (1 / 10 ^ 6) = δ →
      Setup.create x (leakCapped δ) user = .ok c → Setup.create x (leakTilted δ) user = .ok c' →
      ∀ e : Engine, e.Right → CodeReturns e c → CodeReturns e c' →
        ∃ o o', solve e c 2 = some o ∧ solve e c' 2 = some o' ∧
          Reports (leakCapped δ) Eq o (some 1) ∧ Reports (leakTilted δ) Eq o' (some 0) ∧
          ¬ Shifted 0 0 (some 1) (some 0) := by
  refine ⟨leakTilted_changes h1, fun x user c c' hi hru htol hc hc' e he hl hl' => ?_⟩
  obtain ⟨hp', hB', hI', hz⟩ := leakTilted_spec h0
  have hnonneg : 0 ≤ user.integralityTolerance.getD (1 / 10 ^ 6) := by rw [htol]; exact h0.le
  obtain ⟨s, hs, hb, hv⟩ := capped_run h0 h1 hi hru htol hc he hl
  obtain ⟨hn', dir', hrule'⟩ := rule_of hp' hc' hi hru
  have hval : ∀ y, RelaxedOptimal (leakTilted δ) y → y 0 = 0 ∧ y 1 = 0 := by
    rintro y ⟨hy1, hy2⟩
    have hge := hy2 _ hz
    rw [show (leakTilted δ).isMaximization = true from rfl, if_pos rfl, leakTilted_objective, leakTilted_objective] at hge
    obtain ⟨hy1, -⟩ := (leakCapped_relaxed δ y).1 ((leakTilted_relaxed δ y).1 hy1)
    obtain ⟨⟨k1, -⟩, -, k2, -⟩ := (leak_relaxed δ y).1 hy1
    have e2 : 2 / δ * y 0 = 2 * (1 / δ * y 0) := by ring
    rw [e2] at hge
    have hpos : 0 < 1 / δ := by positivity
    have k3 : 1 / δ * y 0 ≤ 0 := by linarith
    have k4 : y 0 = 0 := le_antisymm (by by_contra hne; push Not at hne; linarith [mul_pos hpos hne]) k1
    rw [k4] at hge k2
    exact ⟨k4, le_antisymm (by linarith) (by linarith)⟩
  obtain ⟨s', hs', -, hopt⟩ := relaxed_accepted he hp' hB' ⟨_, hz⟩ (user := user) hnonneg
    (fun y hy n v hv hi => by
      match n with
      | 0 => exact ⟨0, by rw [show y ((0 : Nat) : Int) = 0 from (hval y hy).1]; simpa using hnonneg⟩
      | 1 => simp [leakTilted, addObjective, leakCapped, leak] at hv; subst hv; simp at hi
      | n + 2 => simp [leakTilted, addObjective, leakCapped, leak] at hv) hc'
    (hl'.imp id fun h => ⟨h.1, h.2, hI', dir', hrule'⟩) hn'
  obtain ⟨k1, k2⟩ := hval _ hopt
  have hb' : s'.result.best ≠ {} := by
    have hfe : (leakTilted δ).Feasible (fun _ => 0) :=
      ⟨fun n v hv => ⟨hz.1 n v hv, fun _ => ⟨0, by simp⟩⟩, hz.2⟩
    exact ((C75_optimal_partial he hp' hB' hc' hn' 2).1 s' hs' (fun _ => 0) hfe).1
  refine ⟨_, _, hs, hs', .inr ⟨s, rfl, .inr ⟨hb, _, rfl, by rw [leakCapped_objective, hv]⟩⟩,
    .inr ⟨s', rfl, .inr ⟨hb', _, rfl, by rw [leakTilted_objective, k1, k2]; simp⟩⟩, fun hw => ?_⟩
  have := (hw.1 1 0 rfl rfl).1
  norm_num at this

/-! ### The hypotheses are met -/

/-- The hypotheses of `C137_exact_partial` are met by `tight` and the objective `3 x` in place of `x`, which is more by 0 to 18,
and by what `Solve` returns. -/
example : ∃ (x : Setup.External) (c c' : Setup.Created) (fuel fuel' : Nat)
    (o o' : Outcome (Solver.State (Runner World))) (v v' : Option ℚ),
    Changes tight (addObjective tight fun _ => 2) 0 18 ∧
    Setup.create x tight { exUser with integralityTolerance := some 0 } = .ok c ∧
    Setup.create x (addObjective tight fun _ => 2) { exUser with integralityTolerance := some 0 } = .ok c' ∧
    NoCuts c.runner.params ∧ NoCuts c'.runner.params ∧ solve perfect c fuel = some o ∧ solve perfect c' fuel' = some o' ∧
    Reports tight Eq o v ∧ Reports (addObjective tight fun _ => 2) Eq o' v' ∧ Shifted 0 18 v v' := by
  obtain ⟨g1, g2, -, -⟩ := tight_spec
  have ht : Setup.GlopTakes (({ exUser with integralityTolerance := some 0 } : Setup.ParamsMsg).lp.getD {}).read := by
    refine ⟨⟨?_, ?_, ?_, ?_, ?_, ?_, ?_, ?_⟩, rfl, ?_, ?_, rfl, rfl⟩ <;> simp [exUser, Setup.LpMsg.read, ToleranceOk]
  have hobj : ∀ y, (addObjective tight fun _ => 2).userObjective y - tight.userObjective y = 2 * y 0 := by
    intro y
    rw [(C137_coefficients tight (fun _ => 2) y).2.1]
    simp [tight, List.range_succ]
  have hch : Changes tight (addObjective tight fun _ => 2) 0 18 := by
    refine ⟨rfl, fun y => (C137_coefficients _ _ y).1, fun y hy => ?_⟩
    have := (hy.1 0 _ rfl).1
    simp [Between, Dbl.le] at this
    rw [hobj]
    constructor <;> linarith [this.1, this.2]
  have g3 : (addObjective tight fun _ => 2).WellFormed := (C137_coefficients _ _ fun _ => 0).2.2 g1
  have g4 : FiniteIntegers (addObjective tight fun _ => 2) := by
    intro v hv hi
    simp only [addObjective, List.mem_mapIdx] at hv
    obtain ⟨i, hi', rfl⟩ := hv
    have := g2 tight.vars[i] (List.getElem_mem hi') hi
    exact this
  have b1 : Bounded tight := tight_spec.2.2.1
  have b2 : Bounded (addObjective tight fun _ => 2) := by
    refine ⟨27, fun y hy => ?_⟩
    have h1 := hy.1 0 _ rfl
    simp [Between, Dbl.le] at h1
    rw [show (addObjective tight fun _ => 2).isMaximization = true from rfl, if_pos rfl]
    have h2 : (addObjective tight fun _ => 2).userObjective y = 3 * y 0 := by
      have := hobj y
      have h3 : tight.userObjective y = y 0 := by simp [tight, Problem.userObjective, objectiveFrom]
      linarith
    rw [h2]
    linarith [h1.2]
  have run : ∀ p : Problem, p.WellFormed → FiniteIntegers p → Bounded p → ∃ c fuel o v,
      Setup.create Setup.exExternal p { exUser with integralityTolerance := some 0 } = .ok c ∧ NoCuts c.runner.params ∧
      solve perfect c fuel = some o ∧ Reports p Eq o v := by
    intro p h1 h2 h4
    obtain ⟨c, hc, hs⟩ := C78_total_correctness p h1 h2 h4 Setup.exExternal { exUser with integralityTolerance := some 0 } _
      (Setup.lpWins _) ht ⟨0, le_refl _, rfl⟩ (by intro s; simp [exUser]) (by norm_num [exUser])
    obtain ⟨o, v, ho, hv⟩ := reports_of_solves (hs perfect perfect_spec.1 perfect_spec.2)
    exact ⟨c, _, o, v, hc, (rule_of h1 hc ⟨0, le_rfl, rfl⟩ (by simp [exUser])).1, ho, hv⟩
  obtain ⟨c, fuel, o, v, hc, hn, ho, hv⟩ := run tight g1 g2 b1
  obtain ⟨c', fuel', o', v', hc', hn', ho', hv'⟩ := run _ g3 g4 b2
  exact ⟨_, c, c', fuel, fuel', o, o', v, v', hch, hc, hc', hn, hn', ho, ho', hv, hv',
    C137_exact_partial hch g1 g3 perfect_spec.1 perfect_spec.1 hc hc' (.inl hn) (.inl hn') rfl rfl ho ho' hv hv'⟩

/-- The hypotheses of `C137_tolerance_violated` are met with the parameters at their defaults except for the cut runner. -/
example (x : Setup.External) : ∃ c c', Setup.create x (leakCapped (1 / 10 ^ 6)) exUser = .ok c ∧
    Setup.create x (leakTilted (1 / 10 ^ 6)) exUser = .ok c' ∧ CodeReturns perfect c ∧ CodeReturns perfect c' := by
  obtain ⟨-, c, -, hc, -, hl⟩ := leak_created x
  have hp' := (leakTilted_spec (δ := 1 / 10 ^ 6) (by norm_num)).1
  have ht : Setup.GlopTakes (exUser.lp.getD {}).read := by
    refine ⟨⟨?_, ?_, ?_, ?_, ?_, ?_, ?_, ?_⟩, rfl, ?_, ?_, rfl, rfl⟩ <;> simp [exUser, Setup.LpMsg.read, ToleranceOk]
  obtain ⟨c', hc'⟩ := (Setup.C73_glop_partial x _ hp' exUser _ (Setup.lpWins _) rfl).1 ht
  exact ⟨c, c', hc, hc', hl, .inl ⟨created_glop hc' rfl, perfect_spec.2⟩⟩

/-- The conditions of `C137_rounded_partial` on the problems are met by `max 3 x + 2 y`, `5 x + 2 y ≤ 7` and the objective
`4 x + 3 y`, with the default tolerance. -/
example : WholeProblem openProblem (1 / 10 ^ 6) ∧ WholeProblem (addObjective openProblem fun _ => 1) (1 / 10 ^ 6) := by
  have h := open_whole
  refine ⟨h, fun v hv => ?_, fun v hv hi => ?_, fun k hk => ?_, ?_⟩
  · simp [addObjective, openProblem] at hv
    rcases hv with rfl | rfl
    · exact ⟨rfl, 4, by norm_num⟩
    · exact ⟨rfl, 3, by norm_num⟩
  · simp only [addObjective, List.mem_mapIdx] at hv
    obtain ⟨i, hi', rfl⟩ := hv
    have := h.2 openProblem.vars[i] (List.getElem_mem hi') hi
    exact this
  · have e : integerAt (addObjective openProblem fun _ => 1) = integerAt openProblem := by
      funext j
      simp [integerAt, addObjective, List.getElem?_mapIdx, Option.map_map, Function.comp_def]
    obtain ⟨⟨a, b, c⟩, d⟩ := h.3 k hk
    refine ⟨⟨by rw [e]; exact a, b, c⟩, ?_⟩
    unfold rowMass at d ⊢
    rw [e]
    exact d
  · norm_num [objectiveMass, addObjective, openProblem]

end Program
end MiniMip
