import Verif.Props.ProgramBounding
import Verif.Props.ProgramMonotone
import Verif.Props.ProgramTolerance

/-!
# C134: restricting a problem can improve the reported optimum without cuts, by the integrality tolerance alone

A point that is integral up to the tolerance may be much better than all integral points.  Whether `Solve` returns it depends on
whether it is the optimal point of some LP on the way, and a constraint can make it so.
-/

namespace MiniMip
namespace Program

open Solver (guard point InBounds InRootBounds InBox Box childBox)

/-- `max y`, `y ≤ x / δ`, `y ≤ 1 + x`, `y ≤ 3 - 4 x`, `x` in {0, 1}, `-1 ≤ y ≤ 2`.  The optimum is (0, 0). -/
def leak (δ : ℚ) : Problem :=
  { vars := [{ name := "x", objective := 0, lower := .fin 0, upper := .fin 1, isInteger := true },
      { name := "y", objective := 1, lower := .fin (-1), upper := .fin 2, isInteger := false }]
    constraints := [{ name := "a", varIndices := [0, 1], coefficients := [-(1 / δ), 1], lhs := .ninf, rhs := .fin 0 },
      { name := "b", varIndices := [0, 1], coefficients := [-1, 1], lhs := .ninf, rhs := .fin 1 },
      { name := "d", varIndices := [0, 1], coefficients := [4, 1], lhs := .ninf, rhs := .fin 3 }]
    isMaximization := true }

/-- `leak` and the constraint `x ≤ δ`. -/
def leakCapped (δ : ℚ) : Problem :=
  { leak δ with constraints := { name := "e", varIndices := [0], coefficients := [1], lhs := .ninf, rhs := .fin δ } ::
      (leak δ).constraints }

theorem leak_relaxed (δ : ℚ) (y : Int → ℚ) : (leak δ).RelaxedFeasible y ↔
    (0 ≤ y 0 ∧ y 0 ≤ 1) ∧ (-1 ≤ y 1 ∧ y 1 ≤ 2) ∧ y 1 ≤ 1 / δ * y 0 ∧ y 1 ≤ 1 + y 0 ∧ y 1 ≤ 3 - 4 * y 0 := by
  constructor
  · rintro ⟨h1, h2⟩
    have hx := h1 0 _ rfl
    have hy := h1 1 _ rfl
    have ha := h2 _ (List.mem_cons_self ..)
    have hb := h2 _ (List.mem_cons_of_mem _ (List.mem_cons_self ..))
    have hc := h2 _ (List.mem_cons_of_mem _ (List.mem_cons_of_mem _ (List.mem_cons_self ..)))
    simp [Between, Constraint.activity] at hx hy ha hb hc
    exact ⟨hx, hy, by rw [one_div]; linarith, by linarith, by linarith⟩
  · rintro ⟨hx, hy, ha, hb, hc⟩
    rw [one_div] at ha
    constructor
    · intro n v hv
      match n with
      | 0 => simp [leak] at hv; subst hv; simpa [Between] using hx
      | 1 => simp [leak] at hv; subst hv; simpa [Between] using hy
      | n + 2 => simp [leak] at hv
    · intro k hk
      simp [leak] at hk
      rcases hk with rfl | rfl | rfl <;> simp [Between, Constraint.activity] <;> linarith

theorem leakCapped_relaxed (δ : ℚ) (y : Int → ℚ) : (leakCapped δ).RelaxedFeasible y ↔ (leak δ).RelaxedFeasible y ∧ y 0 ≤ δ := by
  constructor
  · rintro ⟨h1, h2⟩
    refine ⟨⟨h1, fun k hk => h2 k (List.mem_cons_of_mem _ hk)⟩, ?_⟩
    have := h2 _ (List.mem_cons_self ..)
    simpa [Between, Constraint.activity] using this
  · rintro ⟨⟨h1, h2⟩, h3⟩
    refine ⟨h1, fun k hk => ?_⟩
    rcases List.mem_cons.1 hk with rfl | hk
    · simpa [Between, Constraint.activity] using h3
    · exact h2 k hk

theorem leak_objective (δ : ℚ) (y : Int → ℚ) : (leak δ).userObjective y = y 1 := by
  simp [leak, Problem.userObjective, objectiveFrom]

theorem leakCapped_objective (δ : ℚ) (y : Int → ℚ) : (leakCapped δ).userObjective y = y 1 := leak_objective δ y

theorem leak_spec (δ : ℚ) : (leak δ).WellFormed ∧ FiniteIntegers (leak δ) ∧ Bounded (leak δ) ∧
    (leakCapped δ).WellFormed ∧ Bounded (leakCapped δ) := by
  have hB : ∀ y, (leak δ).RelaxedFeasible y → (leak δ).userObjective y ≤ 2 := by
    intro y hy
    rw [leak_objective]
    exact ((leak_relaxed δ y).1 hy).2.1.2
  refine ⟨?_, ?_, ⟨2, fun y hy => ?_⟩, ?_, ⟨2, fun y hy => ?_⟩⟩
  · simp [Problem.WellFormed, leak, Variable.WellFormed, Constraint.WellFormed, Ordered, Dbl.le]
    norm_num
  · intro v hv hi
    simp [leak] at hv
    rcases hv with rfl | rfl
    · exact ⟨0, 1, rfl, rfl⟩
    · simp at hi
  · rw [show (leak δ).isMaximization = true from rfl, if_pos rfl]
    exact hB y hy
  · simp [Problem.WellFormed, leakCapped, leak, Variable.WellFormed, Constraint.WellFormed, Ordered, Dbl.le]
    norm_num
  · rw [show (leakCapped δ).isMaximization = true from rfl, if_pos rfl]
    exact hB y ((leakCapped_relaxed δ y).1 hy).1

theorem leak_tightened (δ : ℚ) : Tightened (leak δ) (leakCapped δ) := by
  refine ⟨rfl, rfl, ?_, ?_⟩
  · exact List.forall₂_same.2 fun v hv => by
      simp [leak] at hv
      rcases hv with rfl | rfl <;> simp [TightenedVariable, Dbl.le]
  · intro k hk
    refine ⟨k, List.mem_cons_of_mem _ hk, rfl, rfl, ?_⟩
    simp [leak] at hk
    rcases hk with rfl | rfl | rfl <;> simp [Dbl.le]

theorem leak_boxed {δ : ℚ} {c : Setup.Created} (hd : c.data.Represents (leak δ)) (b : Box) (y : Int → ℚ) :
    InBox c.data b y ↔ b 0 (y 0) := by
  constructor
  · intro h
    exact h 0 ((hd.integers _).2 ⟨0, _, rfl, rfl, rfl⟩)
  · rintro h0 n hn
    obtain ⟨m, v, hv, hi, hnm⟩ := (hd.integers n).1 hn
    obtain rfl : n = m := by omega
    match n with
    | 0 => exact h0
    | 1 => simp [leak] at hv; subst hv; simp at hi
    | n + 2 => simp [leak] at hv

/-- The optimal point of the LP of the root. -/
theorem leak_best {δ : ℚ} (h0 : 0 < δ) (h1 : δ ≤ 1 / 4) :
    (leak δ).RelaxedFeasible (fun j => if j = 0 then 2 / 5 else 7 / 5) := by
  rw [leak_relaxed]
  simp only [if_true, one_ne_zero, if_false]
  refine ⟨by norm_num, by norm_num, ?_, by norm_num, by norm_num⟩
  rw [one_div, ← div_eq_inv_mul, le_div_iff₀ h0]
  linarith

theorem leak_root {δ : ℚ} {y : Int → ℚ} (hy : (leak δ).RelaxedFeasible y) (this : 7 / 5 ≤ y 1) : y 0 = 2 / 5 := by
  obtain ⟨-, -, -, h4, h5⟩ := (leak_relaxed δ y).1 hy
  linarith

theorem two_fifths_far {δ : ℚ} (h : δ ≤ 1 / 4) (k : Int) : ¬ |(2 / 5 : ℚ) - k| ≤ δ := by
  intro hk
  have := abs_le.1 (hk.trans h)
  have h1 : (0 : ℚ) < k := by linarith [this.2]
  have h2 : (k : ℚ) < 1 := by linarith [this.1]
  have h1 : 0 < k := by exact_mod_cast h1
  have h2 : k < 1 := by exact_mod_cast h2
  omega

/-- Without cuts `Solve` never stores a point of `leak` with a positive objective value, and only (0, 0) with the value 0. -/
theorem leak_solutions {e : Engine} (he : e.Right) {x : Setup.External} {δ : ℚ} (h0 : 0 < δ) (h1 : δ ≤ 1 / 4)
    {user : Setup.ParamsMsg} {c : Setup.Created} (hc : Setup.create x (leak δ) user = .ok c) (hn : NoCuts c.runner.params)
    (hrule : ∃ dir, c.rule = .maxFractional dir) (htol : user.integralityTolerance.getD (1 / 10 ^ 6) = δ) {fuel : Nat}
    {s : Solver.State (Runner World)} (hs : solve e c fuel = some (.ok s)) (hb : s.result.best ≠ {}) :
    point s.result.best.values 1 ≤ 0 ∧ (0 ≤ point s.result.best.values 1 → point s.result.best.values 0 = 0) := by
  obtain ⟨hp, -, hB, -⟩ := leak_spec δ
  obtain ⟨hd, h₀⟩ := created_refines hp hc
  obtain ⟨-, -, -, -, -, h6, -⟩ := Setup.create_ok hc
  have h6 : (params c).tol = δ := h6.trans htol
  have hdk := Solver.dataOk_of_represents hd
  have hlen₀ : (start c.lpi).program.cols.length = c.data.lower.length := by
    rw [h₀.numCols, hd.lower, List.length_map]; rfl
  have hsh := primalShape (e := e) (c := c) (Good' := Plain (start c.lpi).program)
    (lp₀ := (start c.lpi).program) (fun _ h => h.good)
  rw [hlen₀] at hsh
  have hg := plain_start c
  have hct := contract_plain (lp₀ := (start c.lpi).program) he hn
  have hbr := Solver.branchesOnFractional_of_max hdk hsh
    (usesMaxFractional (e := e) (Good' := Plain (start c.lpi).program) hrule.choose_spec) (prm := params c) (by rw [h6]; exact h0.le)
  have heq : solve e c fuel = Solver.solveFuel (guard (oracle e c) (Plain (start c.lpi).program)) c.data
      (params c) fuel (Solver.initial { world := { lp := start c.lpi } }) :=
    (Solver.guard_solveFuel (keeps_plain hn) _ _ (by exact hg)).symm
  rw [heq] at hs
  -- the LP of a box that has a point with `x = 2/5`
  have hroot : ∀ {b : Box}, b 0 (2 / 5) → ∀ r, (Plain (start c.lpi).program r ∧
      RightAnswer r.world.lp.program (r.world.lp.isOptimal = true) r.world.report) →
      (∀ x, InBounds c.data bounds r x ↔ InRootBounds c.data x ∧ InBox c.data b x) →
      ∀ values, (guard (oracle e c) (Plain (start c.lpi).program)).primal r = .ok values → point values 0 = 2 / 5 := by
    rintro b hb r ⟨hr, hans⟩ hx values hv
    have hz : (leak δ).RelaxedFeasible (fun j => if j = 0 then 2 / 5 else 7 / 5) := leak_best h0 h1
    obtain ⟨-, h2⟩ := node_optimal (e := e) hp hB hd ⟨_, hz, (leak_boxed hd b _).2 hb⟩ h₀ hr hans hx
    obtain ⟨-, h4, -, h5⟩ := h2 values hv
    have h5 := h5 _ hz ((leak_boxed hd b _).2 hb)
    rw [show (leak δ).isMaximization = true from rfl, if_pos rfl, leak_objective, leak_objective] at h5
    exact leak_root h4 h5
  -- the LP of a box on one side
  have hlow : ∀ {b : Box}, (∀ y, b 0 y → y ≤ 0 ∨ 1 ≤ y) ∧ (b 0 0 ∨ b 0 1) → ∀ r, (Plain (start c.lpi).program r ∧
      RightAnswer r.world.lp.program (r.world.lp.isOptimal = true) r.world.report) →
      (∀ x, InBounds c.data bounds r x ↔ InRootBounds c.data x ∧ InBox c.data b x) →
      ∀ values, (guard (oracle e c) (Plain (start c.lpi).program)).primal r = .ok values →
        (point values 1 ≤ 0 ∧ (0 ≤ point values 1 → point values 0 = 0)) ∧ (point values 0 = 0 ∨ point values 0 = 1) := by
    rintro b ⟨hb, hb'⟩ r ⟨hr, hans⟩ hx values hv
    have hex : ∃ z, (leak δ).RelaxedFeasible z ∧ InBox c.data b z := by
      rcases hb' with hb' | hb'
      · refine ⟨fun _ => 0, ?_, (leak_boxed hd b _).2 hb'⟩
        rw [leak_relaxed]
        norm_num
      · refine ⟨fun j => if j = 0 then 1 else -1, ?_, (leak_boxed hd b _).2 hb'⟩
        rw [leak_relaxed]
        have : 0 < 1 / δ := by positivity
        norm_num
        exact le_trans (by norm_num) (inv_pos.2 h0).le
    obtain ⟨-, h2⟩ := node_optimal (e := e) hp hB hd hex h₀ hr hans hx
    obtain ⟨-, h4, h5, -⟩ := h2 values hv
    obtain ⟨⟨k1, k2⟩, -, k3, -, k4⟩ := (leak_relaxed δ _).1 h4
    rcases hb _ ((leak_boxed hd b _).1 h5) with h | h
    · have h : point values 0 = 0 := le_antisymm h k1
      rw [h, mul_zero] at k3
      exact ⟨⟨k3, fun _ => h⟩, .inl h⟩
    · exact ⟨⟨by linarith, fun _ => by linarith⟩, .inr (le_antisymm k2 h)⟩
  have hint : ∀ values : List ℚ, values.length = c.data.lower.length → c.data.solutionIsIntegral values (params c).tol = .ok true →
      ∃ k : Int, |point values 0 - k| ≤ δ := by
    intro values hlv hi
    obtain ⟨b, h4, h5⟩ := MipData.allIntegral_iff values (params c).tol c.data.integerVariables
      (fun j hj => by rw [hlv]; exact hdk.ints j hj)
    have hb : b = true := Outcome.ok.inj (h4.symm.trans hi)
    rw [hd.lower, List.length_map] at hlv
    match values, hlv with
    | [a, a'], _ =>
      have := h5.1 hb 0 a ((hd.integers _).2 ⟨0, _, rfl, rfl, rfl⟩) rfl
      rwa [h6] at this
  have key : ∀ bs sols, Solver.TransStar (guard (oracle e c) (Plain (start c.lpi).program)) c.data (params c) bounds
      (fun r => Plain (start c.lpi).program r ∧
        RightAnswer r.world.lp.program (r.world.lp.isOptimal = true) r.world.report) bs sols →
      (∀ b ∈ bs, (∀ j y, b j y) ∨ (∀ y, b 0 y → y ≤ 0 ∨ 1 ≤ y) ∧ (b 0 0 ∨ b 0 1)) ∧
      ∀ sol ∈ sols, point sol.values 1 ≤ 0 ∧ (0 ≤ point sol.values 1 → point sol.values 0 = 0) := by
    intro bs sols h
    induction h with
    | init _ hb => exact ⟨fun b hm => .inl (hb b hm), by simp⟩
    | step _ ht ih =>
      obtain ⟨ih1, ih2⟩ := ih
      cases ht with
      | drop hperm => exact ⟨fun b hm => ih1 b (hperm.mem_iff.2 (List.mem_cons_of_mem _ hm)), ih2⟩
      | record hperm ha hx hopt hv hin =>
        refine ⟨fun b hm => ih1 b (hperm.mem_iff.2 (List.mem_cons_of_mem _ hm)), fun sol hsol => ?_⟩
        rcases List.mem_append.1 hsol with hsol | hsol
        · exact ih2 sol hsol
        · obtain rfl := List.mem_singleton.1 hsol
          rcases ih1 _ (hperm.mem_iff.2 (List.mem_cons_self ..)) with hall | hside
          · obtain ⟨k, hk⟩ := hint _ (hsh _ _ hv) hin
            rw [hroot (hall _ _) _ ha hx _ hv] at hk
            exact absurd hk (two_fifths_far h1 k)
          · exact (hlow hside _ ha hx _ hv).1
      | @split b bs' _ w w' values col up v hperm ha hx hopt hv hin hbranch hval =>
        refine ⟨?_, ih2⟩
        obtain ⟨hcol, hfr⟩ := hbr _ _ _ _ _ _ hv hin hbranch hval
        obtain rfl : col = 0 := by
          obtain ⟨m, u, hm, hi, hcm⟩ := (hd.integers _).1 hcol
          obtain rfl : col = m := by exact_mod_cast hcm
          match col with
          | 0 => rfl
          | 1 => simp [leak] at hm; subst hm; simp at hi
          | n + 2 => simp [leak] at hm
        have hv0 : point values 0 = v := Solver.point_eq (n := 0) hval
        rcases ih1 _ (hperm.mem_iff.2 (List.mem_cons_self ..)) with hall | hside
        · have hv' : v = 2 / 5 := by rw [← hv0]; exact hroot (hall _ _) _ ha hx _ hv
          have hfl : ⌊v⌋ = 0 := by rw [hv']; norm_num
          have hce : ⌈v⌉ = 1 := by rw [hv']; norm_num
          have hch : ∀ down, (∀ y, childBox b 0 v down 0 y → y ≤ 0 ∨ 1 ≤ y) ∧
              (childBox b 0 v down 0 0 ∨ childBox b 0 v down 0 1) := by
            intro down
            cases down <;> simp [childBox, hfl, hce, hall] <;> tauto
          intro b' hb'
          rcases List.mem_append.1 hb' with hb' | hb'
          · rcases List.mem_cons.1 hb' with rfl | hb'
            · exact .inr (hch _)
            · exact ih1 _ (hperm.mem_iff.2 (List.mem_cons_of_mem _ hb'))
          · obtain rfl := List.mem_singleton.1 hb'
            exact .inr (hch _)
        · rcases (hlow hside _ ha hx _ hv).2 with h | h
          · exact absurd (by rw [← hv0, h]; simp) (hfr 0)
          · exact absurd (by rw [← hv0, h]; simp) (hfr 1)
  have fin : ∀ sols : List Solution,
      (∀ sol ∈ sols, point sol.values 1 ≤ 0 ∧ (0 ≤ point sol.values 1 → point sol.values 0 = 0)) →
      s.result.best = (({} : SolveResult).addAll sols).best →
      point s.result.best.values 1 ≤ 0 ∧ (0 ≤ point s.result.best.values 1 → point s.result.best.values 0 = 0) := by
    intro sols hall hres
    rcases (Solver.addAll_mem sols).1 with h | h
    · exact absurd (hres.trans h) hb
    · rw [hres]; exact hall _ h
  obtain ⟨s1, hr, h⟩ := Solver.solveFuel_some hs
  obtain ⟨bs, sols, hi, ht⟩ := Solver.reach_trans hdk hsh hct hg (startsAt hd h₀) hr
  obtain ⟨-, k2⟩ := key _ _ ht
  rcases h with ⟨s2, h1', h2⟩ | ⟨m, -, h2⟩ | ⟨-, h2⟩ | ⟨-, h2⟩
  · obtain ⟨sols', h3, h4⟩ := (Solver.iterate_trans hdk hsh hct hi).2.1 s2 h1'
    have h2 := Outcome.ok.inj h2
    refine fin sols' ?_ (by rw [h2, ← h3])
    cases h4 with
    | empty => exact k2
    | root ha hx hopt hv hin =>
      intro sol hsol
      rcases List.mem_append.1 hsol with hsol | hsol
      · exact k2 sol hsol
      · obtain ⟨k, hk⟩ := hint _ (hsh _ _ hv) hin
        rw [hroot (b := fun _ _ => True) trivial _ ha
          (fun x => by rw [hx x]; exact ⟨fun h => ⟨h, fun _ _ => trivial⟩, fun h => h.1⟩) _ hv] at hk
        exact absurd hk (two_fifths_far h1 k)
  · cases h2
  · cases h2
  · cases h2

/-- The point (0, 0). -/
theorem leak_origin (δ : ℚ) : (leak δ).Feasible (fun _ => 0) := by
  obtain ⟨k1, k2⟩ := (leak_relaxed δ (fun _ => 0)).2 (by norm_num)
  exact ⟨fun n v hv => ⟨k1 n v hv, fun _ => ⟨0, by simp⟩⟩, k2⟩

/-- The LP code returns on what was created. -/
def CodeReturns (e : Engine) (c : Setup.Created) : Prop :=
  ((∃ s g, c.lpi = .glop s g) ∧ e.GlopReturns) ∨ ((∃ g, c.lpi = .soplex g) ∧ e.SoplexReturns)

theorem leak_integral (δ : ℚ) : IntegralIntegers (leak δ) := by
  intro v hv hi
  simp [leak] at hv
  rcases hv with rfl | rfl
  · exact ⟨.inr ⟨0, by simp⟩, .inr ⟨1, by simp⟩⟩
  · simp at hi

/-- The solution that `Solve` returns for `leakCapped`. -/
theorem capped_run {δ : ℚ} (h0 : 0 < δ) (h1 : δ ≤ 1 / 4) {x : Setup.External} {user : Setup.ParamsMsg}
    (hi : ∃ k ≤ 0, user.runner.bind (·.maxIterations) = some k)
    (hru : ∀ s, user.branching.bind (·.rule) ≠ some (.random s)) (htol : user.integralityTolerance.getD (1 / 10 ^ 6) = δ)
    {c : Setup.Created} (hc' : Setup.create x (leakCapped δ) user = .ok c) {e : Engine} (he' : e.Right) (hl' : CodeReturns e c) :
    ∃ s, solve e c 2 = some (.ok s) ∧ s.result.best ≠ {} ∧ point s.result.best.values 1 = 1 := by
  obtain ⟨-, -, -, hp', hB'⟩ := leak_spec δ
  have hnonneg : 0 ≤ user.integralityTolerance.getD (1 / 10 ^ 6) := by rw [htol]; exact h0.le
  have hI := leak_integral δ
  obtain ⟨hn', dir', hrule'⟩ := rule_of hp' hc' hi hru
  -- the point (δ, 1)
  have hy : (leakCapped δ).RelaxedFeasible (fun j => if j = 0 then δ else 1) := by
    rw [leakCapped_relaxed, leak_relaxed]
    simp only [if_true, one_ne_zero, if_false]
    exact ⟨⟨⟨h0.le, by linarith⟩, by norm_num, (one_div_mul_cancel h0.ne').ge, by linarith, by linarith⟩, le_refl _⟩
  have hval : ∀ y, RelaxedOptimal (leakCapped δ) y → y 0 = δ ∧ y 1 = 1 := by
    rintro y ⟨hy1, hy2⟩
    have hge := hy2 _ hy
    rw [show (leakCapped δ).isMaximization = true from rfl, if_pos rfl, leakCapped_objective, leakCapped_objective] at hge
    simp only [one_ne_zero, if_false] at hge
    obtain ⟨hy1, hle⟩ := (leakCapped_relaxed δ y).1 hy1
    obtain ⟨-, -, k, -⟩ := (leak_relaxed δ y).1 hy1
    have hk : y 1 * δ ≤ y 0 := by
      rw [one_div, ← div_eq_inv_mul, le_div_iff₀ h0] at k
      exact k
    have : y 0 = δ := le_antisymm hle (by nlinarith)
    refine ⟨this, le_antisymm ?_ hge⟩
    rw [this, one_div_mul_cancel h0.ne'] at k
    exact k
  obtain ⟨s', hs', -, hopt⟩ := relaxed_accepted he' hp' hB' ⟨_, hy⟩ (user := user) hnonneg
    (fun y hy n v hv hi => by
      match n with
      | 0 => exact ⟨0, by rw [htol, show y ((0 : Nat) : Int) = δ from (hval y hy).1]; simp [abs_of_pos h0]⟩
      | 1 => simp [leakCapped, leak] at hv; subst hv; simp at hi
      | n + 2 => simp [leakCapped, leak] at hv) hc'
    (hl'.imp id fun h => ⟨h.1, h.2, hI, dir', hrule'⟩) hn'
  obtain ⟨-, h1'⟩ := hval _ hopt
  refine ⟨s', hs', fun hb => ?_, h1'⟩
  rw [hb] at h1'
  simp [point] at h1'

/-- The solutions that `Solve` returns for `leak` and `leakCapped`. -/
theorem leak_runs {δ : ℚ} (h0 : 0 < δ) (h1 : δ ≤ 1 / 4) {x x' : Setup.External} {user : Setup.ParamsMsg}
    (hi : ∃ k ≤ 0, user.runner.bind (·.maxIterations) = some k)
    (hru : ∀ s, user.branching.bind (·.rule) ≠ some (.random s)) (htol : user.integralityTolerance.getD (1 / 10 ^ 6) = δ)
    {c c' : Setup.Created} (hc : Setup.create x (leak δ) user = .ok c) (hc' : Setup.create x' (leakCapped δ) user = .ok c')
    {e e' : Engine} (he : e.Right) (he' : e'.Right) (hl : CodeReturns e c) (hl' : CodeReturns e' c') :
    ∃ s s', solve e c (iterationBound (leak δ)) = some (.ok s) ∧ solve e' c' 2 = some (.ok s') ∧
      s.result.best ≠ {} ∧ point s.result.best.values 0 = 0 ∧ point s.result.best.values 1 = 0 ∧
      s'.result.best ≠ {} ∧ point s'.result.best.values 1 = 1 := by
  obtain ⟨hp, hf, hB, -⟩ := leak_spec δ
  have hI := leak_integral δ
  have hnonneg : 0 ≤ user.integralityTolerance.getD (1 / 10 ^ 6) := by rw [htol]; exact h0.le
  obtain ⟨hn, dir, hrule⟩ := rule_of hp hc hi hru
  have hno : solve e c (iterationBound (leak δ)) = none ∨ (∃ s, solve e c (iterationBound (leak δ)) = some (.ok s)) ∨
      solve e c (iterationBound (leak δ)) = some (.error "The problem is infeasible or unbounded") := by
    rcases hl with ⟨hl, hret⟩ | ⟨hl, hret⟩
    · exact C77_glop_never_aborts_partial hret hp hc hl hn hnonneg _
    · exact C77_soplex_never_aborts_partial hret he.feasible hp hI hc hl hn hrule hnonneg _
  have hsol := solves_of hp hB hc hn he (C76_ends_partial (leak δ) hp hf e x user c dir he.feasible hc hrule hnonneg) hno
  have hfirst : ∃ s, solve e c (iterationBound (leak δ)) = some (.ok s) ∧
      s.result.best ≠ {} ∧ point s.result.best.values 0 = 0 ∧ point s.result.best.values 1 = 0 := by
    rcases hsol with ⟨-, hno⟩ | ⟨s, hs, -, hopt⟩
    · exact absurd (leak_origin δ) (hno _)
    · obtain ⟨hb, hge⟩ := hopt _ (leak_origin δ)
      rw [show (leak δ).isMaximization = true from rfl, if_pos rfl, leak_objective, leak_objective] at hge
      obtain ⟨k1, k2⟩ := leak_solutions he h0 h1 hc hn ⟨dir, hrule⟩ htol hs hb
      exact ⟨s, hs, hb, k2 hge, le_antisymm k1 hge⟩
  obtain ⟨s, hs, hb, k1, k2⟩ := hfirst
  obtain ⟨s', hs', hb', h1'⟩ := capped_run h0 h1 hi hru htol hc' he' hl'
  exact ⟨s, s', hs, hs', hb, k1, k2, hb', h1'⟩

/-- **C134 fails** without cuts, at every tolerance up to 1/4 other than 0, in particular at the default of 1e-6.  `max y`,
`y ≤ x / δ`, `y ≤ 1 + x`, `y ≤ 3 - 4 x`, `x` in {0, 1}, `-1 ≤ y ≤ 2`, and the same with `x ≤ δ`, where `δ` is the tolerance: for
every choice of the other parameters without cuts and with the max-fractional rule, both interfaces, and whatever LP code that
answers rightly and returns, `Solve` reports the optimum 0 for the first and 1 for the second. -/
theorem C134_added_constraint_violated {δ : ℚ} (h0 : 0 < δ) (h1 : δ ≤ 1 / 4) : Tightened (leak δ) (leakCapped δ) ∧
    ∀ (x : Setup.External) (user : Setup.ParamsMsg) (c c' : Setup.Created),
      (∃ k ≤ 0, user.runner.bind (·.maxIterations) = some k) → (∀ s, user.branching.bind (·.rule) ≠ some (.random s)) →
      user.integralityTolerance.getD (1 / 10 ^ 6) = δ →
      Setup.create x (leak δ) user = .ok c → Setup.create x (leakCapped δ) user = .ok c' →
      ∀ e : Engine, e.Right → CodeReturns e c → CodeReturns e c' →
        ∃ o o', solve e c (iterationBound (leak δ)) = some o ∧ solve e c' 2 = some o' ∧
          Reports (leak δ) Eq o (some 0) ∧ Reports (leakCapped δ) Eq o' (some 1) ∧
          ¬ Worsens (leak δ) (leakCapped δ) (some 0) (some 1) := by
  refine ⟨leak_tightened δ, fun x user c c' hi hru htol hc hc' e he hl hl' => ?_⟩
  obtain ⟨s, s', hs, hs', hb, -, h2, hb', h3⟩ := leak_runs h0 h1 hi hru htol hc hc' he he hl hl'
  refine ⟨_, _, hs, hs', .inr ⟨s, rfl, .inr ⟨hb, _, rfl, by rw [leak_objective, h2]⟩⟩,
    .inr ⟨s', rfl, .inr ⟨hb', _, rfl, by rw [leakCapped_objective, h3]⟩⟩, fun hw => ?_⟩
  have := hw.1 0 1 rfl rfl
  rw [NoBetter, show (leak δ).isMaximization = true from rfl, if_pos rfl] at this
  norm_num at this

/-- What `Create` makes of the two problems at the default tolerance. -/
theorem leak_created (x : Setup.External) : ∃ c c', Setup.create x (leak (1 / 10 ^ 6)) exUser = .ok c ∧
    Setup.create x (leakCapped (1 / 10 ^ 6)) exUser = .ok c' ∧ CodeReturns perfect c ∧ CodeReturns perfect c' := by
  obtain ⟨hp, -, -, hp', -⟩ := leak_spec (1 / 10 ^ 6)
  have ht : Setup.GlopTakes (exUser.lp.getD {}).read := by
    refine ⟨⟨?_, ?_, ?_, ?_, ?_, ?_, ?_, ?_⟩, rfl, ?_, ?_, rfl, rfl⟩ <;> simp [exUser, Setup.LpMsg.read, ToleranceOk]
  obtain ⟨c, hc⟩ := (Setup.C73_glop_partial x _ hp exUser _ (Setup.lpWins _) rfl).1 ht
  obtain ⟨c', hc'⟩ := (Setup.C73_glop_partial x _ hp' exUser _ (Setup.lpWins _) rfl).1 ht
  exact ⟨c, c', hc, hc', .inl ⟨created_glop hc rfl, perfect_spec.2⟩, .inl ⟨created_glop hc' rfl, perfect_spec.2⟩⟩

/-- The hypotheses are met with the parameters at their defaults except for the cut runner. -/
example (x : Setup.External) : ∃ c c', Setup.create x (leak (1 / 10 ^ 6)) exUser = .ok c ∧
    Setup.create x (leakCapped (1 / 10 ^ 6)) exUser = .ok c' ∧
    ∃ o o', solve perfect c (iterationBound (leak (1 / 10 ^ 6))) = some o ∧ solve perfect c' 2 = some o' ∧
      Reports (leak (1 / 10 ^ 6)) Eq o (some 0) ∧ Reports (leakCapped (1 / 10 ^ 6)) Eq o' (some 1) := by
  obtain ⟨c, c', hc, hc', hl, hl'⟩ := leak_created x
  obtain ⟨o, o', h1, h2, h3, h4, -⟩ := (C134_added_constraint_violated (δ := 1 / 10 ^ 6) (by norm_num) (by norm_num)).2 x exUser
    c c' ⟨0, le_rfl, rfl⟩ (by intro s; simp [exUser]) (by norm_num [exUser]) hc hc' perfect perfect_spec.1 hl hl'
  exact ⟨c, c', hc, hc', o, o', h1, h2, h3, h4⟩

end Program
end MiniMip
