import Verif.Props.ProgramMonotoneTolerance

/-!
# C135: a restriction that keeps the reported solution keeps the reported optimum

A user who adds constraints that the solution they got satisfies, or fixes variables at the values they got, gets the same optimum.
-/

namespace MiniMip
namespace Program

open Solver (point)

/-! ### Specification -/

/-- The problem with variable `n` fixed at `q`. -/
def fixVariable (p : Problem) (n : Nat) (q : ℚ) : Problem :=
  { p with vars := p.vars.modify n fun v => { v with lower := .fin q, upper := .fin q } }

/-- The constraint that the objective value is at least as good as `q`. -/
def cutoffRow (p : Problem) (q : ℚ) : Constraint :=
  { name := "cutoff"
    varIndices := (List.range p.vars.length).map (fun n : Nat => (n : Int))
    coefficients := p.vars.map (·.objective)
    lhs := if p.isMaximization then .fin (q - p.offset) else .ninf
    rhs := if p.isMaximization then .pinf else .fin (q - p.offset) }

/-- The problem with that constraint. -/
def withCutoff (p : Problem) (q : ℚ) : Problem := { p with constraints := cutoffRow p q :: p.constraints }

/-! ### Proof -/

theorem le_refl_of_between {l u : Dbl} {q : ℚ} (h : Between l q u) : Dbl.le l l = true ∧ Dbl.le u u = true := by
  obtain ⟨h1, h2⟩ := h
  constructor
  · cases l <;> simp_all [Dbl.le]
  · cases u <;> simp_all [Dbl.le]

theorem fixVariable_wellFormed {p : Problem} (hp : p.WellFormed) (n : Nat) (q : ℚ) : (fixVariable p n q).WellFormed := by
  refine ⟨fun v hv => ?_, fun k hk => by simpa [fixVariable] using hp.2 k hk⟩
  obtain ⟨i, hi⟩ := List.mem_iff_getElem?.1 hv
  simp only [fixVariable, List.getElem?_modify] at hi
  obtain ⟨w, hw, rfl⟩ := Option.map_eq_some_iff.1 hi
  have := hp.1 w (List.mem_of_getElem? hw)
  split
  · exact ⟨this.1, by simp [Ordered, Dbl.le]⟩
  · exact this

/-- **C135**, fixing: fixing a variable at the value it has in a feasible point is a restriction that keeps the point and
exactly the points with that value, and `Create` takes it if it takes the problem. -/
theorem C135_fixed {p : Problem} {z : Int → ℚ} (hz : p.Feasible z) (n : Nat) :
    Tightened p (fixVariable p n (z n)) ∧ (fixVariable p n (z n)).Feasible z ∧
    (∀ y, n < p.vars.length → ((fixVariable p n (z n)).Feasible y ↔ p.Feasible y ∧ y n = z n)) ∧
    (p.WellFormed → (fixVariable p n (z n)).WellFormed) := by
  have hkeep : ∀ y, p.Feasible y → y n = z n → (fixVariable p n (z n)).Feasible y := by
    intro y hy hyn
    refine ⟨?_, hy.2⟩
    intro i v hv
    simp only [fixVariable, List.getElem?_modify] at hv
    obtain ⟨w, hw, rfl⟩ := Option.map_eq_some_iff.1 hv
    have hi := hy.1 i w hw
    split
    · next h =>
      subst h
      exact ⟨⟨by simp [Dbl.le, hyn], by simp [Dbl.le, hyn]⟩, hi.2⟩
    · exact hi
  refine ⟨⟨rfl, rfl, ?_, fun k hk => ⟨k, hk, rfl, rfl, le_refl_of_between (hz.2 k hk)⟩⟩, hkeep z hz rfl,
    fun y hn => ⟨fun hy => ?_, fun hy => hkeep y hy.1 hy.2⟩, fun hp => fixVariable_wellFormed hp n _⟩
  · refine List.forall₂_iff_get.2 ⟨by simp [fixVariable], fun i h1 h2 => ?_⟩
    have hi := hz.1 i _ (List.getElem?_eq_getElem h1)
    simp only [fixVariable, List.get_eq_getElem, List.getElem_modify]
    split
    · next h =>
      subst h
      exact ⟨rfl, hi.1.1, hi.1.2, id⟩
    · exact ⟨rfl, (le_refl_of_between hi.1).1, (le_refl_of_between hi.1).2, id⟩
  · have hyn : y n = z n := by
      have := hy.1 n { p.vars[n] with lower := .fin (z n), upper := .fin (z n) }
        (by simp [fixVariable, List.getElem?_modify, List.getElem?_eq_getElem hn])
      obtain ⟨⟨h1, h2⟩, -⟩ := this
      simp only [Dbl.le, decide_eq_true_eq] at h1 h2
      exact le_antisymm h2 h1
    refine ⟨⟨fun i v hv => ?_, hy.2⟩, hyn⟩
    by_cases h : n = i
    · subst h
      have := hy.1 n { v with lower := .fin (z n), upper := .fin (z n) } (by simp [fixVariable, List.getElem?_modify, hv])
      refine ⟨?_, this.2⟩
      rw [hyn]
      exact (hz.1 n v hv).1
    · exact hy.1 i v (by simp [fixVariable, List.getElem?_modify, h, hv])

theorem activity_objective (y : Int → ℚ) : ∀ (l : List Variable) (k : Nat),
    ((((List.range' k l.length).map (fun n : Nat => (n : Int))).zip (l.map (·.objective))).map fun t => t.2 * y t.1).sum =
      objectiveFrom k l y := by
  intro l
  induction l with
  | nil => intro k; rfl
  | cons v l ih =>
    intro k
    rw [List.length_cons, List.range'_succ, objectiveFrom, ← ih (k + 1)]
    simp

theorem cutoff_between (p : Problem) (q : ℚ) (y : Int → ℚ) :
    Between (if p.isMaximization then .fin (q - p.offset) else .ninf) (objectiveFrom 0 p.vars y)
      (if p.isMaximization then .pinf else .fin (q - p.offset)) ↔ NoBetter p.isMaximization q (p.userObjective y) := by
  unfold NoBetter Problem.userObjective
  cases p.isMaximization <;> simp [Between, Dbl.le] <;> constructor <;> intro h <;> linarith

/-- **C135**, cutting off: requiring an objective value at least as good as that of a feasible point is a restriction that keeps
the point and exactly the points at least as good, and `Create` takes it if it takes the problem. -/
theorem C135_cutoff {p : Problem} {z : Int → ℚ} (hz : p.Feasible z) :
    Tightened p (withCutoff p (p.userObjective z)) ∧
    (∀ y, (withCutoff p (p.userObjective z)).Feasible y ↔
      p.Feasible y ∧ NoBetter p.isMaximization (p.userObjective z) (p.userObjective y)) ∧
    (withCutoff p (p.userObjective z)).Feasible z ∧ (p.WellFormed → (withCutoff p (p.userObjective z)).WellFormed) := by
  have hiff : ∀ y, (withCutoff p (p.userObjective z)).Feasible y ↔
      p.Feasible y ∧ NoBetter p.isMaximization (p.userObjective z) (p.userObjective y) := by
    intro y
    have hact : (cutoffRow p (p.userObjective z)).activity y = objectiveFrom 0 p.vars y := by
      rw [← activity_objective y p.vars 0, ← List.range_eq_range']
      rfl
    constructor
    · rintro ⟨h1, h2⟩
      refine ⟨⟨h1, fun k hk => h2 k (List.mem_cons_of_mem _ hk)⟩, (cutoff_between p _ y).1 ?_⟩
      have := h2 _ (List.mem_cons_self ..)
      rw [hact] at this
      exact this
    · rintro ⟨⟨h1, h2⟩, h3⟩
      refine ⟨h1, fun k hk => ?_⟩
      rcases List.mem_cons.1 hk with rfl | hk
      · have := (cutoff_between p _ y).2 h3
        rw [← hact] at this
        exact this
      · exact h2 k hk
  refine ⟨⟨rfl, rfl, ?_, fun k hk => ⟨k, List.mem_cons_of_mem _ hk, rfl, rfl, le_refl_of_between (hz.2 k hk)⟩⟩, hiff,
    (hiff z).2 ⟨hz, ?_⟩, fun hp => ⟨hp.1, fun k hk => ?_⟩⟩
  · refine List.forall₂_same.2 fun v hv => ?_
    obtain ⟨i, hi⟩ := List.mem_iff_getElem?.1 hv
    have hb := le_refl_of_between (hz.1 i v hi).1
    exact ⟨rfl, hb.1, hb.2, id⟩
  · unfold NoBetter; split <;> exact le_refl _
  · rcases List.mem_cons.1 hk with rfl | hk
    · refine ⟨by simp [cutoffRow], ?_, by simp [cutoffRow], ?_, ?_⟩
      · cases hm : p.isMaximization <;> simp [cutoffRow, hm, Ordered, Dbl.le]
      · exact List.nodup_range.map fun a b h => by exact_mod_cast h
      · intro i hi
        simp only [cutoffRow, List.mem_map, List.mem_range] at hi
        obtain ⟨n, hn, rfl⟩ := hi
        exact ⟨by omega, by simpa [withCutoff] using hn⟩
    · exact hp.2 k hk

/-- The optimum of a restriction that keeps a point at least as good as every feasible point. -/
theorem keeps_of_optima {p p' : Problem} (h : Tightened p p') {z : Int → ℚ} {v' : Option ℚ}
    (hv : AtLeastOptimum p (some (p.userObjective z))) (hv' : IsOptimum p' v') (hz : p'.Feasible z) :
    v' = some (p.userObjective z) := by
  obtain ⟨h1, -, h3⟩ := worsens_of_optima (C134_tightened h) hv hv'
  cases v' with
  | none => exact absurd hz (h3 (by simp) rfl z)
  | some q' =>
    have h1 := h1 _ _ rfl rfl
    obtain ⟨y', hy', rfl⟩ := hv'
    have h2 := hy'.2 z hz
    have he : p'.userObjective z = p.userObjective z := by
      unfold Problem.userObjective
      rw [h.2.1, objectiveFrom_tightened h.2.2.1]
    unfold NoBetter at h1
    rw [he, ← h.1] at h2
    congr 1
    cases hmax : p.isMaximization <;> simp only [hmax, Bool.false_eq_true, if_false, if_true] at h1 h2 <;> linarith

/-- **C135**, the part that holds: with tolerance 0 for the restriction and any tolerance for the problem.
For all well-formed problems and restrictions of them, bounded or not, all
parameters with harmless cuts, both LP interfaces, every branching rule and all LP code that answers rightly (all of which may
differ between the runs): if `Solve` returns a solution for the problem that is feasible for the restriction, and `Solve` returns
on the restriction, the second reports the objective value of that solution. -/
theorem C135_exact_partial {p p' : Problem} (hr : Tightened p p') (hp : p.WellFormed) (hp' : p'.WellFormed)
    {e e' : Engine} (he : e.Right) (he' : e'.Right) {x x' : Setup.External}
    {user user' : Setup.ParamsMsg} {c c' : Setup.Created} (h : Setup.create x p user = .ok c)
    (h' : Setup.create x' p' user' = .ok c') (hn : CutsHarmless e p user c) (hn' : CutsHarmless e' p' user' c')
    (ht' : user'.integralityTolerance = some 0) {fuel fuel' : Nat}
    {s : Solver.State (Runner World)} {o' : Outcome (Solver.State (Runner World))} (hs : solve e c fuel = some (.ok s))
    (hs' : solve e' c' fuel' = some o') (hb : s.result.best ≠ {}) (hz : p'.Feasible (point s.result.best.values))
    {v' : Option ℚ} (hv' : Reports p' Eq o' v') : v' = some (p.userObjective (point s.result.best.values)) := by
  refine keeps_of_optima hr (reports_atLeast he hp h hn hs (.inr ⟨s, rfl, .inr ⟨hb, _, rfl, rfl⟩⟩))
    (reports_optimum he' hp' h' hn' ?_ hs' hv') hz
  · rintro s fuel - - hf hopt z rfl
    rw [ht'] at hf
    exact ⟨feasible_of_zero hf, hopt⟩

/-- **C135**, the part that holds: problems with integer variables only and integral numbers, in which the tolerance changes no
constraint and no objective value by one, if the rounded solution is feasible for the restriction. -/
theorem C135_rounded_partial {p p' : Problem} (hr : Tightened p p') (hp : p.WellFormed) (hp' : p'.WellFormed)
    {e e' : Engine} (he : e.Right) (he' : e'.Right) {x x' : Setup.External}
    {user user' : Setup.ParamsMsg} {c c' : Setup.Created} (h : Setup.create x p user = .ok c)
    (h' : Setup.create x' p' user' = .ok c') (hn : NoCuts c.runner.params) (hn' : NoCuts c'.runner.params)
    (ht : user.integralityTolerance.getD (1 / 10 ^ 6) < 1 / 2)
    (ht' : user'.integralityTolerance.getD (1 / 10 ^ 6) < 1 / 2)
    (hw : WholeProblem p (user.integralityTolerance.getD (1 / 10 ^ 6)))
    (hw' : WholeProblem p' (user'.integralityTolerance.getD (1 / 10 ^ 6))) {fuel fuel' : Nat}
    {s : Solver.State (Runner World)} {o' : Outcome (Solver.State (Runner World))} (hs : solve e c fuel = some (.ok s))
    (hs' : solve e' c' fuel' = some o') (hb : s.result.best ≠ {}) {z : Int → ℚ} (hrz : Rounded p (point s.result.best.values) z)
    (hz : p'.Feasible z) {v' : Option ℚ} (hv' : Reports p' (Rounded p') o' v') : v' = some (p.userObjective z) :=
  keeps_of_optima hr (atLeast_of_optimum (rounded_reports_optimum he hp h hn ht hw hs (.inr ⟨s, rfl, .inr ⟨hb, z, hrz, rfl⟩⟩)))
    (rounded_reports_optimum he' hp' h' hn' ht' hw' hs' hv') hz

/-- **C135 fails** without cuts, at every tolerance up to 1/4 other than 0, in particular at the default of 1e-6: for `leak`
(C134) `Solve` returns (0, 0), which satisfies `x ≤ δ`, and with that constraint it reports 1 instead of 0. -/
theorem C135_added_constraint_violated {δ : ℚ} (h0 : 0 < δ) (h1 : δ ≤ 1 / 4) : Tightened (leak δ) (leakCapped δ) ∧
    ∀ (x : Setup.External) (user : Setup.ParamsMsg) (c c' : Setup.Created),
      (∃ k ≤ 0, user.runner.bind (·.maxIterations) = some k) → (∀ s, user.branching.bind (·.rule) ≠ some (.random s)) →
      user.integralityTolerance.getD (1 / 10 ^ 6) = δ →
      Setup.create x (leak δ) user = .ok c → Setup.create x (leakCapped δ) user = .ok c' →
      ∀ e : Engine, e.Right → CodeReturns e c → CodeReturns e c' →
        ∃ s o', solve e c (iterationBound (leak δ)) = some (.ok s) ∧ solve e c' 2 = some o' ∧ s.result.best ≠ {} ∧
          (leakCapped δ).Feasible (point s.result.best.values) ∧ (leak δ).userObjective (point s.result.best.values) = 0 ∧
          Reports (leakCapped δ) Eq o' (some 1) := by
  refine ⟨leak_tightened δ, fun x user c c' hi hru htol hc hc' e he hl hl' => ?_⟩
  obtain ⟨s, s', hs, hs', hb, h2, h3, hb', h4⟩ := leak_runs h0 h1 hi hru htol hc hc' he he hl hl'
  refine ⟨s, _, hs, hs', hb, ?_, by rw [leak_objective, h3], .inr ⟨s', rfl, .inr ⟨hb', _, rfl, by rw [leakCapped_objective, h4]⟩⟩⟩
  obtain ⟨k1, k2⟩ := (leakCapped_relaxed δ (point s.result.best.values)).2
    ⟨(leak_relaxed δ _).2 (by rw [h2, h3]; norm_num), by rw [h2]; exact h0.le⟩
  refine ⟨fun n v hv => ⟨k1 n v hv, fun hi => ?_⟩, k2⟩
  match n with
  | 0 => exact ⟨0, by rw [show point s.result.best.values ((0 : Nat) : Int) = 0 from h2]; simp⟩
  | 1 => simp [leakCapped, leak] at hv; subst hv; simp at hi
  | n + 2 => simp [leakCapped, leak] at hv

/-! ### The hypotheses are met -/

/-- The hypotheses of `C135_exact_partial` are met by a problem and the same with its variable fixed at the reported value. -/
example : ∃ (x : Setup.External) (c c' : Setup.Created) (fuel fuel' : Nat) (s : Solver.State (Runner World))
    (o' : Outcome (Solver.State (Runner World))) (v' : Option ℚ),
    Setup.create x tight { exUser with integralityTolerance := some 0 } = .ok c ∧
    Setup.create x (fixVariable tight 0 (point s.result.best.values 0)) { exUser with integralityTolerance := some 0 } = .ok c' ∧
    Tightened tight (fixVariable tight 0 (point s.result.best.values 0)) ∧ NoCuts c.runner.params ∧ NoCuts c'.runner.params ∧
    solve perfect c fuel = some (.ok s) ∧ solve perfect c' fuel' = some o' ∧ s.result.best ≠ {} ∧
    (fixVariable tight 0 (point s.result.best.values 0)).Feasible (point s.result.best.values) ∧
    Reports (fixVariable tight 0 (point s.result.best.values 0)) Eq o' v' := by
  obtain ⟨g1, g2, g4, -, g5⟩ := tight_spec
  have ht : Setup.GlopTakes (({ exUser with integralityTolerance := some 0 } : Setup.ParamsMsg).lp.getD {}).read := by
    refine ⟨⟨?_, ?_, ?_, ?_, ?_, ?_, ?_, ?_⟩, rfl, ?_, ?_, rfl, rfl⟩ <;> simp [exUser, Setup.LpMsg.read, ToleranceOk]
  obtain ⟨c, hc, hs⟩ := C78_total_correctness tight g1 g2 g4 Setup.exExternal { exUser with integralityTolerance := some 0 } _
    (Setup.lpWins _) ht ⟨0, le_refl _, rfl⟩ (by intro s; simp [exUser]) (by norm_num [exUser])
  rcases hs perfect perfect_spec.1 perfect_spec.2 with ⟨-, hno⟩ | ⟨s, hs, hf, hopt⟩
  · exact absurd g5 (hno _)
  have hb := (hopt _ g5).1
  have hz : tight.Feasible (point s.result.best.values) := feasible_of_zero (hf hb)
  obtain ⟨k1, k2, -, -⟩ := C135_fixed hz 0
  set q := point s.result.best.values ((0 : Nat) : Int) with hq
  have h1 : (fixVariable tight 0 q).WellFormed := by
    simp [Problem.WellFormed, fixVariable, tight, Variable.WellFormed, Constraint.WellFormed, Ordered, Dbl.le]
  have h2 : FiniteIntegers (fixVariable tight 0 q) := by
    intro v hv _
    simp [fixVariable, tight] at hv
    subst hv
    exact ⟨q, q, rfl, rfl⟩
  have h4 : Bounded (fixVariable tight 0 q) := by
    refine ⟨5 / 4, ?_⟩
    rintro y ⟨-, h2⟩
    have hx := (h2 _ (List.mem_singleton.2 rfl)).2
    simp [Constraint.activity] at hx
    rw [show (fixVariable tight 0 q).isMaximization = true from rfl, if_pos rfl]
    simp [Problem.userObjective, objectiveFrom, fixVariable, tight]
    linarith
  obtain ⟨c', hc', hs'⟩ := C78_total_correctness _ h1 h2 h4 Setup.exExternal { exUser with integralityTolerance := some 0 } _
    (Setup.lpWins _) ht ⟨0, le_refl _, rfl⟩ (by intro s; simp [exUser]) (by norm_num [exUser])
  obtain ⟨o', v', ho', hv'⟩ := reports_of_solves (hs' perfect perfect_spec.1 perfect_spec.2)
  exact ⟨_, c, c', _, _, s, o', v', hc, hc', k1, (rule_of g1 hc ⟨0, le_rfl, rfl⟩ (by simp [exUser])).1,
    (rule_of h1 hc' ⟨0, le_rfl, rfl⟩ (by simp [exUser])).1, hs, ho', hb, k2, hv'⟩

/-- `tight` and the feasible point 1: the constraint `x ≥ 1` is added. -/
example : tight.Feasible (fun _ => 1) ∧ ∀ y, (withCutoff tight 1).Feasible y ↔ tight.Feasible y ∧ 1 ≤ y 0 := by
  have hobj : ∀ y : Int → ℚ, tight.userObjective y = y 0 := by
    intro y; simp [Problem.userObjective, objectiveFrom, tight]
  refine ⟨tight_spec.2.2.2.2, fun y => ?_⟩
  have := (C135_cutoff tight_spec.2.2.2.2).2.1 y
  rw [hobj, hobj, NoBetter, show tight.isMaximization = true from rfl, if_pos rfl] at this
  exact this

/-- The problems that `C134_rounded_partial` and `C135_rounded_partial` speak of include `openProblem`, which has no bounds above,
and the same with every constraint twice, at the default tolerance. -/
example : Tightened openProblem (repeated openProblem) ∧ openProblem.WellFormed ∧ (repeated openProblem).WellFormed ∧
    WholeProblem openProblem (1 / 10 ^ 6) ∧ WholeProblem (repeated openProblem) (1 / 10 ^ 6) := by
  refine ⟨⟨rfl, rfl, List.forall₂_same.2 fun v hv => ?_, fun k hk => ⟨k, List.mem_append_left _ hk, rfl, rfl, ?_⟩⟩,
    openProblem_spec.1, ?_, open_whole, open_whole.integers, open_whole.bounds, fun k hk => ?_, open_whole.objective⟩
  · simp [openProblem] at hv
    rcases hv with rfl | rfl <;> simp [TightenedVariable, Dbl.le]
  · simp [openProblem] at hk
    subst hk
    simp [Dbl.le]
  · simp [Problem.WellFormed, repeated, openProblem, Variable.WellFormed, Constraint.WellFormed, Ordered, Dbl.le]
  · simp only [repeated, List.mem_append, or_self] at hk
    obtain ⟨⟨h1, h2, h3⟩, h4⟩ := open_whole.rows k hk
    exact ⟨⟨h1, h2, h3⟩, h4⟩

/-- The hypotheses of `C135_added_constraint_violated` are met with the parameters at their defaults except for the cut runner. -/
example (x : Setup.External) : ∃ c c' s o', Setup.create x (leak (1 / 10 ^ 6)) exUser = .ok c ∧
    Setup.create x (leakCapped (1 / 10 ^ 6)) exUser = .ok c' ∧
    solve perfect c (iterationBound (leak (1 / 10 ^ 6))) = some (.ok s) ∧ solve perfect c' 2 = some o' ∧
    (leakCapped (1 / 10 ^ 6)).Feasible (point s.result.best.values) ∧ Reports (leakCapped (1 / 10 ^ 6)) Eq o' (some 1) := by
  obtain ⟨c, c', hc, hc', hl, hl'⟩ := leak_created x
  obtain ⟨s, o', h1, h2, -, h3, -, h4⟩ := (C135_added_constraint_violated (δ := 1 / 10 ^ 6) (by norm_num) (by norm_num)).2 x exUser
    c c' ⟨0, le_rfl, rfl⟩ (by intro s; simp [exUser]) (by norm_num [exUser]) hc hc' perfect perfect_spec.1 hl hl'
  exact ⟨c, c', s, o', hc, hc', h1, h2, h3, h4⟩

end Program
end MiniMip
