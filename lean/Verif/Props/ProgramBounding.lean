import Verif.Props.ProgramMemory
import Verif.Props.ProgramRoot
import Verif.Props.ProgramSense

/-!
# C117: nodes that cannot contain a better solution are not branched on

Branch-and-bound, as `Solve` calls what it does (solver.cc:38), does not branch on a node whose LP value is no better than the
best solution found so far.  The loop of `Solve` (solver.cc:36-152) does: it never reads the result it fills.
-/

namespace MiniMip
namespace Solver

variable {W : Type}

/-- Two ends of an iteration that differ in the result only. -/
def SameSearch : Step W → Step W → Prop
  | .again s, .again s' => ∃ R, s' = { s with result := R }
  | .stop s, .stop s' => ∃ R, s' = { s with result := R }
  | _, _ => False

/-- Two ends of `Solve` that differ in the result only. -/
def SameEnd : Option (Outcome (State W)) → Option (Outcome (State W)) → Prop
  | none, none => True
  | some x, some y => Outcome.Rel (fun s s' => ∃ R, s' = { s with result := R }) x y
  | _, _ => False

theorem iterate_blind (o : Oracle W) (d : MipData) (prm : Params) (s : State W) (R : SolveResult) :
    Outcome.Rel SameSearch (iterate o d prm s) (iterate o d prm { s with result := R }) := by
  unfold iterate
  simp only
  split
  · exact ⟨R, rfl⟩
  · rename_i node queue _
    refine Outcome.Rel.same _ fun lb => Outcome.Rel.same _ fun ub => Outcome.Rel.same _ fun w => ?_
    split
    · unfold optimalNode
      refine Outcome.Rel.same _ fun tree => Outcome.Rel.same _ fun values => Outcome.Rel.same _ fun integral => ?_
      split
      · simp only
        split
        · exact ⟨_, rfl⟩
        · exact ⟨_, rfl⟩
      · unfold branchNode
        refine Outcome.Rel.same _ fun b => Outcome.Rel.same _ fun v => Outcome.Rel.same _ fun t1 =>
          Outcome.Rel.same _ fun t2 => ?_
        exact ⟨_, rfl⟩
    · unfold infeasibleNode
      split
      · exact rfl
      · refine Outcome.Rel.same _ fun tree => ?_
        simp only
        split
        · exact ⟨_, rfl⟩
        · exact ⟨_, rfl⟩

/-- **C117, why it fails.**  For whatever LP solver, separation and branching rule, whatever parameters, in every state and for
all results: the search goes on in the same way (the same LPs, the same nodes in the same order, the same number of
iterations, the same status) whatever solutions have been found before. -/
theorem C117_search_is_blind (o : Oracle W) (d : MipData) (prm : Params) (fuel : Nat) (s : State W) (R : SolveResult) :
    Outcome.Rel SameSearch (iterate o d prm s) (iterate o d prm { s with result := R }) ∧
    SameEnd (solveFuel o d prm fuel s) (solveFuel o d prm fuel { s with result := R }) := by
  refine ⟨iterate_blind o d prm s R, ?_⟩
  induction fuel generalizing s R with
  | zero => trivial
  | succ fuel ih =>
    have h := iterate_blind o d prm s R
    unfold solveFuel
    generalize iterate o d prm s = x at h ⊢
    generalize iterate o d prm { s with result := R } = y at h ⊢
    rcases x with (a | a) | m | - | -
    · rcases y with (b | b) | m | - | - <;> simp only [Outcome.Rel, SameSearch] at h
      obtain ⟨R', rfl⟩ := h
      exact ih a R'
    · rcases y with (b | b) | m | - | - <;> simp only [Outcome.Rel, SameSearch] at h
      obtain ⟨R', rfl⟩ := h
      exact ⟨_, rfl⟩
    · rcases y with (b | b) | m' | - | - <;> simp only [Outcome.Rel] at h
      exact h
    · rcases y with (b | b) | m' | - | - <;> simp only [Outcome.Rel] at h
      trivial
    · rcases y with (b | b) | m' | - | - <;> simp only [Outcome.Rel] at h
      trivial

/-- The run goes on from here and ends with OK or an error. -/
def Ends (o : Oracle W) (d : MipData) (prm : Params) (s : State W) : Prop :=
  ∃ fuel, (∃ s', solveFuel o d prm fuel s = some (.ok s')) ∨ ∃ m, solveFuel o d prm fuel s = some (.error m)

theorem Ends.step {o : Oracle W} {d : MipData} {prm : Params} {s : State W} (h : Ends o d prm s) :
    (∃ s', iterate o d prm s = .ok (.again s') ∧ Ends o d prm s') ∨ (∃ s', iterate o d prm s = .ok (.stop s')) ∨
      ∃ m, iterate o d prm s = .error m := by
  obtain ⟨fuel, h⟩ := h
  cases fuel with
  | zero => simp [solveFuel] at h
  | succ fuel =>
    unfold solveFuel at h
    cases hi : iterate o d prm s with
    | ok a =>
      rw [hi] at h
      cases a with
      | again s' => exact .inl ⟨s', rfl, fuel, h⟩
      | stop s' => exact .inr (.inl ⟨s', rfl⟩)
    | error m => exact .inr (.inr ⟨m, rfl⟩)
    | abort => rw [hi] at h; simp at h
    | ub => rw [hi] at h; simp at h

/-- The next iteration when the root LP is optimal and its solution not integral: the loop goes on. -/
theorem Ends.again {o : Oracle W} {d : MipData} {prm : Params} {Good : W → Prop}
    {bounds : W → Int → Dbl × Dbl} {Answer : W → Prop} (hd : DataOk d)
    (hp : PrimalShape o d.lower.length) (hc : Contract o Good bounds Answer) {s : State W}
    {bs : List Box} {sols : List Solution} (hi : Inv d Good bounds s bs sols) (hne : bs ≠ [])
    (hroot : ∀ w, Answer w → (∀ x, InBounds d bounds w x ↔ InRootBounds d x) → o.isOptimal w = true ∧
      ∀ values, o.primal w = .ok values → d.solutionIsIntegral values prm.tol ≠ .ok true)
    (h : Ends o d prm s) : ∃ s', iterate o d prm s = .ok (.again s') ∧ Ends o d prm s' := by
  rcases h.step with h | ⟨s', h⟩ | ⟨m, h⟩
  · exact h
  · obtain ⟨sols', -, hfin⟩ := (iterate_trans (prm := prm) hd hp hc hi).2.1 s' h
    cases hfin with
    | root hans hx _ hv hint => exact absurd hint ((hroot _ hans hx).2 _ hv)
    | empty => exact absurd rfl hne
  · obtain ⟨w, hans, hopt, hx⟩ := (iterate_trans (prm := prm) hd hp hc hi).2.2 _ h
    rw [(hroot _ hans hx).1] at hopt; cases hopt

/-- `iterate_moves` for an iteration at an open node whose LP is optimal, with the state after it. -/
theorem iterate_detail {o : Oracle W} {d : MipData} {prm : Params} {Good : W → Prop}
    {bounds : W → Int → Dbl × Dbl} {Answer : W → Prop} (hd : DataOk d)
    (hp : PrimalShape o d.lower.length) (hc : Contract o Good bounds Answer) {s s' : State W} {b : Box}
    {bs bs' : List Box} {sols : List Solution} (h : Inv d Good bounds s bs sols) (hpop : PopSpec s.backjump bs b bs')
    (hopt : ∀ w, Answer w → (∀ x, InBounds d bounds w x ↔ InRootBounds d x ∧ InBox d b x) → o.isOptimal w = true)
    (hi : iterate o d prm s = .ok (.again s')) :
    ∃ w values, Answer w ∧ (∀ x, InBounds d bounds w x ↔ InRootBounds d x ∧ InBox d b x) ∧ o.isOptimal w = true ∧
      o.primal w = .ok values ∧
      ((d.solutionIsIntegral values prm.tol = .ok true ∧ s'.backjump = true ∧
        s'.result = s.result.addSolution ⟨values, o.objective w⟩ ∧
        Inv d Good bounds s' bs' (sols ++ [⟨values, o.objective w⟩])) ∨
      ∃ (col : Nat) (up : Bool) (v : ℚ), d.solutionIsIntegral values prm.tol = .ok false ∧
        o.branch w = .ok (s'.world, (col : Int), up) ∧ values[col]? = some v ∧ s'.backjump = false ∧
        s'.result = s.result ∧ s'.queue.length = s.queue.length + 1 ∧
        Inv d Good bounds s' (childBox b col v (!up) :: bs' ++ [childBox b col v up]) sols) := by
  have hlen := sim_length h.sim
  have hsame : ∀ {b₁ : Box} {bs₁ : List Box}, PopSpec s.backjump bs b₁ bs₁ → b₁ = b ∧ bs₁ = bs' := by
    intro b₁ bs₁ h1
    unfold PopSpec at h1 hpop
    cases hb : s.backjump
    · simp only [hb, Bool.false_eq_true, if_false] at h1 hpop
      rw [h1] at hpop
      simpa using hpop
    · simp only [hb, if_true] at h1 hpop
      rw [h1] at hpop
      have := List.append_inj' hpop rfl
      exact ⟨by simpa using this.2, this.1⟩
  have e0 := hpop.perm.length_eq
  simp only [List.length_cons] at e0
  cases iterate_spec hd hp h.sim hi with
  | infeasible h1 h2 h3 h4 h5 h6 h7 =>
    obtain ⟨rfl, rfl⟩ := hsame h1
    rw [hopt _ (solveNode_spec hc h.good h3).2.1 (inBounds_iff hd hc h2 h.good h.kept h3)] at h4
    cases h4
  | @integral _ _ lb ub w values s2 _ h1 h2 h3 h4 h5 h6 h7 h8 h9 h10 =>
    obtain ⟨rfl, rfl⟩ := hsame h1
    obtain ⟨g, k⟩ := world_step hc h.good h.kept h3
    rcases h10 with h10 | ⟨h10, -⟩
    · cases h10
      have e1 := sim_length h7
      refine ⟨w, values, (solveNode_spec hc h.good h3).2.1, inBounds_iff hd hc h2 h.good h.kept h3, h4, h5,
        .inl ⟨h6, ?_, h9, h7, by rw [h8]; exact g, by rw [h8]; exact k, by rw [h9, h.result, addAll_snoc]⟩⟩
      rcases iterate_flags hi with f | f | f
      · omega
      · exact f.2.2.1
      · rw [h8, h4] at f; exact absurd f.2.1 (by simp)
    · cases h10
  | @branch _ _ lb ub w w' values col up v _ h1 h2 h3 h4 h5 h6 h7 h8 h9 h10 h11 =>
    obtain ⟨rfl, rfl⟩ := hsame h1
    obtain ⟨g, k⟩ := world_step hc h.good h.kept h3
    obtain ⟨g', k'⟩ := hc.branch w w' _ _ g h7
    have e1 := sim_length h9
    simp only [List.length_cons, List.length_append, List.length_nil] at e1
    refine ⟨w, values, (solveNode_spec hc h.good h3).2.1, inBounds_iff hd hc h2 h.good h.kept h3, h4, h5,
      .inr ⟨col, up, v, h6, by rw [h10]; exact h7, h8, ?_, h11, by omega, h9, by rw [h10]; exact g', ?_,
        by rw [h11, h.result]⟩⟩
    · rcases iterate_flags hi with f | f | f <;> first | exact f.2.1 | omega
    · rw [h10]
      intro n l u hn hl hu
      rw [k']; exact k n l u hn hl hu

end Solver

namespace Program

open Glop (LinearProgram Refines Extends)
open Solver (Contract guard point InBounds InRootBounds InBox RowsHold Box childBox)

/-- `max x - 4 w`, `2 x - 2 w ≤ 1`, `x` and `w` in {0, 1}.  The optimum is (0, 0); below `x = 1` there is only (1, 1). -/
def detour : Problem :=
  { vars := [{ name := "x", objective := 1, lower := .fin 0, upper := .fin 1, isInteger := true },
      { name := "w", objective := -4, lower := .fin 0, upper := .fin 1, isInteger := true }]
    constraints := [{ name := "c", varIndices := [0, 1], coefficients := [2, -2], lhs := .ninf, rhs := .fin 1 }]
    isMaximization := true }

theorem detour_relaxed (y : Int → ℚ) : detour.RelaxedFeasible y ↔
    (0 ≤ y 0 ∧ y 0 ≤ 1) ∧ (0 ≤ y 1 ∧ y 1 ≤ 1) ∧ 2 * y 0 - 2 * y 1 ≤ 1 := by
  constructor
  · rintro ⟨h1, h2⟩
    have hx := h1 0 _ rfl
    have hy := h1 1 _ rfl
    have hc := h2 _ (List.mem_singleton.2 rfl)
    simp [Between, Constraint.activity] at hx hy hc
    exact ⟨hx, hy, by linarith⟩
  · rintro ⟨hx, hy, hc⟩
    constructor
    · intro n v hv
      match n with
      | 0 => simp [detour] at hv; subst hv; simpa [Between] using hx
      | 1 => simp [detour] at hv; subst hv; simpa [Between] using hy
      | n + 2 => simp [detour] at hv
    · intro k hk
      simp [detour] at hk
      subst hk
      simp [Between, Constraint.activity]
      linarith

theorem detour_objective (y : Int → ℚ) : detour.userObjective y = y 0 - 4 * y 1 := by
  simp [detour, Problem.userObjective, objectiveFrom]
  ring

theorem detour_spec : detour.WellFormed ∧ FiniteIntegers detour ∧ IntegralIntegers detour ∧ Bounded detour := by
  refine ⟨?_, ?_, ?_, ⟨1, fun y hy => ?_⟩⟩
  · simp [Problem.WellFormed, detour, Variable.WellFormed, Constraint.WellFormed, Ordered, Dbl.le]
  · intro v hv _
    simp [detour] at hv
    rcases hv with rfl | rfl <;> exact ⟨0, 1, rfl, rfl⟩
  · intro v hv _
    simp [detour] at hv
    rcases hv with rfl | rfl <;> exact ⟨.inr ⟨0, by simp⟩, .inr ⟨1, by simp⟩⟩
  · obtain ⟨h1, h2, h3⟩ := (detour_relaxed y).1 hy
    rw [detour_objective]
    simp [detour]
    linarith [h1.2, h2.1]

theorem detour_boxed {c : Setup.Created} (hd : c.data.Represents detour) (b : Box) (y : Int → ℚ) :
    InBox c.data b y ↔ b 0 (y 0) ∧ b 1 (y 1) := by
  constructor
  · intro h
    exact ⟨h 0 ((hd.integers _).2 ⟨0, _, rfl, rfl, rfl⟩), h 1 ((hd.integers _).2 ⟨1, _, rfl, rfl, rfl⟩)⟩
  · rintro ⟨h0, h1⟩ n hn
    obtain ⟨m, v, hv, -, hnm⟩ := (hd.integers n).1 hn
    obtain rfl : n = m := by omega
    match n with
    | 0 => exact h0
    | 1 => exact h1
    | n + 2 => simp [detour] at hv

/-- The LP of a node where `(t, u)` is the only optimal point. -/
theorem detour_node {e : Engine} {c : Setup.Created} (hd : c.data.Represents detour)
    (h₀ : Refines (start c.lpi).program detour.relaxation) {b : Box} {t u : ℚ}
    (hin : ((0 ≤ t ∧ t ≤ 1) ∧ (0 ≤ u ∧ u ≤ 1) ∧ 2 * t - 2 * u ≤ 1) ∧ b 0 t ∧ b 1 u)
    (huniq : ∀ x w : ℚ, (0 ≤ x ∧ x ≤ 1) → (0 ≤ w ∧ w ≤ 1) → 2 * x - 2 * w ≤ 1 → b 0 x → b 1 w →
      t - 4 * u ≤ x - 4 * w → x = t ∧ w = u)
    {r : Runner World} (hr : Plain (start c.lpi).program r)
    (hans : RightAnswer r.world.lp.program (r.world.lp.isOptimal = true) r.world.report)
    (hx : ∀ x, InBounds c.data bounds r x ↔ InRootBounds c.data x ∧ InBox c.data b x) :
    (guard (oracle e c) (Plain (start c.lpi).program)).isOptimal r = true ∧
    ∀ values, (guard (oracle e c) (Plain (start c.lpi).program)).primal r = .ok values → values = [t, u] := by
  obtain ⟨hp, -, -, hB⟩ := detour_spec
  let y : Int → ℚ := fun j => if j = 0 then t else u
  have hy : detour.RelaxedFeasible y := (detour_relaxed y).2 hin.1
  have hyb : InBox c.data b y := (detour_boxed hd b y).2 hin.2
  obtain ⟨h1, h2⟩ := node_optimal (e := e) hp hB hd ⟨y, hy, hyb⟩ h₀ hr hans hx
  refine ⟨h1, fun values hv => ?_⟩
  obtain ⟨h3, h4, h5, h6⟩ := h2 values hv
  have h7 := h6 y hy hyb
  rw [if_pos (by rfl), detour_objective, detour_objective] at h7
  obtain ⟨k1, k2, k3⟩ := (detour_relaxed _).1 h4
  obtain ⟨k4, k5⟩ := (detour_boxed hd b _).1 h5
  obtain ⟨k6, k7⟩ := huniq _ _ k1 k2 k3 k4 k5 h7
  rw [hd.lower, List.length_map] at h3
  match values, h3 with
  | [a, a'], _ =>
    have e0 : point [a, a'] 0 = a := rfl
    have e1 : point [a, a'] 1 = a' := rfl
    rw [← k6, ← k7, e0, e1]

/-- Whether `[t, u]` is accepted as integral. -/
theorem detour_integral {c : Setup.Created} (hd : c.data.Represents detour) {t u tol : ℚ} {res : Bool}
    (h : c.data.solutionIsIntegral [t, u] tol = .ok res) :
    res = true ↔ (∃ k : Int, |t - k| ≤ tol) ∧ ∃ k : Int, |u - k| ≤ tol := by
  obtain ⟨b, h4, h5⟩ := MipData.allIntegral_iff [t, u] tol c.data.integerVariables (fun j hj => by
    have := (Solver.dataOk_of_represents hd).ints j hj
    rw [hd.lower, List.length_map] at this
    exact this)
  have hb : b = res := Outcome.ok.inj (h4.symm.trans h)
  subst hb
  rw [h5]
  constructor
  · intro h
    exact ⟨h 0 t ((hd.integers _).2 ⟨0, _, rfl, rfl, rfl⟩) rfl, h 1 u ((hd.integers _).2 ⟨1, _, rfl, rfl, rfl⟩) rfl⟩
  · rintro ⟨h0, h1⟩ n x hn hx
    match n with
    | 0 => simp at hx; subst hx; exact h0
    | 1 => simp at hx; subst hx; exact h1
    | n + 2 => simp at hx

theorem half_far {tol : ℚ} (h : tol < 1 / 2) (k : Int) : ¬ |(1 / 2 : ℚ) - k| ≤ tol := by
  intro hk
  have := abs_lt.1 (lt_of_le_of_lt hk h)
  have h1 : (0 : ℚ) < k := by linarith [this.2]
  have h2 : (k : ℚ) < 1 := by linarith [this.1]
  have h1 : 0 < k := by exact_mod_cast h1
  have h2 : k < 1 := by exact_mod_cast h2
  omega

theorem floor_half : ⌊(1 / 2 : ℚ)⌋ = 0 := by norm_num
theorem ceil_half : ⌈(1 / 2 : ℚ)⌉ = 1 := by norm_num

/-- **C117 fails.**  On the problem `detour` (two binary variables, one constraint) `Solve` branches at a node although it has
an optimal solution in its result and every point of the LP of that node is worse than that by at least 1: for every choice
of parameters with branching downwards, the max-fractional rule, without cuts and with a tolerance below 1/2, both
interfaces, and whatever LP code that answers rightly and returns. -/
theorem C117_worse_node_branched_violated (x : Setup.External) (user : Setup.ParamsMsg) (c : Setup.Created)
    (hc : Setup.create x detour user = .ok c) (hn : NoCuts c.runner.params) (hrule : ∃ dir, c.rule = .maxFractional dir)
    (hdown : user.branching.bind (·.direction) = some .down)
    (htol : 0 ≤ user.integralityTolerance.getD (1 / 10 ^ 6))
    (hsmall : user.integralityTolerance.getD (1 / 10 ^ 6) < 1 / 2) (e : Engine) (he : e.Right)
    (hl : ((∃ s g, c.lpi = .glop s g) ∧ e.GlopReturns) ∨ ((∃ g, c.lpi = .soplex g) ∧ e.SoplexReturns)) :
    ∃ s s', Reaches e c s ∧ Solver.iterate (oracle e c) c.data (params c) s = .ok (.again s') ∧
      s'.queue.length = s.queue.length + 1 ∧ detour.Optimal (point s.result.best.values) ∧
      s'.world.world.lp.isOptimal = true ∧ (∃ y, s'.world.world.lp.program.Feasible y) ∧
      ∀ y, s'.world.world.lp.program.Feasible y →
        detour.userObjective y ≤ detour.userObjective (point s.result.best.values) - 1 := by
  obtain ⟨hp, hfin, hI, hB⟩ := detour_spec
  obtain ⟨hd, h₀⟩ := created_refines hp hc
  obtain ⟨-, -, -, -, -, h6, -⟩ := Setup.create_ok hc
  obtain ⟨dir, hr⟩ := hrule
  have hdk := Solver.dataOk_of_represents hd
  have hlen₀ : (start c.lpi).program.cols.length = c.data.lower.length := by
    rw [h₀.numCols, hd.lower, List.length_map]; rfl
  have hs := primalShape (e := e) (c := c) (Good' := Plain (start c.lpi).program)
    (lp₀ := (start c.lpi).program) (fun _ h => h.good)
  rw [hlen₀] at hs
  have hg := plain_start c
  have hct := contract_plain (lp₀ := (start c.lpi).program) he hn
  have hends : Solver.Ends (guard (oracle e c) (Plain (start c.lpi).program)) c.data (params c)
      (Solver.initial { world := { lp := start c.lpi } }) := by
    refine ⟨iterationBound detour, ?_⟩
    rw [Solver.guard_solveFuel (keeps_plain hn) _ _ (by exact hg)]
    have hno : solve e c (iterationBound detour) = none ∨ (∃ s, solve e c (iterationBound detour) = some (.ok s)) ∨
        solve e c (iterationBound detour) = some (.error "The problem is infeasible or unbounded") := by
      rcases hl with ⟨hl, hret⟩ | ⟨hl, hret⟩
      · exact C77_glop_never_aborts_partial hret hp hc hl hn htol _
      · exact C77_soplex_never_aborts_partial hret he.feasible hp hI hc hl hn hr htol _
    rcases hno with h | h | h
    · exact absurd h (C76_ends_partial detour hp hfin e x user c dir he.feasible hc hr htol)
    · exact .inl h
    · exact .inr ⟨_, h⟩
  rw [← h6] at htol hsmall
  have htol' : 0 ≤ (params c).tol := htol
  have hbr := Solver.branchesOnFractional_of_max hdk hs
    (usesMaxFractional (e := e) (Good' := Plain (start c.lpi).program) hr) htol
  have hdir : ∀ {r r' : Runner World} {col : Nat} {up : Bool}, Plain (start c.lpi).program r →
      (guard (oracle e c) (Plain (start c.lpi).program)).branch r = .ok (r', (col : Int), up) → up = false := by
    intro r r' col up hr hb
    have hb : (oracle e c).branch r = .ok (r', (col : Int), up) := (if_pos hr).symm.trans hb
    obtain ⟨⟨w, col', up'⟩, hb1, hb2⟩ := Outcome.bind_eq_ok.1 hb
    simp only [Outcome.pure_eq, Outcome.ok.injEq, Prod.mk.injEq] at hb2
    obtain ⟨-, -, rfl⟩ := hb2
    exact (C58_direction x _ hp user c hc e _ _ _ _ hb1).2 hdown
  -- the root
  have hroot : ∀ {b : Box}, (∀ j y, b j y) → ∀ r, Plain (start c.lpi).program r →
      RightAnswer r.world.lp.program (r.world.lp.isOptimal = true) r.world.report →
      (∀ x, InBounds c.data bounds r x ↔ InRootBounds c.data x ∧ InBox c.data b x) →
      (guard (oracle e c) (Plain (start c.lpi).program)).isOptimal r = true ∧
      ∀ values, (guard (oracle e c) (Plain (start c.lpi).program)).primal r = .ok values → values = [1 / 2, 0] := by
    intro b hb r hr hans hx
    refine detour_node (e := e) hd h₀ (b := b) ⟨by norm_num, hb _ _, hb _ _⟩ ?_ hr hans hx
    intro x w h1 h2 h3 _ _ h4
    constructor <;> linarith [h1.1, h2.1]
  have hroot' : ∀ r, (Plain (start c.lpi).program r ∧
      RightAnswer r.world.lp.program (r.world.lp.isOptimal = true) r.world.report) →
      (∀ x, InBounds c.data bounds r x ↔ InRootBounds c.data x) →
      (guard (oracle e c) (Plain (start c.lpi).program)).isOptimal r = true ∧
      ∀ values, (guard (oracle e c) (Plain (start c.lpi).program)).primal r = .ok values →
        c.data.solutionIsIntegral values (params c).tol ≠ .ok true := by
    rintro r ⟨hr, hans⟩ hx
    obtain ⟨h1, h2⟩ := hroot (b := fun _ _ => True) (fun _ _ => trivial) r hr hans
      (fun y => by rw [hx y]; exact ⟨fun h => ⟨h, fun _ _ => trivial⟩, fun h => h.1⟩)
    refine ⟨h1, fun values hv hint => ?_⟩
    rw [h2 values hv] at hint
    obtain ⟨k, hk⟩ := ((detour_integral hd hint).1 rfl).1
    exact half_far hsmall k hk
  obtain ⟨b, hb, hi⟩ := Solver.inv_init (Good := Plain (start c.lpi).program) hg (startsAt hd h₀)
  obtain ⟨s₁, hs₁, hends₁⟩ := hends.again hdk hs hct hi (by simp) hroot'
  obtain ⟨w₁, values₁, ⟨hw₁, ha₁⟩, hx₁, -, hv₁, hcase₁⟩ := Solver.iterate_detail hdk hs hct hi (b := b) (bs' := []) rfl
    (fun w hw hx => (hroot hb w hw.1 hw.2 hx).1) hs₁
  obtain rfl := (hroot hb _ hw₁ ha₁ hx₁).2 _ hv₁
  rcases hcase₁ with ⟨hint, -⟩ | ⟨col, up, v, hno, hbranch, hval, hbj, hres, -, hi₁⟩
  · obtain ⟨k, hk⟩ := ((detour_integral hd hint).1 rfl).1
    exact absurd hk (half_far hsmall k)
  have hcol : col = 0 ∧ v = 1 / 2 := by
    obtain ⟨-, hfr⟩ := hbr _ _ _ _ _ _ hv₁ hno hbranch hval
    match col with
    | 0 => simp at hval; exact ⟨rfl, by rw [← hval]; norm_num⟩
    | 1 => simp at hval; exact absurd (by rw [← hval]; simp) (hfr 0)
    | n + 2 => simp at hval
  obtain ⟨rfl, rfl⟩ := hcol
  obtain rfl := hdir hw₁ hbranch
  simp only [Bool.not_false, List.nil_append, List.cons_append] at hi₁
  -- the down child
  have hleft : ∀ r, Plain (start c.lpi).program r →
      RightAnswer r.world.lp.program (r.world.lp.isOptimal = true) r.world.report →
      (∀ x, InBounds c.data bounds r x ↔ InRootBounds c.data x ∧ InBox c.data (childBox b 0 (1 / 2) true) x) →
      (guard (oracle e c) (Plain (start c.lpi).program)).isOptimal r = true ∧
      ∀ values, (guard (oracle e c) (Plain (start c.lpi).program)).primal r = .ok values → values = [0, 0] := by
    intro r hr hans hx
    refine detour_node (e := e) hd h₀ ⟨by norm_num, ⟨hb _ _, fun _ => by rw [floor_half]; simp⟩,
      ⟨hb _ _, fun h => by simp at h⟩⟩ ?_ hr hans hx
    intro x w h1 h2 h3 h4 _ h5
    have h4 := h4.2 rfl
    rw [floor_half] at h4
    simp at h4
    constructor <;> linarith [h1.1, h2.1]
  obtain ⟨s₂, hs₂, hends₂⟩ := hends₁.again hdk hs hct hi₁ (by simp) hroot'
  obtain ⟨w₂, values₂, ⟨hw₂, ha₂⟩, hx₂, ho₂, hv₂, hcase₂⟩ := Solver.iterate_detail hdk hs hct hi₁
    (b := childBox b 0 (1 / 2) true) (bs' := [childBox b 0 (1 / 2) false])
    (by rw [hbj]; rfl) (fun w hw hx => (hleft w hw.1 hw.2 hx).1) hs₂
  obtain rfl := (hleft _ hw₂ ha₂ hx₂).2 _ hv₂
  rcases hcase₂ with ⟨-, hbj₂, hres₂, hi₂⟩ | ⟨_, _, _, hno, -⟩
  swap
  · have := (detour_integral hd hno).2 ⟨⟨0, by simpa using htol'⟩, ⟨0, by simpa using htol'⟩⟩
    cases this
  have hbest : s₂.result.best.values = [0, 0] := by
    have hobj : (guard (oracle e c) (Plain (start c.lpi).program)).objective w₂ = .fin _ :=
      (ha₂.1 ((if_pos hw₂).symm.trans ho₂)).2.1
    rw [hres₂, hres, hobj]
    rfl
  -- the up child
  have hright : ∀ r, Plain (start c.lpi).program r →
      RightAnswer r.world.lp.program (r.world.lp.isOptimal = true) r.world.report →
      (∀ x, InBounds c.data bounds r x ↔ InRootBounds c.data x ∧ InBox c.data (childBox b 0 (1 / 2) false) x) →
      (guard (oracle e c) (Plain (start c.lpi).program)).isOptimal r = true ∧
      ∀ values, (guard (oracle e c) (Plain (start c.lpi).program)).primal r = .ok values → values = [1, 1 / 2] := by
    intro r hr hans hx
    refine detour_node (e := e) hd h₀ ⟨by norm_num, ⟨hb _ _, fun _ => by rw [ceil_half]; simp⟩,
      ⟨hb _ _, fun h => by simp at h⟩⟩ ?_ hr hans hx
    intro x w h1 h2 h3 h4 _ h5
    have h4 := h4.2 rfl
    rw [ceil_half] at h4
    simp at h4
    constructor <;> linarith [h1.2]
  obtain ⟨s₃, hs₃, hends₃⟩ := hends₂.again hdk hs hct hi₂ (by simp) hroot'
  obtain ⟨w₃, values₃, ⟨hw₃, ha₃⟩, hx₃, ho₃, hv₃, hcase₃⟩ := Solver.iterate_detail hdk hs hct hi₂
    (b := childBox b 0 (1 / 2) false) (bs' := [])
    (by rw [hbj₂]; rfl) (fun w hw hx => (hright w hw.1 hw.2 hx).1) hs₃
  obtain rfl := (hright _ hw₃ ha₃ hx₃).2 _ hv₃
  rcases hcase₃ with ⟨hint, -⟩ | ⟨col, up, v, -, hbranch₃, -, -, -, hq₃, -⟩
  · obtain ⟨k, hk⟩ := ((detour_integral hd hint).1 rfl).2
    exact absurd hk (half_far hsmall k)
  have hreach : Solver.Reach (guard (oracle e c) (Plain (start c.lpi).program)) c.data (params c)
      (Solver.initial { world := { lp := start c.lpi } }) s₂ := (Solver.Reach.refl.step hs₁).step hs₂
  obtain ⟨hreach', hgood⟩ := Solver.guard_reach_back (keeps_plain hn) _ (by exact hg) hreach
  have hlp : s₃.world.world.lp = w₃.world.lp := (branch_spec ((if_pos hw₃).symm.trans hbranch₃)).1
  have hopt₃ : w₃.world.lp.isOptimal = true := (if_pos hw₃).symm.trans ho₃
  have hval₀ : detour.userObjective (point [0, 0]) = 0 := by rw [detour_objective]; simp [point]
  refine ⟨s₂, s₃, hreach', ?_, hq₃, ?_, by rw [hlp]; exact hopt₃, ⟨_, by rw [hlp]; exact (ha₃.1 hopt₃).1⟩, fun y hy => ?_⟩
  · rw [← (Solver.guard_iterate (keeps_plain hn) _ hgood).1]; exact hs₃
  · rw [hbest]
    refine ⟨⟨fun n v hv => ?_, ((detour_relaxed _).2 (by simp [point])).2⟩, fun y hy => ?_⟩
    · match n with
      | 0 => simp [detour] at hv; subst hv; exact ⟨by simp [Between, point], fun _ => ⟨0, by simp [point]⟩⟩
      | 1 => simp [detour] at hv; subst hv; exact ⟨by simp [Between, point], fun _ => ⟨0, by simp [point]⟩⟩
      | n + 2 => simp [detour] at hv
    · rw [if_pos (by rfl), hval₀, detour_objective]
      obtain ⟨h1, h2, h3⟩ := (detour_relaxed y).1 ⟨fun n v hv => (hy.1 n v hv).1, hy.2⟩
      obtain ⟨k, hk⟩ := (hy.1 0 _ rfl).2 rfl
      have hk : y 0 = k := hk
      rw [hk] at h1 h3 ⊢
      rcases le_or_gt k 0 with h | h
      · have : (k : ℚ) ≤ 0 := by exact_mod_cast h
        linarith [h2.1]
      · have : (1 : ℚ) ≤ k := by exact_mod_cast h
        linarith [h1.2]
  · rw [hlp] at hy
    obtain ⟨hy1, hy2⟩ := (node_points hp hd h₀ hw₃ hx₃ y).1 hy
    rw [hbest, hval₀, detour_objective]
    obtain ⟨h1, h2, h3⟩ := (detour_relaxed y).1 hy1
    have h4 := ((detour_boxed hd _ y).1 hy2).1.2 rfl
    rw [ceil_half] at h4
    simp at h4
    linarith [h1.2]

theorem branch_primal {e : Engine} {c : Setup.Created} {r r' : Runner World} {col : Int} {up : Bool}
    (h : (oracle e c).branch r = .ok (r', col, up)) : r'.world.primal = r.world.primal := by
  simp only [oracle, Outcome.bind_eq_ok] at h
  obtain ⟨⟨w, col', up'⟩, h1, h2⟩ := h
  cases h2
  unfold branch at h1
  split at h1 <;> simp only [Outcome.bind_eq_ok] at h1 <;> obtain ⟨x, -, h1⟩ := h1 <;> cases h1 <;> rfl

/-- **C117, what holds.**  For every well-formed problem, all parameters, with cuts or without, both interfaces and whatever LP
code: at every point of the run, a node is branched on (an iteration opens more nodes than it closes) only if its LP was
claimed to be optimal and its solution has an integer variable further than the tolerance from all integers.

Missing for C117: the solutions found so far (`C117_search_is_blind`, `C117_worse_node_branched_violated`). -/
theorem C117_branched_partial (x : Setup.External) (p : Problem) (hp : p.WellFormed) (user : Setup.ParamsMsg)
    (c : Setup.Created) (h : Setup.create x p user = .ok c) (e : Engine) (s s' : Solver.State (Runner World))
    (hs : Reaches e c s) (hi : Solver.iterate (oracle e c) c.data (params c) s = .ok (.again s'))
    (hq : s.queue.length < s'.queue.length) :
    s'.world.world.lp.isOptimal = true ∧ ∃ values, s'.world.world.primal = .ok values ∧
      ∃ (n : Nat) (v : Variable) (q : ℚ), p.vars[n]? = some v ∧ v.isInteger = true ∧ values[n]? = some q ∧
        ∀ k : Int, user.integralityTolerance.getD (1 / 10 ^ 6) < |q - k| := by
  obtain ⟨-, -, -, -, -, h6, -⟩ := Setup.create_ok h
  obtain ⟨hd, h₀⟩ := created_refines hp h
  have hdk := Solver.dataOk_of_represents hd
  have hshape := primalShape (e := e) (c := c) (Good' := Good (start c.lpi).program) (fun _ h => h)
  rw [h₀.numCols] at hshape
  have hs' : Solver.PrimalShape (guard (oracle e c) (Good (start c.lpi).program)) c.data.lower.length := by
    rw [hd.lower, List.length_map]; exact hshape
  have hg : Good (start c.lpi).program { world := { lp := start c.lpi } } := Extends.refl _
  obtain ⟨hr, hgood⟩ := Solver.guard_reach keeps_good _ (by exact hg) hs
  rw [← (Solver.guard_iterate keeps_good _ hgood).1] at hi
  obtain ⟨bs, hsim⟩ := hr.sim hdk hs'
  have e0 := Solver.sim_length hsim
  cases Solver.iterate_spec hdk hs' hsim hi with
  | infeasible h1 _ _ _ h5 =>
    have e1 := h1.perm.length_eq
    have e2 := Solver.sim_length h5
    simp only [List.length_cons] at e1
    omega
  | integral h1 _ _ _ _ _ h7 _ _ h10 =>
    rcases h10 with h10 | ⟨h10, -⟩
    · cases h10
      have e1 := h1.perm.length_eq
      have e2 := Solver.sim_length h7
      simp only [List.length_cons] at e1
      omega
    · cases h10
  | @branch b bs' lb ub w w' values col up v _ h1 h2 h3 h4 h5 h6' h7 h8 h9 h10 h11 =>
    have hw : Good (start c.lpi).program w := by
      obtain ⟨k1, k2⟩ := Solver.guard_solveNode (o := oracle e c) (d := c.data) keeps_good lb ub hgood
      rw [k1] at h3
      exact k2 w h3
    have h7' : (oracle e c).branch w = .ok (w', (col : Int), up) := (if_pos hw).symm.trans h7
    have h4' : w.world.lp.isOptimal = true := (if_pos hw).symm.trans h4
    have h5' : w.world.primal = .ok values := (if_pos hw).symm.trans h5
    rw [h10, (branch_spec h7').1, branch_primal h7']
    refine ⟨h4', values, h5', ?_⟩
    have hlv : values.length = c.data.lower.length := hs' w values h5
    obtain ⟨bb, k4, k5⟩ := MipData.allIntegral_iff values (params c).tol c.data.integerVariables
      (fun j hj => by rw [hlv]; exact hdk.ints j hj)
    have hb : bb = false := Outcome.ok.inj (k4.symm.trans h6')
    rw [hb] at k5
    simp only [Bool.false_eq_true, false_iff, not_forall, not_exists, not_le] at k5
    obtain ⟨n, q, hn, hq, hk⟩ := k5
    obtain ⟨m, var, hvar, hint, hnm⟩ := (hd.integers n).1 hn
    obtain rfl : n = m := by omega
    refine ⟨n, var, q, hvar, hint, hq, fun k => ?_⟩
    rw [← h6]
    exact hk k

/-- A user who branches downwards, without cuts. -/
def descender : Setup.ParamsMsg := { exUser with branching := some { direction := some .down } }

/-- The hypotheses of the violation are met, and those of the partial theorem by the state found there. -/
example : perfect.Right ∧ perfect.GlopReturns ∧ ∀ x, ∃ c, Setup.create x detour descender = .ok c ∧
    ∃ s s', Reaches perfect c s ∧ Solver.iterate (oracle perfect c) c.data (params c) s = .ok (.again s') ∧
      s.queue.length < s'.queue.length ∧ detour.Optimal (point s.result.best.values) ∧
      ∀ y, s'.world.world.lp.program.Feasible y →
        detour.userObjective y < detour.userObjective (point s.result.best.values) := by
  obtain ⟨hp, hfin, -⟩ := detour_spec
  refine ⟨perfect_spec.1, perfect_spec.2, fun x => ?_⟩
  obtain ⟨c, hc⟩ := (Setup.C73_glop_partial x detour hp descender _ (Setup.lpWins _) rfl).1
    (by refine ⟨⟨?_, ?_, ?_, ?_, ?_, ?_, ?_, ?_⟩, rfl, ?_, ?_, rfl, rfl⟩ <;>
      simp [descender, exUser, Setup.LpMsg.read, ToleranceOk])
  obtain ⟨hn, dir, hrule⟩ := rule_of hp hc ⟨0, le_rfl, rfl⟩ (by simp [descender])
  obtain ⟨s, s', h1, h2, h3, h4, -, -, h5⟩ := C117_worse_node_branched_violated x _ c hc hn ⟨dir, hrule⟩ rfl
    (by norm_num [descender, exUser]) (by norm_num [descender, exUser]) perfect perfect_spec.1
    (.inl ⟨created_glop hc rfl, perfect_spec.2⟩)
  exact ⟨c, hc, s, s', h1, h2, by omega, h4, fun y hy => by have := h5 y hy; linarith⟩

end Program
end MiniMip
