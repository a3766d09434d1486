import Verif.Props.ProgramEquivalent

/-!
# C134: restricting a problem never improves the reported optimum

A problem is restricted by adding constraints, tightening sides or bounds, or requiring variables to be integer.  The optimum that
a user reads off (`Reports`, C110) must then be no better than before, with whatever parameters, LP interface and LP code in
either run.
-/

namespace MiniMip
namespace Program

open Solver (point)

/-! ### Specification -/

/-- `a` is no better than `b`. -/
def NoBetter (maximize : Bool) (a b : ℚ) : Prop := if maximize then a ≤ b else b ≤ a

/-- Every feasible point of `p'` is matched by one of `p` that is at least as good. -/
def Restricts (p p' : Problem) : Prop :=
  p.isMaximization = p'.isMaximization ∧
  ∀ y', p'.Feasible y' → ∃ y, p.Feasible y ∧ NoBetter p.isMaximization (p'.userObjective y') (p.userObjective y)

/-- `v'` is `v` with tighter bounds, or required to be integer. -/
def TightenedVariable (v v' : Variable) : Prop :=
  v.objective = v'.objective ∧ Dbl.le v.lower v'.lower = true ∧ Dbl.le v'.upper v.upper = true ∧
  (v.isInteger = true → v'.isInteger = true)

/-- `k'` is `k` with tighter sides. -/
def TightenedConstraint (k k' : Constraint) : Prop :=
  k.varIndices = k'.varIndices ∧ k.coefficients = k'.coefficients ∧ Dbl.le k.lhs k'.lhs = true ∧ Dbl.le k'.rhs k.rhs = true

/-- `p'` is `p` with tighter bounds and sides, more integer variables and more constraints (in any order). -/
def Tightened (p p' : Problem) : Prop :=
  p.isMaximization = p'.isMaximization ∧ p.offset = p'.offset ∧ List.Forall₂ TightenedVariable p.vars p'.vars ∧
  ∀ k ∈ p.constraints, ∃ k' ∈ p'.constraints, TightenedConstraint k k'

/-- What a restriction may do to the reported optimum: make it worse, turn an optimum into none because nothing is feasible any
more, or turn none into an optimum because the problem was unbounded. -/
def Worsens (p p' : Problem) (v v' : Option ℚ) : Prop :=
  (∀ q q', v = some q → v' = some q' → NoBetter p.isMaximization q' q) ∧
  (v = none → v' ≠ none → Unbounded p) ∧
  (v ≠ none → v' = none → ∀ y, ¬ p'.Feasible y)

/-! ### Proof -/

theorem le_trans_fin {a b : Dbl} {x : ℚ} (h : Dbl.le a b = true) (h' : Dbl.le b (.fin x) = true) : Dbl.le a (.fin x) = true := by
  cases a <;> cases b <;> simp_all [Dbl.le]
  linarith

theorem fin_le_trans {a b : Dbl} {x : ℚ} (h : Dbl.le a b = true) (h' : Dbl.le (.fin x) a = true) : Dbl.le (.fin x) b = true := by
  cases a <;> cases b <;> simp_all [Dbl.le]
  linarith

theorem objectiveFrom_tightened {l l' : List Variable} (h : List.Forall₂ TightenedVariable l l') (y : Int → ℚ) :
    ∀ k, objectiveFrom k l y = objectiveFrom k l' y := by
  induction h with
  | nil => intro k; rfl
  | cons hv _ ih => intro k; rw [objectiveFrom, objectiveFrom, hv.1, ih]

/-- **C134**, problems: adding constraints, tightening sides and bounds and requiring variables to be integer are restrictions. -/
theorem C134_tightened {p p' : Problem} (h : Tightened p p') : Restricts p p' := by
  obtain ⟨hm, ho, hv, hk⟩ := h
  refine ⟨hm, fun y hy => ⟨y, ⟨fun n v hn => ?_, fun k hkm => ?_⟩, ?_⟩⟩
  · have hlen := hv.length_eq
    obtain ⟨hlt, hget⟩ := List.getElem?_eq_some_iff.1 hn
    have hlt' : n < p'.vars.length := by omega
    have ht : TightenedVariable v p'.vars[n] := by
      rw [← hget]; exact (List.forall₂_iff_get.1 hv).2 n hlt hlt'
    obtain ⟨⟨h1, h2⟩, h3⟩ := hy.1 n _ (List.getElem?_eq_getElem hlt')
    exact ⟨⟨le_trans_fin ht.2.1 h1, fin_le_trans ht.2.2.1 h2⟩, fun hi => h3 (ht.2.2.2 hi)⟩
  · obtain ⟨k', hk', h1, h2, h3, h4⟩ := hk k hkm
    obtain ⟨h5, h6⟩ := hy.2 k' hk'
    have he : k.activity y = k'.activity y := by simp only [Constraint.activity, h1, h2]
    rw [he]
    exact ⟨le_trans_fin h3 h5, fin_le_trans h4 h6⟩
  · have he : p'.userObjective y = p.userObjective y := by
      unfold Problem.userObjective
      rw [ho, objectiveFrom_tightened hv]
    rw [he]
    unfold NoBetter
    split <;> exact le_refl _

/-- An answer at least as good as every feasible point, or none because there is no optimum. -/
def AtLeastOptimum (p : Problem) : Option ℚ → Prop
  | none => (∀ y, ¬ p.Feasible y) ∨ Unbounded p
  | some q => ∀ y, p.Feasible y → NoBetter p.isMaximization (p.userObjective y) q

theorem atLeast_of_optimum {p : Problem} {v : Option ℚ} (h : IsOptimum p v) : AtLeastOptimum p v := by
  cases v with
  | none => exact h
  | some q =>
    obtain ⟨y, hy, rfl⟩ := h
    exact fun z hz => hy.2 z hz

/-- What `Solve` reports is at least as good as every feasible point, at every tolerance. -/
theorem reports_atLeast {e : Engine} (he : e.Right) {x : Setup.External} {p : Problem} (hp : p.WellFormed)
    {user : Setup.ParamsMsg} {c : Setup.Created} (h : Setup.create x p user = .ok c) (hn : CutsHarmless e p user c)
    {fuel : Nat} {o : Outcome (Solver.State (Runner World))} (hs : solve e c fuel = some o) {v : Option ℚ}
    (hv : Reports p Eq o v) : AtLeastOptimum p v := by
  obtain ⟨h1, h2⟩ := harmless_optimal he hp h hn fuel
  rcases hv with ⟨⟨m, rfl⟩, rfl⟩ | ⟨s, rfl, ⟨hb, rfl⟩ | ⟨hb, z, rfl, rfl⟩⟩
  · exact h2 m hs
  · exact Or.inl fun y hy => (h1 s hs y hy).1 hb
  · exact fun y hy => (h1 s hs y hy).2

/-- The answers for a problem and a restriction. -/
theorem worsens_of_optima {p p' : Problem} (h : Restricts p p') {v v' : Option ℚ} (hv : AtLeastOptimum p v)
    (hv' : IsOptimum p' v') : Worsens p p' v v' := by
  obtain ⟨hm, h⟩ := h
  refine ⟨?_, ?_, ?_⟩
  · rintro q q' rfl rfl
    obtain ⟨y', hy', rfl⟩ := hv'
    obtain ⟨z, hz, hle⟩ := h y' hy'.1
    have := hv z hz
    unfold NoBetter at hle this ⊢
    cases hmax : p.isMaximization <;> simp only [hmax, Bool.false_eq_true, if_false, if_true] at this hle ⊢ <;> linarith
  · rintro rfl hne
    obtain ⟨q', rfl⟩ := Option.ne_none_iff_exists'.1 hne
    obtain ⟨y', hy', -⟩ := hv'
    obtain ⟨z, hz, -⟩ := h y' hy'.1
    exact hv.resolve_left fun hno => hno z hz
  · rintro hne rfl
    obtain ⟨q, rfl⟩ := Option.ne_none_iff_exists'.1 hne
    refine hv'.resolve_right fun hu => ?_
    obtain ⟨y', hy', hlt⟩ := hu q
    obtain ⟨z, hz, hle⟩ := h y' hy'
    have := hv z hz
    unfold NoBetter at hle this
    rw [← hm] at hlt
    cases hmax : p.isMaximization <;> simp only [hmax, Bool.false_eq_true, if_false, if_true] at this hle hlt <;> linarith

/-- **C134**, the part that holds: with tolerance 0 for the restriction and any tolerance for the problem.
For all well-formed problems and restrictions of them, bounded or not, all
parameters with harmless cuts, both LP interfaces, every branching rule and all LP code that answers rightly (all of which may
differ between the runs): if both calls of `Solve` return, the optimum reported for the restriction is no better; a
problem without a reported optimum gains one only if it was unbounded, and loses one only if nothing is feasible any more. -/
theorem C134_exact_partial {p p' : Problem} (hr : Restricts p p') (hp : p.WellFormed) (hp' : p'.WellFormed)
    {e e' : Engine} (he : e.Right) (he' : e'.Right) {x x' : Setup.External}
    {user user' : Setup.ParamsMsg} {c c' : Setup.Created} (h : Setup.create x p user = .ok c)
    (h' : Setup.create x' p' user' = .ok c') (hn : CutsHarmless e p user c) (hn' : CutsHarmless e' p' user' c')
    (ht' : user'.integralityTolerance = some 0) {fuel fuel' : Nat}
    {o o' : Outcome (Solver.State (Runner World))} (hs : solve e c fuel = some o) (hs' : solve e' c' fuel' = some o')
    {v v' : Option ℚ} (hv : Reports p Eq o v) (hv' : Reports p' Eq o' v') : Worsens p p' v v' := by
  refine worsens_of_optima hr (reports_atLeast he hp h hn hs hv) (reports_optimum he' hp' h' hn' ?_ hs' hv')
  · rintro s fuel - - hf hopt z rfl
    rw [ht'] at hf
    exact ⟨feasible_of_zero hf, hopt⟩

/-- **C134**, the part that holds: problems with integer variables only and integral numbers, in which the tolerance changes no
constraint and no objective value by one, after rounding. -/
theorem C134_rounded_partial {p p' : Problem} (hr : Restricts p p') (hp : p.WellFormed) (hp' : p'.WellFormed)
    {e e' : Engine} (he : e.Right) (he' : e'.Right) {x x' : Setup.External}
    {user user' : Setup.ParamsMsg} {c c' : Setup.Created} (h : Setup.create x p user = .ok c)
    (h' : Setup.create x' p' user' = .ok c') (hn : NoCuts c.runner.params) (hn' : NoCuts c'.runner.params)
    (ht : user.integralityTolerance.getD (1 / 10 ^ 6) < 1 / 2)
    (ht' : user'.integralityTolerance.getD (1 / 10 ^ 6) < 1 / 2)
    (hw : WholeProblem p (user.integralityTolerance.getD (1 / 10 ^ 6)))
    (hw' : WholeProblem p' (user'.integralityTolerance.getD (1 / 10 ^ 6))) {fuel fuel' : Nat}
    {o o' : Outcome (Solver.State (Runner World))} (hs : solve e c fuel = some o) (hs' : solve e' c' fuel' = some o')
    {v v' : Option ℚ} (hv : Reports p (Rounded p) o v) (hv' : Reports p' (Rounded p') o' v') : Worsens p p' v v' :=
  worsens_of_optima hr (atLeast_of_optimum (rounded_reports_optimum he hp h hn ht hw hs hv))
    (rounded_reports_optimum he' hp' h' hn' ht' hw' hs' hv')

/-! ### A restriction with a better answer -/

/-- `tight` with the side lowered: `max x`, `2 x ≤ 2`, `0 ≤ x ≤ 9`. -/
def tighter : Problem :=
  { tight with constraints := [{ name := "c", varIndices := [0], coefficients := [2], rhs := .fin 2 }] }

theorem tighter_objective (y : Int → ℚ) : tighter.userObjective y = y 0 := by
  simp [Problem.userObjective, objectiveFrom, tighter, tight]

theorem tighter_spec : tighter.WellFormed ∧ FiniteIntegers tighter ∧ Bounded tighter ∧ NonnegativeIntegers tighter ∧
    IntegralSides tighter ∧ tighter.Feasible (fun _ => 1) := by
  refine ⟨?_, tight_spec.2.1, ⟨1, ?_⟩, tight_spec.2.2.2.1, ?_, ?_, ?_⟩
  · simp [Problem.WellFormed, tighter, tight, Variable.WellFormed, Constraint.WellFormed, Ordered, Dbl.le]
  · rintro y ⟨-, h2⟩
    have hx := h2 _ (List.mem_singleton.2 rfl)
    simp [Between, Dbl.le, Constraint.activity] at hx
    rw [show tighter.isMaximization = true from rfl, if_pos rfl, tighter_objective]
    linarith
  · intro k hk q hq
    simp [tighter] at hk
    subst hk
    simp at hq
    exact ⟨2, by rw [← hq]; norm_num⟩
  · exact tight_spec.2.2.2.2.1
  · intro k hk
    simp [tighter] at hk
    subst hk
    norm_num [Between, Constraint.activity, Dbl.le]

theorem tight_tightened : Tightened tight tighter := by
  refine ⟨rfl, rfl, ?_, ?_⟩
  · exact List.forall₂_same.2 fun v hv => by
      simp [tight] at hv
      subst hv
      simp [TightenedVariable, Dbl.le]
  · intro k hk
    simp [tight] at hk
    subst hk
    refine ⟨_, List.mem_singleton.2 rfl, rfl, rfl, ?_, ?_⟩ <;> norm_num [Dbl.le]

/-- **C134 fails** with cuts on a problem with a fractional side.  `max x`, `2 x ≤ 5/2`, `0 ≤ x ≤ 9`, `x` integer, and the same
with `2 x ≤ 2`: with tolerance 0 and one round of cuts, whatever LP code that answers rightly, returns, keeps a basis, stops
at no limit and hands out rows in order, `Solve` reports an optimum below 1 (or none) for the first and 1 for the second. -/
theorem C134_lowered_side_violated : Tightened tight tighter ∧ ∀ x c, Setup.create x tight oneRoundUser = .ok c →
    ∃ c', Setup.create x tighter oneRoundUser = .ok c' ∧
      ∀ e : Engine, e.Right → e.GlopReturns → e.GlopBasic → e.GlopInTime → e.InOrder → e.Sorted →
        ∃ o o' v, solve e c 4 = some o ∧ solve e c' (iterationBound tighter) = some o' ∧
          Reports tight Eq o v ∧ Reports tighter Eq o' (some 1) ∧ (∀ q, v = some q → q < 1) ∧ ¬ Worsens tight tighter v (some 1) := by
  refine ⟨tight_tightened, fun x c hc => ?_⟩
  obtain ⟨-, -, -, hbad⟩ := C75_fractional_side_violated
  obtain ⟨h1, h2, h3, h4, h5, h6⟩ := tighter_spec
  obtain ⟨c', hc', hsol⟩ := C83_one_round_total_correctness_partial tighter h1 h2 h3 h4 h5 ⟨_, h6⟩ x oneRoundUser _
    (Setup.lpWins _)
    (by refine ⟨⟨?_, ?_, ?_, ?_, ?_, ?_, ?_, ?_⟩, rfl, ?_, ?_, rfl, rfl⟩ <;> simp [oneRoundUser, Setup.LpMsg.read, ToleranceOk])
    ⟨⟨1, le_refl _, rfl⟩, by simp [oneRoundUser]⟩ (by simp [oneRoundUser]) rfl
  refine ⟨c', hc', fun e he hret hbas hin hord hsort => ?_⟩
  obtain ⟨s, hs, -, hlt⟩ := hbad x c hc e he hret hbas hin
  have hobj : ∀ y : Int → ℚ, tight.userObjective y = y 0 := by
    intro y; simp [Problem.userObjective, objectiveFrom, tight]
  have hrep : ∃ o', solve e c' (iterationBound tighter) = some o' ∧ Reports tighter Eq o' (some 1) := by
    rcases hsol e he hret hbas.fits hord hsort with ⟨-, hno⟩ | ⟨s', hs', hf, hopt⟩
    · exact absurd h6 (hno _)
    · obtain ⟨hb, hge⟩ := hopt _ h6
      have hc2 := ((hf hb).2 _ (List.mem_singleton.2 rfl)).2
      simp [Constraint.activity] at hc2
      rw [show tighter.isMaximization = true from rfl, if_pos rfl, tighter_objective, tighter_objective] at hge
      refine ⟨_, hs', .inr ⟨s', rfl, .inr ⟨hb, _, rfl, ?_⟩⟩⟩
      rw [tighter_objective]
      congr 1
      linarith
  obtain ⟨o', hs', hr'⟩ := hrep
  rw [hobj, hobj] at hlt
  have hub : ¬ Unbounded tight := by
    intro hu
    obtain ⟨y, hy, hB⟩ := hu 5
    have hc2 := (hy.2 _ (List.mem_singleton.2 rfl)).2
    simp [Constraint.activity] at hc2
    rw [show tight.isMaximization = true from rfl, if_pos rfl, hobj] at hB
    linarith
  by_cases hbe : s.result.best = {}
  · refine ⟨_, _, none, hs, hs', .inr ⟨s, rfl, .inl ⟨hbe, rfl⟩⟩, hr', by simp, fun hw => hub (hw.2.1 rfl (by simp))⟩
  · refine ⟨_, _, _, hs, hs', .inr ⟨s, rfl, .inr ⟨hbe, _, rfl, rfl⟩⟩, hr', ?_, fun hw => ?_⟩
    · rintro q hq
      rw [hobj] at hq
      injection hq with hq
      rw [← hq]; exact hlt
    · have := hw.1 _ _ rfl rfl
      rw [NoBetter, show tight.isMaximization = true from rfl, if_pos rfl, hobj] at this
      linarith

/-! ### The hypotheses are met -/

/-- The hypotheses of `C134_exact_partial` are met by two problems that differ, and by what `Solve` returns for them. -/
example : Restricts tight tighter ∧
    ∃ (x : Setup.External) (c c' : Setup.Created) (fuel : Nat) (o o' : Outcome (Solver.State (Runner World))) (v v' : Option ℚ),
    Setup.create x tight { exUser with integralityTolerance := some 0 } = .ok c ∧
    Setup.create x tighter { exUser with integralityTolerance := some 0 } = .ok c' ∧
    NoCuts c.runner.params ∧ NoCuts c'.runner.params ∧
    solve perfect c fuel = some o ∧ solve perfect c' fuel = some o' ∧ Reports tight Eq o v ∧ Reports tighter Eq o' v' := by
  obtain ⟨h1, h2, h4, -⟩ := tighter_spec
  obtain ⟨g1, g2, g4, -⟩ := tight_spec
  have ht : Setup.GlopTakes (({ exUser with integralityTolerance := some 0 } : Setup.ParamsMsg).lp.getD {}).read := by
    refine ⟨⟨?_, ?_, ?_, ?_, ?_, ?_, ?_, ?_⟩, rfl, ?_, ?_, rfl, rfl⟩ <;> simp [exUser, Setup.LpMsg.read, ToleranceOk]
  obtain ⟨c, hc, hs⟩ := C78_total_correctness tight g1 g2 g4 Setup.exExternal { exUser with integralityTolerance := some 0 } _
    (Setup.lpWins _) ht ⟨0, le_refl _, rfl⟩ (by intro s; simp [exUser]) (by norm_num [exUser])
  obtain ⟨c', hc', hs'⟩ := C78_total_correctness tighter h1 h2 h4 Setup.exExternal { exUser with integralityTolerance := some 0 } _
    (Setup.lpWins _) ht ⟨0, le_refl _, rfl⟩ (by intro s; simp [exUser]) (by norm_num [exUser])
  obtain ⟨o, v, ho, hv⟩ := reports_of_solves (hs perfect perfect_spec.1 perfect_spec.2)
  obtain ⟨o', v', ho', hv'⟩ := reports_of_solves (hs' perfect perfect_spec.1 perfect_spec.2)
  exact ⟨C134_tightened tight_tightened, _, c, c', _, o, o', v, v', hc, hc', (rule_of g1 hc ⟨0, le_rfl, rfl⟩ (by simp [exUser])).1,
    (rule_of h1 hc' ⟨0, le_rfl, rfl⟩ (by simp [exUser])).1, ho, ho', hv, hv'⟩

/-- A problem is restricted by another constraint. -/
example (p : Problem) (k : Constraint) (h : ∀ v ∈ p.vars, v.lower ≠ .nan ∧ v.upper ≠ .nan)
    (h' : ∀ k ∈ p.constraints, k.lhs ≠ .nan ∧ k.rhs ≠ .nan) : Tightened p { p with constraints := k :: p.constraints } := by
  have refl : ∀ a : Dbl, a ≠ .nan → Dbl.le a a = true := by intro a ha; cases a <;> simp_all [Dbl.le]
  refine ⟨rfl, rfl, List.forall₂_same.2 fun v hv => ⟨rfl, refl _ (h v hv).1, refl _ (h v hv).2, id⟩, fun k₁ hk => ?_⟩
  exact ⟨k₁, List.mem_cons_of_mem _ hk, rfl, rfl, refl _ (h' k₁ hk).1, refl _ (h' k₁ hk).2⟩

end Program
end MiniMip
