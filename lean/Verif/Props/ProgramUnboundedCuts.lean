import Verif.Props.ProgramRoundIntegral
import Verif.Props.ProgramRoundSoplex
import Verif.Props.ProgramUnbounded

/-!
# C114 with cuts, where the cuts are valid

C75 and C83 with cuts, without supposing that the objective is bounded on the relaxation.
-/

namespace MiniMip
namespace Program

open Solver (point)

/-- **C114 with cuts, what holds.**  For every well-formed problem, bounded or not, whose integer variables have non-negative
lower bounds and whose constraints have integral sides, both LP interfaces, every branching rule, and all cut parameters,
with integrality tolerance 0: if the LP code answers rightly and hands out rows in order, and `Solve` returns an error, the
problem has no feasible point or is unbounded. -/
theorem C114_with_cuts_partial {e : Engine} (he : e.Right) (ho : e.InOrder) (hsort : e.Sorted)
    {x : Setup.External} {p : Problem} (hp : p.WellFormed) (hn : NonnegativeIntegers p)
    (hs : IntegralSides p) {user : Setup.ParamsMsg} (htol : user.integralityTolerance = some 0)
    {c : Setup.Created} (h : Setup.create x p user = .ok c) {fuel : Nat} {m : String}
    (hm : solve e c fuel = some (.error m)) : (∀ y, ¬ p.Feasible y) ∨ Unbounded p := by
  exact no_optimum_of hp fun hB => (C75_with_cuts_partial he ho hsort hp hB hn hs htol h fuel).2 m hm

/-- The parts of total correctness, where the objective may be unbounded. -/
theorem settles_of_parts {e : Engine} (he : e.Right) {x : Setup.External} {p : Problem} (hp : p.WellFormed)
    {user : Setup.ParamsMsg} {c : Setup.Created} (hc : Setup.create x p user = .ok c) {N : Nat}
    (hne : solve e c N ≠ none) (h : Returns (solve e c N)) (hr : Bounded p → RightIn p (solve e c N)) :
    Settles p (user.integralityTolerance.getD (1 / 10 ^ 6)) (solve e c N) := by
  by_cases hB : Bounded p
  · rcases solves_of_parts he.feasible hp hc hne h (hr hB) with ⟨h3, h4⟩ | ⟨s, h3, h4⟩
    · exact Or.inl ⟨h3, Or.inl h4⟩
    · exact Or.inr ⟨fun hU => hU.not_bounded hB, s, h3, h4⟩
  · rcases h with h | ⟨s, h⟩ | h
    · exact absurd h hne
    · exact absurd h ((C114_unbounded he.seesUnbounded hp (Or.inr (relaxation_unbounded hB)) hc).1 N s)
    · refine Or.inl ⟨h, ?_⟩
      by_cases hf : ∃ y, p.Feasible y
      · obtain ⟨y, hy⟩ := hf
        exact Or.inr (unbounded_of_relaxation hp hB hy)
      · exact Or.inl fun y hy => hf ⟨y, hy⟩

/-- **C114 with one round of cuts, total correctness.**  `C83_one_round_total_correctness_partial` without supposing that the
objective is bounded on the relaxation. -/
theorem C114_one_round_total_partial (p : Problem) (hp : p.WellFormed) (hf : FiniteIntegers p)
    (hn : NonnegativeIntegers p) (hs : IntegralSides p) (hy : ∃ y, p.Feasible y)
    (x : Setup.External) (user : Setup.ParamsMsg) (lp : LpParameters)
    (hlp : Setup.LpWins user.lp lp) (ht : Setup.GlopTakes lp) (hu : AsksOneRound user)
    (hr : ∀ s, user.branching.bind (·.rule) ≠ some (.random s)) (htol : user.integralityTolerance = some 0) :
    ∃ c, Setup.create x p user = .ok c ∧ ∀ e : Engine, e.Right → e.GlopReturns → e.GlopFits → e.InOrder → e.Sorted →
      Settles p 0 (solve e c (iterationBound p)) := by
  obtain ⟨c, hc⟩ := (Setup.C73_glop_partial x p hp user lp hlp ht.solver).1 ht
  obtain ⟨dir, hrule⟩ := rule_max hp hc hr
  refine ⟨c, hc, fun e he hret hfit ho hsort => ?_⟩
  have := settles_of_parts he hp hc
    (C76_ends_partial p hp hf e x user c dir he.feasible hc hrule (by rw [htol]; exact le_refl _))
    (C77_one_round_partial he.feasible hret hfit ho hsort hp hn hs hy htol hc
      (created_glop hc (by rw [← hlp.eq]; exact ht.solver)) (oneRoundParams hp hc hu) _)
    fun hB => C75_with_cuts_partial he ho hsort hp hB hn hs htol hc _
  rwa [htol] at this

/-- **C114 with one round of cuts, integral problems.**  `C83_one_round_integral_total_correctness_partial` without supposing
that the objective is bounded on the relaxation. -/
theorem C114_one_round_integral_total_partial (p : Problem) (hp : p.WellFormed) (hf : FiniteIntegers p)
    (hn : NonnegativeIntegers p) (hI : IntegralProblem p) {D : ℚ} (hD : Determinants p D)
    (x : Setup.External) (user : Setup.ParamsMsg) (lp : LpParameters)
    (hlp : Setup.LpWins user.lp lp) (ht : Setup.GlopTakes lp) (hu : AsksOneRound user)
    (hr : ∀ s, user.branching.bind (·.rule) ≠ some (.random s)) (hfine : FineTolerances D user lp) :
    ∃ c, Setup.create x p user = .ok c ∧ ∀ e : Engine, e.Right → e.GlopReturns → e.GlopBasic → e.InOrder → e.Sorted →
      Settles p (user.integralityTolerance.getD (1 / 10 ^ 6)) (solve e c (iterationBound p)) := by
  obtain ⟨c, hc⟩ := (Setup.C73_glop_partial x p hp user lp hlp ht.solver).1 ht
  obtain ⟨-, -, -, -, -, htol, -⟩ := Setup.create_ok hc
  obtain ⟨dir, hrule⟩ := rule_max hp hc hr
  have hsmall := created_small hlp ht.solver hfine hc
  have h1 : 0 ≤ c.integralityTolerance := by rw [htol]; exact hfine.nonneg
  have h2 : D * c.integralityTolerance < 1 := by rw [htol]; exact hfine.integrality
  refine ⟨c, hc, fun e he hret hbas ho hsort => ?_⟩
  exact settles_of_parts he hp hc (C76_ends_partial p hp hf e x user c dir he.feasible hc hrule hfine.nonneg)
    (C77_one_round_integral_partial he.feasible hret hbas ho hsort hp hn hI hD hc h1 h2 hsmall (oneRoundParams hp hc hu) _)
    fun hB => C75_one_round_integral_partial he hret hbas ho hsort hp hB hn hI hD hc h1 h2 hsmall (oneRoundParams hp hc hu) _

/-- **C114 with one round of cuts, SoPlex**: `C83_soplex_one_round_total_correctness_partial` without supposing that the
objective is bounded on the relaxation. -/
theorem C114_soplex_one_round_total_partial (p : Problem) (hp : p.WellFormed) (hf : FiniteIntegers p)
    (hi : IntegralIntegers p) (hn : NonnegativeIntegers p) (hs : IntegralSides p) (hy : ∃ y, p.Feasible y)
    (x : Setup.External) (set : Soplex.Settings) (user : Setup.ParamsMsg) (lp : LpParameters)
    (hset : Setup.newSoplex x = .ok set) (hx1 : ∀ r v, x.accepts.real r v = true) (hx2 : ∀ r v, x.accepts.int r v = true)
    (hlp : Setup.LpWins user.lp lp) (ht : Setup.SoplexTakes lp) (hu : AsksOneRound user)
    (hr : ∀ s, user.branching.bind (·.rule) ≠ some (.random s)) (htol : user.integralityTolerance = some 0) :
    ∃ c, Setup.create x p user = .ok c ∧ ∀ e : Engine, e.Right → e.GoodSoplex →
      Settles p 0 (solve e c (iterationBound p)) := by
  obtain ⟨c, hc⟩ := (Setup.C73_soplex_partial x (hx1 _ _) set hset p hp user lp hlp ht.solver).2 hx1 hx2 ht
  obtain ⟨dir, hrule⟩ := rule_max hp hc hr
  refine ⟨c, hc, fun e he hgood => ?_⟩
  have := settles_of_parts he hp hc
    (C76_ends_partial p hp hf e x user c dir he.feasible hc hrule (by rw [htol]; exact le_refl _))
    (C77_soplex_one_round_partial hgood hp hn hi hs hy htol hc
      (soplex_created hc (by rw [← hlp.eq]; exact ht.solver)) (oneRoundParams hp hc hu) hrule _)
    fun hB => C75_with_cuts_partial he hgood.order hgood.sorted hp hB hn hs htol hc _
  rwa [htol] at this

/-- **C114 with one round of cuts, SoPlex, integral problems**: `C83_soplex_one_round_integral_total_correctness_partial`
without supposing that the objective is bounded on the relaxation. -/
theorem C114_soplex_one_round_integral_total_partial (p : Problem) (hp : p.WellFormed) (hf : FiniteIntegers p)
    (hi : IntegralIntegers p) (hn : NonnegativeIntegers p) (hI : IntegralProblem p) {D : ℚ} (hD : Determinants p D)
    (x : Setup.External) (set : Soplex.Settings) (user : Setup.ParamsMsg) (lp : LpParameters)
    (hset : Setup.newSoplex x = .ok set) (hx1 : ∀ r v, x.accepts.real r v = true) (hx2 : ∀ r v, x.accepts.int r v = true)
    (hlp : Setup.LpWins user.lp lp) (ht : Setup.SoplexTakes lp) (hu : AsksOneRound user)
    (hr : ∀ s, user.branching.bind (·.rule) ≠ some (.random s))
    (htol : 0 ≤ user.integralityTolerance.getD (1 / 10 ^ 6)) (hDt : D * user.integralityTolerance.getD (1 / 10 ^ 6) < 1) :
    ∃ c, Setup.create x p user = .ok c ∧ ∀ e : Engine, e.Right → e.GoodSoplex →
      Settles p (user.integralityTolerance.getD (1 / 10 ^ 6)) (solve e c (iterationBound p)) := by
  obtain ⟨c, hc⟩ := (Setup.C73_soplex_partial x (hx1 _ _) set hset p hp user lp hlp ht.solver).2 hx1 hx2 ht
  obtain ⟨-, -, -, -, -, h6, -⟩ := Setup.create_ok hc
  obtain ⟨dir, hrule⟩ := rule_max hp hc hr
  have hl := soplex_created hc (by rw [← hlp.eq]; exact ht.solver)
  refine ⟨c, hc, fun e he hgood => ?_⟩
  exact settles_of_parts he hp hc (C76_ends_partial p hp hf e x user c dir he.feasible hc hrule htol)
    (C77_soplex_one_round_integral_partial hgood hp hn hi hI hD hc (by rw [h6]; exact htol)
      (by rw [h6]; exact hDt) hl (oneRoundParams hp hc hu) hrule _)
    fun hB => C75_soplex_one_round_integral_partial hgood he hp hB hn hI hD hc (by rw [h6]; exact htol)
      (by rw [h6]; exact hDt) hl (oneRoundParams hp hc hu) _

/-- The unbounded problem of C114 meets the hypotheses about the problem; those about the parameters and the LP code are met
by the examples for C83. -/
example : freeProblem.WellFormed ∧ FiniteIntegers freeProblem ∧ Unbounded freeProblem ∧ NonnegativeIntegers freeProblem ∧
    IntegralIntegers freeProblem ∧ (∃ y, freeProblem.Feasible y) ∧ IntegralProblem freeProblem ∧
    Determinants freeProblem 2 := by
  obtain ⟨h1, h2, h3⟩ := freeProblem_spec
  obtain ⟨y, hy, -⟩ := h3 0
  refine ⟨h1, h2, h3, ?_, ?_, ⟨y, hy⟩, ⟨?_, ?_, ?_⟩, ?_⟩
  · intro v hv hi
    simp [freeProblem] at hv
    rcases hv with rfl | rfl <;> norm_num [Dbl.le]
  · intro v hv hi
    simp [freeProblem] at hv
    rcases hv with rfl | rfl
    · exact ⟨Or.inr ⟨0, by simp⟩, Or.inr ⟨3, by simp⟩⟩
    · simp at hi
  · intro k hk q hq
    simp [freeProblem] at hk
    subst hk
    simp at hq
    rcases hq with rfl | rfl
    · exact ⟨2, by norm_num⟩
    · exact ⟨-2, by norm_num⟩
  · intro k hk q hq
    simp [freeProblem] at hk
    subst hk
    simp at hq
    exact ⟨1, by rw [← hq]; norm_num⟩
  · intro v hv hi q hq
    simp [freeProblem] at hv
    rcases hv with rfl | rfl
    · simp at hi
    · simp at hq
      exact ⟨0, by rw [← hq]; norm_num⟩
  · intro b
    have : ∀ b : Nat ⊕ Nat, |Problem.extendedMatrix freeProblem 0 b| ≤ 2 := by
      intro b
      rcases b with j | r
      · match j with
        | 0 => norm_num [Problem.extendedMatrix, freeProblem, Problem.relaxation, Constraint.coefficientOf]
        | 1 => norm_num [Problem.extendedMatrix, freeProblem, Problem.relaxation, Constraint.coefficientOf]
        | n + 2 =>
          have h1 : (0 : Int) ≠ (n : Int) + 2 := by omega
          have h2 : (1 : Int) ≠ (n : Int) + 2 := by omega
          simp [Problem.extendedMatrix, freeProblem, Problem.relaxation, Constraint.coefficientOf, h1, h2]
      · simp only [Problem.extendedMatrix]
        split <;> norm_num
    have h := Matrix.det_fin_one (fun i j : Fin 1 => Problem.extendedMatrix freeProblem i (b j))
    exact (congrArg abs h).trans_le (this _)

end Program
end MiniMip
