import Verif.Lemmas.Program
import Verif.Props.DefaultRunner
import Verif.Lemmas.ProgramPerfect

/-!
# Property C85: no cuts for an LP without a solution

The cut runner starts a round only if the LP is solved, and is neither infeasible nor unbounded nor past a limit.
The theorems are about the runner on the two LP interfaces, for every behaviour of the LP code.
-/

namespace MiniMip.Program

/-- The LP was solved since it was last changed, and the last solve neither found it infeasible or unbounded
nor hit a limit. -/
def Open : Lp → Prop
  | .glop s => s.iface.modified = false ∧
      s.status ∉ [.primalInfeasible, .dualUnbounded, .primalUnbounded, .dualInfeasible] ∧
      s.iface.timeLimitReached = false ∧ s.objectiveLimitReached = false ∧
      (s.settings.maxIterations = -1 ∨ s.iface.numIterations < s.settings.maxIterations)
  | .soplex g => g.isSolved = true ∧
      g.status ∉ [.infeasible, .unbounded, .abortTime, .abortIter, .abortValue]

theorem mayRun_open {e : Engine} {c : Setup.Created} {r : Runner World}
    (h : Runner.mayRun c.runner.params (plugins e c) r = true) : Open r.world.lp := by
  unfold Runner.mayRun at h
  split at h
  · cases h
  rename_i hs
  split at h
  · cases h
  rename_i hi
  simp only [plugins] at hs hi
  revert hs hi
  cases r.world.lp with
  | glop s =>
    simp only [Lp.stop, Lp.isSolved, Open, Glop.Session.isPrimalInfeasible, Glop.Session.isPrimalUnbounded,
      Glop.Session.isDualInfeasible, Glop.Session.isDualUnbounded, Glop.Session.timeLimitIsExceeded,
      Glop.Session.iterationLimitIsExceeded, Glop.Session.objectiveLimitIsExceeded, Glop.Session.isSolved,
      Bool.or_eq_true, decide_eq_true_eq, not_or, not_and, List.mem_cons, List.not_mem_nil, or_false]
    rintro ⟨⟨⟨⟨⟨⟨⟨h1, h2⟩, h3⟩, h4, h5⟩, -⟩, h6⟩, h7⟩, h8⟩ h9
    refine ⟨by simpa using h9, ⟨h2, h1, h3, h5⟩, by simpa using h6, by simpa using h8, ?_⟩
    by_cases hm : s.settings.maxIterations = -1
    · exact Or.inl hm
    · exact Or.inr (not_le.1 (h7 hm))
  | soplex g =>
    simp only [Lp.stop, Lp.isSolved, Open, Soplex.isPrimalInfeasible, Soplex.isPrimalUnbounded,
      Soplex.isDualInfeasible, Soplex.timeLimitIsExceeded, Soplex.iterationLimitIsExceeded,
      Soplex.objectiveLimitIsExceeded, Bool.or_eq_true, decide_eq_true_eq, not_or, List.mem_cons, List.not_mem_nil,
      or_false]
    rintro ⟨⟨⟨⟨⟨⟨h1, h2⟩, -⟩, -⟩, h3⟩, h4⟩, h5⟩ h6
    exact ⟨by simpa using h6, h1, h2, h3, h4, h5⟩

/-- **C85**: a call of the cut runner consists of rounds that start with an open LP: whatever such rounds keep, the
call keeps. -/
theorem C85_rounds_on_open_lps {e : Engine} {c : Setup.Created} {I : Runner World → Prop}
    (hI : ∀ r r' b, I r → Open r.world.lp → Runner.round (plugins e c) r = .ok (r', b) → I r')
    {r r' : Runner World} (h : separate e c r = .ok r') (hr : I r) : I r' := by
  have key : ∀ n (r : Runner World), Runner.separateFuel c.runner.params (plugins e c) n r = some (.ok r') →
      I r → I r' := by
    intro n
    induction n with
    | zero => intro r h; cases h
    | succ n ih =>
      intro r h hr
      unfold Runner.separateFuel at h
      split at h
      · rename_i hm
        have ho := mayRun_open hm
        split at h
        · rename_i r1 h1
          exact ih _ h (hI _ _ _ hr ho h1)
        · rename_i r1 h1
          cases h
          exact hI _ _ _ hr ho h1
        all_goals cases h
      · cases h; exact hr
  unfold separate at h
  split at h
  · rename_i x hx
    rw [h] at hx
    exact key _ _ hx hr
  · cases h

/-- **C85**: a call of the cut runner on an LP that is not open returns OK without any effect: no cut is
generated, registered or added, and the LP is not solved again. -/
theorem C85_idle_otherwise {e : Engine} {c : Setup.Created} {r : Runner World} (h : ¬ Open r.world.lp) :
    separate e c r = .ok r := by
  have hm : Runner.mayRun c.runner.params (plugins e c) r = false := by
    by_contra hc
    exact h (mayRun_open (by simpa using hc))
  unfold separate
  simp [Runner.separateFuel, hm]

/-- An infeasible LP is not open, one solved to optimality without limits is. -/
example (g : Soplex.Interface) : ¬ Open (.soplex { g with status := .infeasible }) ∧
    Open (.soplex { g with status := .optimal, isSolved := true }) := by
  simp [Open]

end MiniMip.Program
