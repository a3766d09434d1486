import Verif.Model.DebugSoplexSolve
import Verif.Props.SoplexSolve
import Verif.Props.LpParameters

/-!
# Property C130: parameters and solves of the SoPlex interface in the build with assertions
-/

namespace MiniMip
namespace Soplex

open Glop (Modification)

/-- A call: a message for the parameters, or one of the calls of C47. -/
inductive Call where
  | set (p : LpParameters)
  | event (e : Event)

/-- A call without assertions.  `CHECK_OK` in `SetLpParameters` may call it once more. -/
def Call.run (a : Accepts) (g : Interface) : Call → Outcome Interface
  | .set p => do
    let (s, _) ← setLpParameters a 2 g.settings p
    return { g with settings := s }
  | .event e => do return (← e.call a g).1

/-- A call with the assertions of `SetLpParameters` and of solves; those of the other calls are in C127 and C129. -/
def Call.debugRun (a : Accepts) (g : Interface) : Call → Outcome Interface
  | .set p => do
    let (s, _) ← debugSetLpParameters a 2 g.settings p
    return { g with settings := s }
  | .event (.solve eps t ans) => do return (← debugSoPlexSolve a g eps t ans).1
  | .event e => do return (← e.call a g).1

/-- A history without assertions. -/
def runCalls (a : Accepts) : Interface → List Call → Outcome Interface
  | g, [] => .ok g
  | g, c :: r => do runCalls a (← c.run a g) r

/-- A history with them. -/
def debugRunCalls (a : Accepts) : Interface → List Call → Outcome Interface
  | g, [] => .ok g
  | g, c :: r => do debugRunCalls a (← c.debugRun a g) r

theorem supported_switches {p : LpParameters} (h : supported p = true) :
    (scalerOf p.scaling).2 = true ∧ (timerOf p.timing).2 = true := by
  unfold supported at h
  split_ifs at h with h1 h2 h3 h4 h5
  constructor
  · cases hs : p.scaling <;> simp_all [scalerOf]
  · cases hs : p.timing <;> simp_all [timerOf]

/-- **C130**, parameters: no message raises an assertion that ends the process in `SetLpParameters`; both builds do the
same. -/
theorem C130_set_parameters (a : Accepts) (n : Nat) (s : Settings) (p : LpParameters) :
    debugSetLpParameters a n s p = setLpParameters a n s p := by
  induction n generalizing s p with
  | zero => rfl
  | succ n ih =>
    unfold debugSetLpParameters setLpParameters
    cases hs : supported p with
    | false => rfl
    | true =>
      obtain ⟨h1, h2⟩ := supported_switches hs
      simp only [h1, h2, Outcome.check, if_true, Outcome.bind_ok, ih]

theorem solve_same (a : Accepts) (g : Interface) (eps : ℚ) (t : Bool) (ans : Answer)
    (h : Dbl.le (.fin 0) g.settings.timelimit = true) :
    debugSoPlexSolve a g eps t ans = soPlexSolve a g eps t ans := by
  unfold debugSoPlexSolve soPlexSolve
  have key : ∀ g' : Interface, g'.settings.timelimit = g.settings.timelimit →
      debugLpSolve a g' eps ans = lpSolve a g' eps ans := by
    intro g' hg
    unfold debugLpSolve lpSolve
    simp only [hg, h, Outcome.check, if_true, Outcome.bind_ok]
  dsimp only
  rw [key]
  split <;> rfl

/-- **C130**, one solve: a solve that returns without assertions returns the same with them if the time limit is at least 0, and
otherwise, unless it ends before it calls SoPlex, raises one. -/
theorem C130_solve (a : Accepts) (g g' : Interface) (eps : ℚ) (t ok : Bool) (ans : Answer)
    (h : soPlexSolve a g eps t ans = .ok (g', ok)) :
    (Dbl.le (.fin 0) g.settings.timelimit = true → debugSoPlexSolve a g eps t ans = .ok (g', ok)) ∧
    (Dbl.le (.fin 0) g.settings.timelimit = false → (g.settings.solveFromScratch && t) = false →
      debugSoPlexSolve a g eps t ans = .abort) := by
  refine ⟨fun hl => (solve_same a g eps t ans hl).trans h, fun hl ht => ?_⟩
  unfold soPlexSolve at h
  unfold debugSoPlexSolve
  dsimp only at h ⊢
  obtain ⟨_, h0, h⟩ := Outcome.bind_eq_ok.mp h
  rw [h0]
  simp only [ht, Bool.false_eq_true, if_false, Outcome.bind_ok] at h ⊢
  obtain ⟨g1, h1, -⟩ := Outcome.bind_eq_ok.mp h
  have key : ∀ g0 : Interface, g0.settings.timelimit = g.settings.timelimit → lpSolve a g0 eps ans = .ok g1 →
      debugLpSolve a g0 eps ans = .abort := by
    intro g0 hg h1
    unfold lpSolve at h1
    unfold debugLpSolve
    obtain ⟨_, e1, h1⟩ := Outcome.bind_eq_ok.mp h1
    dsimp only at h1 ⊢
    obtain ⟨_, e2, h1⟩ := Outcome.bind_eq_ok.mp h1
    obtain ⟨_, e3, h1⟩ := Outcome.bind_eq_ok.mp h1
    simp only [Outcome.check_eq_ok] at e1 e2 e3
    simp only [e1, e2, e3, hg, hl, Outcome.check, if_true, Outcome.bind_ok]
    rfl
  rw [key _ (by split <;> rfl) h1]
  rfl

theorem modify_settings {g g' : Interface} {m : Modification} (h : call g m = .ok g') :
    g'.settings = g.settings := by
  cases m <;> simp only [call, addColumn, addColumns, addRow, addRows, deleteColumns, deleteRows,
    setColumnBounds, setRowSides, setObjectiveSense, setObjectiveCoefficient, clear] at h
  case addColumn =>
    obtain ⟨_, _, h⟩ := Outcome.bind_eq_ok.mp h
    have h := Outcome.ok.inj h; subst h; rfl
  case addColumns =>
    obtain ⟨_, _, h⟩ := Outcome.bind_eq_ok.mp h
    have h := Outcome.ok.inj h; subst h; rfl
  case addRow =>
    obtain ⟨_, _, h⟩ := Outcome.bind_eq_ok.mp h
    have h := Outcome.ok.inj h; subst h; rfl
  case addRows =>
    obtain ⟨_, _, h⟩ := Outcome.bind_eq_ok.mp h
    obtain ⟨_, _, h⟩ := Outcome.bind_eq_ok.mp h
    have h := Outcome.ok.inj h; subst h; rfl
  case deleteColumns =>
    obtain ⟨_, _, h⟩ := Outcome.bind_eq_ok.mp h
    obtain ⟨_, _, h⟩ := Outcome.bind_eq_ok.mp h
    have h := Outcome.ok.inj h; subst h; rfl
  case deleteRows =>
    obtain ⟨_, _, h⟩ := Outcome.bind_eq_ok.mp h
    obtain ⟨_, _, h⟩ := Outcome.bind_eq_ok.mp h
    have h := Outcome.ok.inj h; subst h; rfl
  case deleteRowSet mask =>
    obtain ⟨⟨g1, mp⟩, h1, h⟩ := Outcome.bind_eq_ok.mp h
    have h := Outcome.ok.inj h; subst h
    unfold deleteRowSet at h1
    obtain ⟨_, _, h1⟩ := Outcome.bind_eq_ok.mp h1
    obtain ⟨_, _, h1⟩ := Outcome.bind_eq_ok.mp h1
    obtain ⟨⟨_, _⟩, _, h1⟩ := Outcome.bind_eq_ok.mp h1
    have h1 := Outcome.ok.inj h1
    have h1 := congrArg Prod.fst h1
    simp only at h1
    subst h1; rfl
  case setColumnBounds =>
    obtain ⟨_, _, h⟩ := Outcome.bind_eq_ok.mp h
    obtain ⟨_, _, h⟩ := Outcome.bind_eq_ok.mp h
    obtain ⟨_, _, h⟩ := Outcome.bind_eq_ok.mp h
    have h := Outcome.ok.inj h; subst h; rfl
  case setRowSides =>
    obtain ⟨_, _, h⟩ := Outcome.bind_eq_ok.mp h
    split at h
    · have h := Outcome.ok.inj h; subst h; rfl
    · simp at h
  case setObjectiveSense =>
    obtain ⟨_, _, h⟩ := Outcome.bind_eq_ok.mp h
    have h := Outcome.ok.inj h; subst h; rfl
  case setObjectiveCoefficient =>
    obtain ⟨_, _, h⟩ := Outcome.bind_eq_ok.mp h
    split at h
    · have h := Outcome.ok.inj h; subst h; rfl
    · simp at h
  case clear =>
    obtain ⟨_, _, h⟩ := Outcome.bind_eq_ok.mp h
    have h := Outcome.ok.inj h; subst h; rfl

theorem branch_timelimit {a : Accepts} {g g' : Interface} {c : BranchCall}
    {r : Option BranchResult} {p : List (Dbl × Dbl)}
    (h : solveDownAndUpStrongBranch a g c.col c.value c.eps c.iterationLimit c.down c.up =
      .ok (g', r, p)) : g'.settings.timelimit = g.settings.timelimit := by
  have hset : ∀ (g : Interface) n, (setIterLimit a g n).settings.timelimit = g.settings.timelimit :=
    fun g n => by unfold setIterLimit; split <;> rfl
  have hsb : ∀ {g g' : Interface} {o n : Dbl × Dbl} {i : Int} {b : BranchAnswer},
      solveBranch a g c.col o n i b = .ok g' → g'.settings.timelimit = g.settings.timelimit := by
    intro g g' o n i b h
    unfold solveBranch at h
    dsimp only at h
    obtain ⟨-, -, h⟩ := Outcome.bind_eq_ok.mp h
    have h := Outcome.ok.inj h
    subst h
    simp only [changeBounds, restoreBasis, hset]
  unfold solveDownAndUpStrongBranch at h
  dsimp only at h
  obtain ⟨c', -, h⟩ := Outcome.bind_eq_ok.mp h
  split at h
  · obtain ⟨g1, h1, h⟩ := Outcome.bind_eq_ok.mp h
    rw [← hsb h1]
    simp only [Outcome.bind_ok] at h
    split at h
    · have h := Outcome.ok.inj h
      simp only [Prod.mk.injEq] at h
      rw [← h.1, hset]
    · split at h
      · obtain ⟨g2, h2, h⟩ := Outcome.bind_eq_ok.mp h
        have h := Outcome.ok.inj h
        simp only [Prod.mk.injEq] at h
        rw [← h.1, hset, hsb h2]
      · have h := Outcome.ok.inj h
        simp only [Prod.mk.injEq] at h
        rw [← h.1, hset]
  · simp only [Outcome.bind_ok] at h
    split at h
    · obtain ⟨g2, h2, h⟩ := Outcome.bind_eq_ok.mp h
      have h := Outcome.ok.inj h
      simp only [Prod.mk.injEq] at h
      rw [← h.1, hset, hsb h2]
    · have h := Outcome.ok.inj h
      simp only [Prod.mk.injEq] at h
      rw [← h.1, hset]


theorem event_timelimit {a : Accepts} {g g' : Interface} {e : Event} {s : Seen} (h : e.call a g = .ok (g', s)) :
    g'.settings.timelimit = g.settings.timelimit := by
  cases e with
  | modify m =>
    obtain ⟨g1, h1, h2⟩ := Outcome.bind_eq_ok.mp h
    have h2 := Outcome.ok.inj h2
    simp only [Prod.mk.injEq] at h2
    obtain ⟨rfl, rfl⟩ := h2
    rw [modify_settings h1]
  | solve eps t ans =>
    obtain ⟨⟨g1, ok⟩, h1, h2⟩ := Outcome.bind_eq_ok.mp h
    have h2 := Outcome.ok.inj h2
    simp only [Prod.mk.injEq] at h2
    obtain ⟨rfl, rfl⟩ := h2
    rw [(solve_ok h1).2.1]
  | setBasis c r t st b =>
    obtain ⟨⟨g1, ok⟩, h1, h2⟩ := Outcome.bind_eq_ok.mp h
    have h2 := Outcome.ok.inj h2
    simp only [Prod.mk.injEq] at h2
    obtain ⟨rfl, rfl⟩ := h2
    unfold setBasisStatus at h1
    obtain ⟨_, _, h1⟩ := Outcome.bind_eq_ok.mp h1
    obtain ⟨_, _, h1⟩ := Outcome.bind_eq_ok.mp h1
    obtain ⟨_, _, h1⟩ := Outcome.bind_eq_ok.mp h1
    dsimp only at h1
    split at h1
    · have h1 := congrArg Prod.fst (Outcome.ok.inj h1)
      simp only at h1
      subst h1; rfl
    · split at h1
      · have h1 := congrArg Prod.fst (Outcome.ok.inj h1)
        simp only at h1
        subst h1; rfl
      · have h1 := congrArg Prod.fst (Outcome.ok.inj h1)
        simp only at h1
        subst h1; rfl
  | clearState t =>
    obtain ⟨⟨g1, ok⟩, h1, h2⟩ := Outcome.bind_eq_ok.mp h
    have h2 := Outcome.ok.inj h2
    simp only [Prod.mk.injEq] at h2
    obtain ⟨rfl, rfl⟩ := h2
    unfold Soplex.clearState at h1
    dsimp only at h1
    split at h1
    · obtain ⟨-, -, h1⟩ := Outcome.bind_eq_ok.mp h1
      have h1 := congrArg Prod.fst (Outcome.ok.inj h1)
      simp only at h1
      subst h1; rfl
    · have h1 := congrArg Prod.fst (Outcome.ok.inj h1)
      simp only at h1
      subst h1; rfl
  | read p x f =>
    obtain ⟨⟨g1, ok⟩, h1, h2⟩ := Outcome.bind_eq_ok.mp h
    have h2 := Outcome.ok.inj h2
    simp only [Prod.mk.injEq] at h2
    obtain ⟨rfl, -⟩ := h2
    unfold readLpFromFile at h1
    obtain ⟨_, _, h1⟩ := Outcome.bind_eq_ok.mp h1
    obtain ⟨_, _, h1⟩ := Outcome.bind_eq_ok.mp h1
    split at h1
    · have h1 := congrArg Prod.fst (Outcome.ok.inj h1)
      simp only at h1
      subst h1; rfl
    · split at h1
      · have h1 := congrArg Prod.fst (Outcome.ok.inj h1)
        simp only at h1
        subst h1; rfl
      · have h1 := congrArg Prod.fst (Outcome.ok.inj h1)
        simp only at h1
        subst h1; rfl
  | startBranching =>
    obtain ⟨g1, h1, h2⟩ := Outcome.bind_eq_ok.mp h
    have h2 := Outcome.ok.inj h2
    simp only [Prod.mk.injEq] at h2
    obtain ⟨rfl, rfl⟩ := h2
    unfold startStrongBranching at h1
    obtain ⟨-, -, h1⟩ := Outcome.bind_eq_ok.mp h1
    have h1 := Outcome.ok.inj h1
    subst h1; rfl
  | branch c =>
    obtain ⟨⟨g1, r, p⟩, h1, h2⟩ := Outcome.bind_eq_ok.mp h
    have h2 := Outcome.ok.inj h2
    simp only [Prod.mk.injEq] at h2
    obtain ⟨rfl, rfl⟩ := h2
    exact branch_timelimit h1
  | endBranching =>
    obtain ⟨g1, h1, h2⟩ := Outcome.bind_eq_ok.mp h
    have h2 := Outcome.ok.inj h2
    simp only [Prod.mk.injEq] at h2
    obtain ⟨rfl, rfl⟩ := h2
    unfold endStrongBranching at h1
    obtain ⟨-, -, h1⟩ := Outcome.bind_eq_ok.mp h1
    have h1 := Outcome.ok.inj h1
    subst h1; rfl

/-- SoPlex rejects negative time limits (external). -/
def RejectsNegative (a : Accepts) : Prop := ∀ x, a.real .timelimit x = true → Dbl.lt x (.fin 0) = false

theorem nonneg_of {x : Dbl} (h : Dbl.lt x (.fin 0) = false) (hn : x ≠ .nan) : Dbl.le (.fin 0) x = true := by
  cases x <;> simp_all [Dbl.lt, Dbl.le]

theorem set_timelimit {a : Accepts} (ha : RejectsNegative a) (n : Nat) {s s' : Settings} {p : LpParameters} {ok : Bool}
    (hs : Dbl.le (.fin 0) s.timelimit = true) (hp : p.timeLimit ≠ .nan)
    (h : setLpParameters a n s p = .ok (s', ok)) : Dbl.le (.fin 0) s'.timelimit = true := by
  induction n generalizing s s' p ok with
  | zero => simp [setLpParameters] at h
  | succ n ih =>
    have key : Dbl.le (.fin 0) (assign a s p).1.timelimit = true := by
      simp only [assign]
      split
      · rename_i hx
        refine nonneg_of (ha _ hx) ?_
        unfold timeLimitOf
        split
        · simp
        · exact hp
      · exact hs
    unfold setLpParameters at h
    split at h
    · have h := congrArg Prod.fst (Outcome.ok.inj h)
      simp only at h
      rw [← h]
      exact hs
    · dsimp only at h
      split at h
      · have h := congrArg Prod.fst (Outcome.ok.inj h)
        simp only at h
        rw [← h]
        exact key
      · obtain ⟨⟨s1, b⟩, h1, h⟩ := Outcome.bind_eq_ok.mp h
        obtain ⟨-, -, h⟩ := Outcome.bind_eq_ok.mp h
        have h := congrArg Prod.fst (Outcome.ok.inj h)
        simp only at h
        rw [← h]
        refine ih key ?_ h1
        have hn : s.timelimit ≠ .nan := by
          intro hn
          rw [hn] at hs
          simp [Dbl.le] at hs
        cases ht : s.timer <;> simp [getLpParameters, ht, hn]

/-- **C130**, histories, partial: what is missing are messages with a time limit that is NaN (`C130_nan_time_limit_violated`).
After every history of messages and calls, on an interface whose time limit is not negative, both builds are in the same state or
have ended in the same way. -/
theorem C130_history_partial (a : Accepts) (ha : RejectsNegative a) (g : Interface)
    (hg : Dbl.le (.fin 0) g.settings.timelimit = true)
    (calls : List Call) (hc : ∀ p, .set p ∈ calls → p.timeLimit ≠ .nan) :
    debugRunCalls a g calls = runCalls a g calls := by
  induction calls generalizing g with
  | nil => rfl
  | cons c r ih =>
    have h1 : c.debugRun a g = c.run a g := by
      cases c with
      | set p => simp only [Call.debugRun, Call.run, C130_set_parameters]
      | event e =>
        cases e <;> try rfl
        simp only [Call.debugRun, Call.run, Event.call, solve_same a g _ _ _ hg]
        cases soPlexSolve a g _ _ _ <;> rfl
    have h2 : ∀ g', c.run a g = .ok g' → Dbl.le (.fin 0) g'.settings.timelimit = true := by
      intro g' h
      cases c with
      | set p =>
        obtain ⟨⟨s, ok⟩, h1, h⟩ := Outcome.bind_eq_ok.mp h
        have h := Outcome.ok.inj h
        rw [← h]
        exact set_timelimit ha 2 hg (hc p (by simp)) h1
      | event e =>
        obtain ⟨⟨g1, s⟩, h1, h⟩ := Outcome.bind_eq_ok.mp h
        have h := Outcome.ok.inj h
        rw [← h, event_timelimit h1]
        exact hg
    simp only [debugRunCalls, runCalls, h1]
    cases h3 : c.run a g with
    | ok g' =>
      simp only [Outcome.bind_ok]
      exact ih g' (h2 g' h3) (fun p hp => hc p (by simp [hp]))
    | error m => rfl
    | abort => rfl
    | ub => rfl

/-- A SoPlex that compares with ranges, as the real one does (external): a value is rejected if it is below the lower or above the
upper end. -/
def comparing : Accepts where
  real k x := !Dbl.lt x (if k = .timelimit then .fin 0 else .fin (-(10 ^ 100))) && !Dbl.lt (.fin (10 ^ 100)) x
  int _ _ := true

/-- A message with a time limit that is NaN. -/
def nanTimeLimit : LpParameters := { solverType := .soplex, timing := .wallclock, timeLimit := .nan }

/-- An answer of SoPlex. -/
def optimalAnswer : Answer := ⟨false, .optimal, .optimal, 3, 1, [.basic, .onUpper], [.fixed]⟩

/-- **C130** is violated by a time limit that is NaN: the message is accepted, the build without assertions then solves the LP, and
the build with assertions ends the process. -/
theorem C130_nan_time_limit_violated :
    ∃ g1 g2, Call.debugRun comparing solvedInterface (.set nanTimeLimit) = .ok g1 ∧ g1.settings.timelimit = .nan ∧
      runCalls comparing solvedInterface [.set nanTimeLimit, .event (.solve (1 / 10 ^ 6) false optimalAnswer)] = .ok g2 ∧
      isOptimal g2 = .ok true ∧
      debugRunCalls comparing solvedInterface [.set nanTimeLimit, .event (.solve (1 / 10 ^ 6) false optimalAnswer)] = .abort :=
  ⟨{ solvedInterface with settings := (assign comparing solvedInterface.settings nanTimeLimit).1 },
    { solvedInterface with
      settings := { (assign comparing solvedInterface.settings nanTimeLimit).1 with simplifier := false } },
    by decide +kernel, by decide +kernel, by decide +kernel, by decide +kernel, by decide +kernel⟩

/-- `comparing` and `solvedInterface` meet the hypotheses of `C130_history_partial`, with a history that sets a time limit, solves
and branches. -/
example : RejectsNegative comparing ∧ Dbl.le (.fin 0) solvedInterface.settings.timelimit = true ∧
    ∃ g', runCalls comparing solvedInterface
      [.set { nanTimeLimit with timeLimit := .fin 10 }, .event (.solve (1 / 10 ^ 6) false optimalAnswer),
        .event .startBranching] = .ok g' :=
  ⟨fun x h => by
    simp only [comparing, if_true, Bool.and_eq_true, Bool.not_eq_true'] at h
    exact h.1, by decide +kernel,
  { branchingInterface with settings :=
    { (assign comparing solvedInterface.settings { nanTimeLimit with timeLimit := .fin 10 }).1 with simplifier := false } },
  by decide +kernel⟩

end Soplex
end MiniMip
