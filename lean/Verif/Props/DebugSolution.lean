import Verif.Model.DebugSolution
import Verif.Props.DebugGlop
import Verif.Props.LpSolution

/-!
# Property C132: the solution getters of the LP interfaces
-/

namespace MiniMip
namespace Glop

/-- What lpi.h:331-359 requires of the caller: `IsOptimal()`, `HasPrimalRay()` or `HasDualRay()`. -/
def Getter.Allowed (q : Getter) (s : Session) : Prop :=
  match q with
  | .primalRay => s.status = .primalUnbounded
  | .dualRay => s.status = .dualUnbounded
  | _ => s.status = .optimal

/-- How many elements the getter has to return, for an LP with so many rows and columns. -/
def Getter.size (q : Getter) (rows cols : Nat) : Nat :=
  match q with
  | .objectiveValue => 1
  | .primalValues | .reducedCosts | .primalRay => cols
  | .dualValues | .rowActivities | .dualRay => rows

/-- The vectors are those of an LP with so many rows and columns. -/
structure Held.Sized (h : Held) (rows cols : Nat) : Prop where
  values : h.values.length = cols + rows
  reducedCosts : h.reducedCosts.length = cols + rows
  duals : h.duals.length = rows
  activities : h.activities.length = rows
  primalRay : h.primalRay.length = cols + rows
  dualRay : h.dualRay.length = rows

/-- The interface, what `solver_` holds, and the rows and columns of `scaled_lp_`. -/
structure Reader where
  debug : DebugSession
  held : Held
  scaled : Nat × Nat

/-- The LP of the interface. -/
def Reader.lp (r : Reader) : LinearProgram := r.debug.session.iface.lp

/-- One call in the debug build.  A solve copies the LP to `scaled_lp_` if it has been modified (lpi_glop.cc:549-552).  A
successful solve leaves the vectors of that LP, one that fails may leave the former ones; the solves of strong branching leave
those of `scaled_lp_`. -/
inductive Reader.Step : Reader → Reader → Prop
  | setParameters (r : Reader) (p : LpParameters) : Step r { r with debug := (r.debug.setLpParameters p).1 }
  | changeLp (r : Reader) (lp : LinearProgram) :
    Step r { r with debug := { r.debug with session := { r.debug.session with
      iface := { r.debug.session.iface with lp := lp, modified := true } } } }
  | solve (r : Reader) (useDual : Bool) (answers : Nat → Answer) (statuses : Nat → ProblemStatus) (limit : Bool)
      (d : DebugSession) (ok : Bool) (held : Held) (h : r.debug.solveLp useDual answers statuses limit = .ok (d, ok))
      (hh : (ok = false ∧ held = r.held) ∨ held.Sized r.lp.rows.length r.lp.cols.length) :
    Step r ⟨d, held, if r.debug.session.iface.modified then (r.lp.rows.length, r.lp.cols.length) else r.scaled⟩
  | branch (r : Reader) (col : Nat) (factor eps value : ℚ) (limit : Dbl) (down up : BranchSolve) (d : DebugSession)
      (result : BranchResult) (held : Held) (h : r.debug.strongBranch col factor eps value limit down up = .ok (d, result))
      (hh : held = r.held ∨ held.Sized r.scaled.1 r.scaled.2) : Step r ⟨d, held, r.scaled⟩

/-- Any number of calls. -/
inductive Reader.Steps : Reader → Reader → Prop
  | none (r : Reader) : Steps r r
  | more {r s t : Reader} (h : Steps r s) (h' : Reader.Step s t) : Steps r t

theorem debugSolveInternal_keeps (fuel : Nat) (recursive : Bool) (g : Interface) (answers : Nat → Answer)
    (statuses : Nat → ProblemStatus) (g' : Interface) (ok : Bool) (last : Int × ProblemStatus)
    (h : debugSolveInternal fuel recursive g answers statuses = .ok (g', ok, last)) :
    g'.lp = g.lp ∧ (ok = false → g'.modified = g.modified ∨ g'.modified = true) := by
  induction fuel generalizing recursive g answers statuses g' ok last with
  | zero => cases h; exact ⟨rfl, fun _ => .inl rfl⟩
  | succ fuel ih =>
    rw [debugSolveInternal] at h
    dsimp only at h
    generalize hg0 : (if recursive = true then g else
      { g with numIterations := 0, timeLimitReached := false } : Interface) = g0 at h
    have hlp : g0.lp = g.lp := by rw [← hg0]; split <;> rfl
    have hmod : g0.modified = g.modified := by rw [← hg0]; split <;> rfl
    clear hg0
    by_cases hok : (answers 0).ok = true
    · simp only [hok, Bool.not_true, Bool.false_eq_true, if_false] at h
      by_cases hc : ((answers 0).feasible && g0.useScaling) = true
      · rw [if_pos hc] at h
        simp only [Outcome.bind_eq_ok] at h
        obtain ⟨-, -, h⟩ := h
        by_cases hl : (answers 0).lpFeasible = true
        · simp only [hl, Bool.not_true, Bool.false_eq_true, if_false, Outcome.pure_eq, Outcome.ok.injEq, Prod.mk.injEq] at h
          obtain ⟨rfl, rfl, -⟩ := h
          exact ⟨hlp, by simp⟩
        · simp only [hl, Bool.not_false, if_true, Outcome.bind_eq_ok] at h
          obtain ⟨⟨g1, ok1, last1⟩, h1, h⟩ := h
          obtain ⟨k1, k2⟩ := ih _ _ _ _ _ _ _ h1
          cases ok1 with
          | false =>
            simp only [Bool.not_false, if_true, Outcome.pure_eq, Outcome.ok.injEq, Prod.mk.injEq] at h
            obtain ⟨rfl, rfl, -⟩ := h
            refine ⟨k1.trans hlp, fun _ => .inr ?_⟩
            rcases k2 rfl with k | k <;> exact k
          | true =>
            simp only [Bool.not_true, Bool.false_eq_true, if_false, Outcome.pure_eq, Outcome.ok.injEq, Prod.mk.injEq] at h
            obtain ⟨rfl, rfl, -⟩ := h
            exact ⟨k1.trans hlp, by simp⟩
      · rw [if_neg hc] at h
        simp only [Outcome.ok.injEq, Prod.mk.injEq] at h
        obtain ⟨rfl, rfl, -⟩ := h
        exact ⟨hlp, by simp⟩
    · simp only [hok, Bool.not_false, if_true, Outcome.ok.injEq, Prod.mk.injEq] at h
      obtain ⟨rfl, rfl, -⟩ := h
      exact ⟨hlp, fun _ => .inl hmod⟩

/-- While the interface counts as solved, `solver_` holds the vectors of its LP. -/
def Reader.Fits (r : Reader) : Prop :=
  r.debug.session.isSolved = true → r.scaled = (r.lp.rows.length, r.lp.cols.length) ∧ r.held.Sized r.lp.rows.length r.lp.cols.length

theorem strongBranch_iface {s s' : Session} {col : Nat} {factor eps value : ℚ} {limit : Dbl} {down up : BranchSolve}
    {r : BranchResult} (h : strongBranch s col factor eps value limit down up = .ok (s', r)) :
    s'.iface.lp = s.iface.lp ∧ s'.iface.modified = s.iface.modified := by
  unfold strongBranch at h
  cases hb : s.scaledBounds[col]? with
  | none => rw [hb] at h; cases h
  | some b =>
    rw [hb] at h
    obtain ⟨lower, upper⟩ := b
    simp only at h
    cases h
    split_ifs <;> exact ⟨rfl, rfl⟩

theorem Reader.Step.fits {r s : Reader} (h : Reader.Step r s) (hr : r.Fits) : s.Fits := by
  cases h with
  | setParameters p => exact hr
  | changeLp lp => intro hs; cases hs
  | solve useDual answers statuses limit d ok held h hh =>
    intro hs
    simp only [DebugSession.solveLp, Outcome.bind_eq_ok] at h
    obtain ⟨⟨g', ok', last⟩, h1, h⟩ := h
    obtain ⟨k1, k2⟩ := debugSolveInternal_keeps _ _ _ _ _ _ _ _ h1
    cases h
    have hm' : g'.modified = false := by simpa [Session.isSolved] using hs
    simp only [Reader.lp, k1]
    cases hm : r.debug.session.iface.modified with
    | false =>
      obtain ⟨f1, f2⟩ := hr (by simp [Session.isSolved, hm])
      refine ⟨by simpa [Reader.lp] using f1, ?_⟩
      rcases hh with ⟨-, rfl⟩ | hh
      · exact f2
      · exact hh
    | true =>
      refine ⟨by simp, ?_⟩
      rcases hh with ⟨hok, -⟩ | hh
      · rcases k2 hok with k | k
        · rw [hm', hm] at k; cases k
        · rw [hm'] at k; cases k
      · exact hh
  | branch col factor eps value limit down up d result held h hh =>
    intro hs
    simp only [DebugSession.strongBranch, Outcome.bind_eq_ok] at h
    obtain ⟨⟨s', r'⟩, h1, h⟩ := h
    obtain ⟨k1, k2⟩ := strongBranch_iface h1
    cases h
    have hm : r.debug.session.isSolved = true := by
      have : (!s'.iface.modified) = true := hs
      rw [k2] at this; exact this
    obtain ⟨f1, f2⟩ := hr hm
    simp only [Reader.lp, k1]
    refine ⟨f1, ?_⟩
    rcases hh with rfl | hh
    · exact f2
    · rw [f1] at hh; exact hh

theorem firstN_ok {α : Type} {l : List α} {n : Nat} (h : n ≤ l.length) : ∃ v, firstN l n = .ok v ∧ v.length = n :=
  ⟨l.take n, by simp [firstN, Nat.not_lt.mpr h], by simp [h]⟩

/-- **C132**, partial (Glop): missing are calls after a modification of the LP (`C132_stale_violated`) and after reading a file
(`C132_read_violated`).  After the constructor and any sequence of changes of parameters, changes of the LP, solves and strong
branching, while `IsSolved()`: a getter whose documented condition holds raises no assertion and returns a vector with an
element per column or row of the LP, the same as without assertions; every other getter fails an assertion. -/
theorem C132_history_partial (usertime : Bool) (settings : Settings) (held : Held) (scaled : Nat × Nat) (r : Reader)
    (h : Reader.Steps ⟨DebugSession.construct usertime settings, held, scaled⟩ r)
    (hs : r.debug.session.isSolved = true) (q : Getter) :
    (q.Allowed r.debug.session → ∃ v, r.debug.session.debugGet r.held q = .ok v ∧ r.debug.session.get r.held q = .ok v ∧
      v.length = q.size r.lp.rows.length r.lp.cols.length) ∧
    (¬ q.Allowed r.debug.session → r.debug.session.debugGet r.held q = .abort) := by
  have hf : r.Fits := by
    clear hs q
    generalize hr0 : Reader.mk (DebugSession.construct usertime settings) held scaled = r0 at h
    induction h with
    | none => subst hr0; intro hs'; cases hs'
    | more _ h' ih => exact h'.fits ih
  obtain ⟨-, hz⟩ := hf hs
  refine ⟨fun ha => ?_, fun ha => ?_⟩
  · cases q <;> simp only [Getter.Allowed] at ha <;>
      simp only [Session.debugGet, Session.isOptimal, Session.isPrimalUnbounded, Session.isDualUnbounded, ha, decide_true,
        Outcome.check, if_true, Outcome.bind_ok, Session.get, Getter.size]
    · exact ⟨_, rfl, rfl, rfl⟩
    · obtain ⟨v, h1, h2⟩ := firstN_ok (l := r.held.values) (n := r.lp.cols.length) (by rw [hz.values]; omega)
      exact ⟨v, h1, h1, h2⟩
    · obtain ⟨v, h1, h2⟩ := firstN_ok (l := r.held.duals) (n := r.lp.rows.length) (by rw [hz.duals])
      exact ⟨v, h1, h1, h2⟩
    · obtain ⟨v, h1, h2⟩ := firstN_ok (l := r.held.reducedCosts) (n := r.lp.cols.length) (by rw [hz.reducedCosts]; omega)
      exact ⟨v, h1, h1, h2⟩
    · obtain ⟨v, h1, h2⟩ := firstN_ok (l := r.held.activities) (n := r.lp.rows.length) (by rw [hz.activities])
      exact ⟨v, h1, h1, h2⟩
    · obtain ⟨v, h1, h2⟩ := firstN_ok (l := r.held.primalRay) (n := r.lp.cols.length) (by rw [hz.primalRay]; omega)
      simp only [Reader.lp] at h1
      exact ⟨v.map (-·), by rw [h1]; rfl, by rw [h1]; rfl, by simpa using h2⟩
    · obtain ⟨v, h1, h2⟩ := firstN_ok (l := r.held.dualRay) (n := r.lp.rows.length) (by rw [hz.dualRay])
      simp only [Reader.lp] at h1
      exact ⟨v.map (-·), by rw [h1]; rfl, by rw [h1]; rfl, by simpa using h2⟩
  · cases q <;> simp only [Getter.Allowed] at ha <;>
      simp [Session.debugGet, Session.isOptimal, Session.isPrimalUnbounded, Session.isDualUnbounded, ha, Outcome.check]

/-- After an optimal solve and `AddColumn`, `IsOptimal()` still holds, so that `GetPrimalValues` may be called and its
assertion passes: it returns, as the value of the new column, that of the slack of the first row; in an LP without rows it
reads behind the end. -/
theorem C132_stale_violated (s : Session) (ho : s.status = .optimal) (h : Held)
    (hz : h.Sized s.iface.lp.rows.length s.iface.lp.cols.length) (col : SparseVector) (lower upper : Dbl) (objective : ℚ)
    (name : String) :
    let s' := { s with iface := addColumn s.iface col lower upper objective name }
    s'.isOptimal = true ∧ s'.isSolved = false ∧
    (s.iface.lp.rows ≠ [] → ∃ v slack, s'.debugGet h .primalValues = .ok v ∧ v.length = s.iface.lp.cols.length + 1 ∧
      h.values[s.iface.lp.cols.length]? = some slack ∧ v[s.iface.lp.cols.length]? = some slack) ∧
    (s.iface.lp.rows = [] → s'.debugGet h .primalValues = .ub) := by
  have hlen : (addColumn s.iface col lower upper objective name).lp.cols.length = s.iface.lp.cols.length + 1 := by
    simp [addColumn]
  refine ⟨by simp [Session.isOptimal, ho], rfl, fun hr => ?_, fun hr => ?_⟩
  · have h0 : 0 < s.iface.lp.rows.length := List.length_pos_of_ne_nil hr
    have h1 : s.iface.lp.cols.length < h.values.length := by rw [hz.values]; omega
    refine ⟨h.values.take (s.iface.lp.cols.length + 1), h.values[s.iface.lp.cols.length], ?_, ?_,
      List.getElem?_eq_getElem h1, ?_⟩
    · simp only [Session.debugGet, Session.isOptimal, ho, decide_true, Outcome.check, if_true, Outcome.bind_ok, Session.get, hlen,
        firstN, if_neg (show ¬ h.values.length < s.iface.lp.cols.length + 1 by omega)]
    · simp; omega
    · rw [List.getElem?_take_of_lt (by omega), List.getElem?_eq_getElem h1]
  · have h1 : h.values.length < s.iface.lp.cols.length + 1 := by rw [hz.values, hr]; simp
    simp only [Session.debugGet, Session.isOptimal, ho, decide_true, Outcome.check, if_true, Outcome.bind_ok, Session.get, hlen,
      firstN, if_pos h1]

/-- After an optimal solve and reading a file with more columns than the former LP had columns and rows, `IsOptimal()` and even
`IsSolved()` still hold, and `GetPrimalValues` reads behind the end. -/
theorem C132_read_violated (s : Session) (ho : s.status = .optimal) (hs : s.isSolved = true) (h : Held)
    (hz : h.Sized s.iface.lp.rows.length s.iface.lp.cols.length) (lp : LinearProgram)
    (hl : s.iface.lp.cols.length + s.iface.lp.rows.length < lp.cols.length) :
    let s' := { s with iface := (readLpFromFile s.iface (some lp)).1 }
    (readLpFromFile s.iface (some lp)).2 = true ∧ s'.isOptimal = true ∧ s'.isSolved = true ∧
      s'.debugGet h .primalValues = .ub := by
  have h1 : h.values.length < lp.cols.length := by rw [hz.values]; exact hl
  refine ⟨rfl, by simp [Session.isOptimal, ho], hs, ?_⟩
  simp only [Session.debugGet, Session.isOptimal, ho, decide_true, Outcome.check, if_true, Outcome.bind_ok, Session.get,
    readLpFromFile, firstN]
  exact if_pos h1

/-! The hypotheses are met: an LP with a column and a row is solved to optimality. -/

/-- An LP with one column and one row. -/
def oneByOne : LinearProgram := { cols := [⟨.fin 0, .fin 1, 1, "x", [⟨0, 1⟩]⟩], rows := [⟨.fin 0, .fin 1, "r"⟩] }

/-- What the solver holds. -/
def oneHeld : Held := ⟨0, [0, 0], [1, 0], [0], [0], [0, 0], [0]⟩

theorem oneHeld_sized : oneHeld.Sized oneByOne.rows.length oneByOne.cols.length := ⟨rfl, rfl, rfl, rfl, rfl, rfl⟩

/-- The session after the solve. -/
def oneSolved (usertime : Bool) (settings : Settings) : DebugSession :=
  let d := DebugSession.construct usertime settings
  { d with
    session := { d.session with
      iface := { d.session.iface with lp := oneByOne, modified := false, numIterations := 3 }
      status := .optimal, useDualSimplex := true }
    solverIterations := 3 }

example (usertime : Bool) (settings : Settings) : ∃ r, Reader.Steps ⟨DebugSession.construct usertime settings, oneHeld, (0, 0)⟩ r ∧
    r.debug.session.isSolved = true ∧ Getter.primalValues.Allowed r.debug.session ∧ r.lp = oneByOne := by
  refine ⟨⟨oneSolved usertime settings, oneHeld, (1, 1)⟩, ?_, rfl, rfl, rfl⟩
  refine .more (.more (.none _) (.changeLp _ oneByOne)) (.solve _ true (fun _ => ⟨true, true, true, false, 3, []⟩)
    (fun _ => .optimal) false _ true oneHeld ?_ (.inr oneHeld_sized))
  simp [DebugSession.solveLp, debugSolveInternal, Outcome.check, Outcome.pure_eq, oneSolved, DebugSession.construct]

example (usertime : Bool) (settings : Settings) : (oneSolved usertime settings).session.status = .optimal ∧
    (oneSolved usertime settings).session.isSolved = true ∧
    oneHeld.Sized (oneSolved usertime settings).session.iface.lp.rows.length
      (oneSolved usertime settings).session.iface.lp.cols.length :=
  ⟨rfl, rfl, oneHeld_sized⟩

end Glop

namespace Soplex

/-- In the SoPlex interface `GetRowActivities` and `GetReducedCosts` have no check: in every state that is not optimal, they
return what SoPlex has, where `GetPrimalValues` and `GetDualValues` end the process and Glop fails an assertion. -/
theorem C132_unchecked_violated (g : Interface) (ho : g.status ≠ .optimal) (x : Nat → ℚ) :
    (∃ v, getRowActivities g (some x) = .ok v) ∧ (∃ v, getReducedCosts g (some x) = .ok v) ∧
      getPrimalValues g (some x) = .abort ∧ getDualValues g (some x) = .abort :=
  ⟨⟨_, rfl⟩, ⟨_, rfl⟩, (C82_not_optimal g ho (some x)).1, (C82_not_optimal g ho (some x)).2⟩

end Soplex
end MiniMip
