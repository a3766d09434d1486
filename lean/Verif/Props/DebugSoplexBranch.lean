import Verif.Model.DebugSoplexBranch
import Verif.Model.DebugPopulate
import Verif.Props.SoplexSolve

/-!
# Property C129: strong branching of the SoPlex interface in the build with assertions
-/

namespace MiniMip
namespace Soplex

open Glop (LinearProgram Column Row NewRow)

theorem restore_eq {g : Interface} (hr : g.savedRows.length = g.lp.rows.length)
    (hs : g.savedCols.length = g.lp.cols.length) : debugRestoreBasis g = .ok (restoreBasis g) := by
  simp [debugRestoreBasis, hr, hs, Outcome.check]

theorem checkBranchColumn_change (g : Interface) {col : Nat} (h : col < g.lp.cols.length) (l u : Dbl) :
    checkBranchColumn (changeBounds g col l u) col = Outcome.check (Dbl.le l u) := by
  simp [checkBranchColumn, column, changeBounds, h, List.getElem?_modify, show ¬ (col : Int) < 0 by omega]

theorem debugSolveBranch_eq (a : Accepts) (g : Interface) (col : Nat) (c : Column)
    (hc : g.lp.cols[col]? = some c) (hf : freed g = false) (hr : g.savedRows.length = g.lp.rows.length)
    (hs : g.savedCols.length = g.lp.cols.length) (hb : Dbl.le c.lower c.upper = true) (new : Dbl × Dbl) (n : Int)
    (b : BranchAnswer) :
    debugSolveBranch a g col (c.lower, c.upper) new n b =
      if Dbl.le new.1 new.2 then solveBranch a g col (c.lower, c.upper) new n b else .abort := by
  have hlt : col < g.lp.cols.length := (List.getElem?_eq_some_iff.1 hc).1
  have h2 := setIterLimit_same a (changeBounds g col new.1 new.2) n
  unfold debugSolveBranch solveBranch
  dsimp only
  rw [checkBranchColumn_change g hlt]
  set g2 := setIterLimit a (changeBounds g col new.1 new.2) n with hg2
  have hf2 : freed { g2 with
      status := b.status, basisStatus := b.basisStatus, colStatus := b.colStatus,
      rowStatus := b.rowStatus } = false := by
    have : freed g2 = freed (changeBounds g col new.1 new.2) := h2.freed
    exact this.trans hf
  have hrows : g2.lp.rows.length = g.lp.rows.length := by rw [h2.lp]; rfl
  have hcols : g2.lp.cols.length = g.lp.cols.length := by rw [h2.lp]; simp [changeBounds]
  have hsr : g2.savedRows = g.savedRows := h2.savedRows
  have hsc : g2.savedCols = g.savedCols := h2.savedCols
  rw [hf2, restore_eq (by simpa [hsr, hrows] using hr) (by simpa [hsc, hcols] using hs)]
  cases Dbl.le new.1 new.2 with
  | false => rfl
  | true =>
    simp only [Outcome.check, if_true, Bool.not_false, Outcome.bind_ok]
    rw [checkBranchColumn_change _ (by simpa [restoreBasis, hcols] using hlt)]
    simp [hb, Outcome.check]

/-- **C129**, one call: in a session, for a column whose bounds do not cross, the call raises an assertion exactly if one of the
problems that the build without assertions solves has crossing bounds; otherwise both builds do the same. -/
theorem C129_call (a : Accepts) (g : Interface) (col : Nat) (lower upper : Dbl)
    (hlo : getLowerBound g col = .ok lower) (hup : getUpperBound g col = .ok upper) (hb : Dbl.le lower upper = true)
    (hf : freed g = false) (hr : (g.savedRows.length : Int) = getNumberOfRows g)
    (hs : (g.savedCols.length : Int) = getNumberOfColumns g) (v eps : ℚ) (n : Int) (down up : BranchAnswer) :
    ∃ g' r problems, solveDownAndUpStrongBranch a g col v eps n down up = .ok (g', r, problems) ∧
      ((∀ p ∈ problems, Dbl.le p.1 p.2 = true) →
        debugDownAndUp a g col v eps n down up = .ok (g', r, problems)) ∧
      (¬ (∀ p ∈ problems, Dbl.le p.1 p.2 = true) → debugDownAndUp a g col v eps n down up = .abort) := by
  obtain ⟨c, hc, hcl⟩ : ∃ c, g.lp.cols[col]? = some c ∧ c.lower = lower := by
    simp only [getLowerBound, column, Int.toNat_natCast] at hlo
    rw [if_neg (by omega)] at hlo
    cases hc : g.lp.cols[col]? with
    | none => simp [hc] at hlo
    | some c => exact ⟨c, rfl, by simpa [hc] using hlo⟩
  have hcu : c.upper = upper := by
    simpa [getUpperBound, column, hc, show ¬ (col : Int) < 0 by omega] using hup
  subst hcl hcu
  have hr : g.savedRows.length = g.lp.rows.length := by simpa [getNumberOfRows] using hr
  have hs : g.savedCols.length = g.lp.cols.length := by simpa [getNumberOfColumns] using hs
  have hcol : column g (col : Int) = .ok c := by
    simp [column, hc, show ¬ (col : Int) < 0 by omega]
  have key := fun new b => debugSolveBranch_eq a g col c hc hf hr hs hb new n b
  unfold solveDownAndUpStrongBranch debugDownAndUp
  simp only [hcol, Outcome.bind_ok]
  by_cases hd : Dbl.le (Dbl.sub c.lower (.fin (1 / 2))) (.fin (downBranchBound v eps)) = true
  · obtain ⟨g1, h1, hs1⟩ := solveBranch_ok a g col c hc hf (c.lower, .fin (downBranchBound v eps)) n down
    simp only [hd, if_true, h1, Outcome.bind_ok, key]
    have key1 := fun new b => debugSolveBranch_eq a g1 col c (by rw [hs1.lp]; exact hc) (by rw [hs1.freed]; exact hf)
      (by rw [hs1.savedRows, hs1.lp]; exact hr) (by rw [hs1.savedCols, hs1.lp]; exact hs) hb new n b
    cases hx : branchBound (objectiveLimit g) down with
    | none =>
      refine ⟨_, _, _, rfl, fun h => ?_, fun h => ?_⟩
      · simp only [List.forall_mem_singleton] at h
        simp [h]
      · simp only [List.forall_mem_singleton] at h
        simp [h]
    | some d =>
      simp only [Option.map_some]
      by_cases hu : Dbl.le (.fin (upBranchBound v eps)) (Dbl.add c.upper (.fin (1 / 2))) = true
      · obtain ⟨g2, h2, -⟩ := solveBranch_ok a g1 col c (by rw [hs1.lp]; exact hc)
          (by rw [hs1.freed]; exact hf) (.fin (upBranchBound v eps), c.upper) n up
        simp only [hu, if_true, h2, Outcome.bind_ok]
        refine ⟨_, _, _, rfl, ?_, ?_⟩ <;>
          cases e1 : Dbl.le c.lower (.fin (downBranchBound v eps)) <;>
          cases e2 : Dbl.le (.fin (upBranchBound v eps)) c.upper <;>
          simp [e1, e2, key1, h2]
      · simp only [Bool.not_eq_true] at hu
        simp only [hu, Bool.false_eq_true, if_false]
        refine ⟨_, _, _, rfl, ?_, ?_⟩ <;>
          cases e1 : Dbl.le c.lower (.fin (downBranchBound v eps)) <;> simp [e1]
  · simp only [Bool.not_eq_true] at hd
    simp only [hd, Bool.false_eq_true, if_false]
    by_cases hu : Dbl.le (.fin (upBranchBound v eps)) (Dbl.add c.upper (.fin (1 / 2))) = true
    · obtain ⟨g2, h2, hs2⟩ := solveBranch_ok a g col c hc hf (.fin (upBranchBound v eps), c.upper) n up
      simp only [hu, if_true, h2, Outcome.bind_ok, key]
      refine ⟨_, _, _, rfl, ?_, ?_⟩ <;>
        cases e2 : Dbl.le (.fin (upBranchBound v eps)) c.upper <;> simp [e2]
    · simp only [Bool.not_eq_true] at hu
      simp only [hu, Bool.false_eq_true, if_false]
      exact ⟨_, _, _, rfl, fun _ => rfl, fun h => absurd (by simp) h⟩

/-- The bounds of a column: each is an integer or infinite, and they do not cross. -/
def IntegralBounds (lower upper : Dbl) : Prop :=
  (lower = .ninf ∨ ∃ k : ℤ, lower = .fin k) ∧ (upper = .pinf ∨ ∃ k : ℤ, upper = .fin k) ∧ Dbl.le lower upper = true

theorem lower_le {lower : Dbl} (h : lower = .ninf ∨ ∃ k : ℤ, lower = .fin k) (m : ℤ)
    (hm : Dbl.le (Dbl.sub lower (.fin (1 / 2))) (.fin (m : ℚ)) = true) : Dbl.le lower (.fin (m : ℚ)) = true := by
  rcases h with rfl | ⟨k, rfl⟩
  · rfl
  · simp only [Dbl.le, Dbl.sub, Dbl.add, Dbl.neg, decide_eq_true_eq] at hm ⊢
    have h1 : (k : ℚ) < m + 1 := by linarith
    have h2 : k < m + 1 := by exact_mod_cast h1
    have h3 : k ≤ m := by omega
    exact_mod_cast h3

theorem le_upper {upper : Dbl} (h : upper = .pinf ∨ ∃ k : ℤ, upper = .fin k) (m : ℤ)
    (hm : Dbl.le (.fin (m : ℚ)) (Dbl.add upper (.fin (1 / 2))) = true) : Dbl.le (.fin (m : ℚ)) upper = true := by
  rcases h with rfl | ⟨k, rfl⟩
  · rfl
  · simp only [Dbl.le, Dbl.add, decide_eq_true_eq] at hm ⊢
    have h1 : (m : ℚ) < k + 1 := by linarith
    have h2 : m < k + 1 := by exact_mod_cast h1
    have h3 : m ≤ k := by omega
    exact_mod_cast h3

/-- The problems of a call on a column with integral bounds do not cross, whether the call returns OK or not. -/
theorem problems_fit (a : Accepts) (g : Interface) (col : Nat) (c : Column) (hc : g.lp.cols[col]? = some c)
    (hi : IntegralBounds c.lower c.upper) (v eps : ℚ) (n : Int) (down up : BranchAnswer) {g' r problems}
    (h : solveDownAndUpStrongBranch a g col v eps n down up = .ok (g', r, problems)) :
    ∀ p ∈ problems, Dbl.le p.1 p.2 = true := by
  have h1 := lower_le hi.1 ⌈v - 1 - eps⌉
  have h2 := le_upper hi.2.1 ⌊v + 1 - eps⌋
  have hcol : column g (col : Int) = .ok c := by
    simp [column, hc, show ¬ (col : Int) < 0 by omega]
  unfold solveDownAndUpStrongBranch at h
  simp only [hcol, Outcome.bind_ok] at h
  rw [show ((⌈v - 1 - eps⌉ : ℤ) : ℚ) = downBranchBound v eps from rfl] at h1
  rw [show ((⌊v + 1 - eps⌋ : ℤ) : ℚ) = upBranchBound v eps from rfl] at h2
  split at h
  · rename_i hd
    obtain ⟨g1, -, h⟩ := Outcome.bind_eq_ok.1 h
    split at h
    · simp only [Outcome.pure_eq, Outcome.ok.injEq, Prod.mk.injEq] at h
      rw [← h.2.2]
      simpa using h1 hd
    · split at h
      · rename_i hu
        obtain ⟨g2, -, h⟩ := Outcome.bind_eq_ok.1 h
        simp only [Outcome.pure_eq, Outcome.ok.injEq, Prod.mk.injEq] at h
        rw [← h.2.2]
        simpa using ⟨h1 hd, h2 hu⟩
      · simp only [Outcome.pure_eq, Outcome.ok.injEq, Prod.mk.injEq] at h
        rw [← h.2.2]
        simpa using h1 hd
  · split at h
    · rename_i hu
      obtain ⟨g2, -, h⟩ := Outcome.bind_eq_ok.1 h
      simp only [Outcome.pure_eq, Outcome.ok.injEq, Prod.mk.injEq] at h
      rw [← h.2.2]
      simpa using h2 hu
    · simp only [Outcome.pure_eq, Outcome.ok.injEq, Prod.mk.injEq] at h
      rw [← h.2.2]
      simp

/-- The calls in the build with assertions, whatever they return. -/
def debugRunBranchings (a : Accepts) : Interface → List BranchCall → Outcome Interface
  | g, [] => .ok g
  | g, c :: r => do
    let (g, _) ← debugDownAndUp a g c.col c.value c.eps c.iterationLimit c.down c.up
    debugRunBranchings a g r

/-- `StartStrongBranching`, the calls, `EndStrongBranching`, in the build with assertions. -/
def debugSession (a : Accepts) (g : Interface) (calls : List BranchCall) : Outcome Interface := do
  let g ← startStrongBranching g
  let g ← debugRunBranchings a g calls
  debugEndStrongBranching g

theorem debugRunBranchings_eq (a : Accepts) (g : Interface) (calls : List BranchCall)
    (hc : ∀ c ∈ calls, ∃ lower upper, getLowerBound g c.col = .ok lower ∧ getUpperBound g c.col = .ok upper ∧
      IntegralBounds lower upper)
    (hf : freed g = false) (hr : (g.savedRows.length : Int) = getNumberOfRows g)
    (hs : (g.savedCols.length : Int) = getNumberOfColumns g) :
    ∃ g', debugRunBranchings a g calls = .ok g' ∧ runBranchings a g calls = .ok g' ∧ Same g g' := by
  induction calls generalizing g with
  | nil => exact ⟨g, rfl, rfl, Same.refl g⟩
  | cons b r ih =>
    obtain ⟨lower, upper, hl, hu, hi⟩ := hc b (by simp)
    obtain ⟨c, hcc, hcl⟩ : ∃ c, g.lp.cols[b.col]? = some c ∧ c.lower = lower := by
      simp only [getLowerBound, column, Int.toNat_natCast] at hl
      rw [if_neg (by omega)] at hl
      cases hc : g.lp.cols[b.col]? with
      | none => simp [hc] at hl
      | some c => exact ⟨c, rfl, by simpa [hc] using hl⟩
    have hcu : c.upper = upper := by
      simpa [getUpperBound, column, hcc, show ¬ (b.col : Int) < 0 by omega] using hu
    obtain ⟨g1, x, p, h1, h2, -⟩ := C129_call a g b.col lower upper hl hu hi.2.2 hf hr hs b.value b.eps b.iterationLimit
      b.down b.up
    have h3 := h2 (problems_fit a g b.col c hcc (by rw [hcl, hcu]; exact hi) _ _ _ _ _ h1)
    obtain ⟨g1', x', p', h4, h5, -⟩ := branch_ok a g b.col c hcc hf b.value b.eps b.iterationLimit b.down b.up
    rw [h1] at h4
    have h4 := Outcome.ok.inj h4
    simp only [Prod.mk.injEq] at h4
    obtain ⟨rfl, rfl, rfl⟩ := h4
    obtain ⟨g2, h6, h7, h8⟩ := ih g1
      (fun d hd => by
        have := hc d (by simp [hd])
        simpa [getLowerBound, getUpperBound, column, h5.lp] using this)
      (by rw [h5.freed]; exact hf) (by simpa [getNumberOfRows, h5.lp, h5.savedRows] using hr)
      (by simpa [getNumberOfColumns, h5.lp, h5.savedCols] using hs)
    exact ⟨g2, by simp [debugRunBranchings, h3, h6], by simp [runBranchings, h1, h7], h5.trans h8⟩

/-- **C129**, sessions, partial: what is missing are columns with a fractional bound (`C129_fractional_bound_violated`), columns
out of range (`C129_column_violated`), rows added meanwhile (`C129_add_row_violated`) and the empty LP
(`C67_empty_lp_violated`).  A session on columns with integral or infinite bounds raises no assertion, whatever SoPlex answers,
and leaves the interface that it leaves without assertions. -/
theorem C129_session_partial (a : Accepts) (g : Interface) (hf : freed g = true)
    (hne : 0 < getNumberOfRows g ∨ 0 < getNumberOfColumns g) (calls : List BranchCall)
    (hc : ∀ c ∈ calls, ∃ lower upper, getLowerBound g c.col = .ok lower ∧ getUpperBound g c.col = .ok upper ∧
      IntegralBounds lower upper) :
    ∃ g', debugSession a g calls = .ok g' ∧ session a g calls = .ok g' ∧ g'.lp = g.lp ∧ freed g' = true := by
  obtain ⟨g0, h0, hlp, hr0, hs0⟩ : ∃ g0, startStrongBranching g = .ok g0 ∧ g0.lp = g.lp ∧
      g0.savedRows.length = g.lp.rows.length ∧ g0.savedCols.length = g.lp.cols.length := by
    by_cases hb : g.colStatus.length = g.lp.cols.length ∧ g.rowStatus.length = g.lp.rows.length
    · exact ⟨{ g with savedRows := g.rowStatus, savedCols := g.colStatus },
        by simp [startStrongBranching, hf, Outcome.check, hb], rfl, hb.2, hb.1⟩
    · exact ⟨{ g with savedRows := List.replicate g.lp.rows.length .basic, savedCols := g.lp.cols.map slackBasisStatus },
        by simp only [startStrongBranching, hf, Outcome.check, if_true, Outcome.bind_ok, if_neg hb, Outcome.pure_eq],
        rfl, by simp, by simp⟩
  have hf0 : freed g0 = false := by
    simp only [getNumberOfRows, getNumberOfColumns] at hne
    simp only [freed, Bool.and_eq_false_iff, List.isEmpty_eq_false_iff, ← List.length_pos_iff]
    omega
  obtain ⟨g1, h1, h2, h3⟩ := debugRunBranchings_eq a g0 calls
    (by simpa [getLowerBound, getUpperBound, column, hlp] using hc) hf0 (by simp [getNumberOfRows, hlp, hr0])
    (by simp [getNumberOfColumns, hlp, hs0])
  have hf1 : freed g1 = false := by rw [h3.freed]; exact hf0
  have h4 : debugRestoreBasis g1 = .ok (restoreBasis g1) :=
    restore_eq (by rw [h3.savedRows, h3.lp, hlp, hr0]) (by rw [h3.savedCols, h3.lp, hlp, hs0])
  refine ⟨{ restoreBasis g1 with savedRows := [], savedCols := [] }, ?_, ?_, h3.lp.trans hlp, rfl⟩
  · simp [debugSession, h0, h1, debugEndStrongBranching, hf1, Outcome.check, h4]
  · simp [session, h0, h2, endStrongBranching, hf1, Outcome.check]

/-- **C129** is violated by a column with a fractional bound: for a column with lower bound 1/2 and the value 3/4, which lies between
the bounds, the call raises an assertion. -/
theorem C129_fractional_bound_violated (a : Accepts) (g : Interface) (col : Nat) (upper : Dbl)
    (hlo : getLowerBound g col = .ok (.fin (1 / 2))) (hup : getUpperBound g col = .ok upper)
    (hb : Dbl.le (.fin (3 / 4)) upper = true) (n : Int) (down up : BranchAnswer) :
    debugDownAndUp a g col (3 / 4) (1 / 10 ^ 6) n down up = .abort := by
  have hd : downBranchBound (3 / 4) (1 / 10 ^ 6) = 0 := by
    norm_num [downBranchBound, Int.ceil_eq_iff]
  cases hc : column g (col : Int) with
  | ok c =>
    have h1 : c.lower = .fin (1 / 2) := by simpa [getLowerBound, hc] using hlo
    have hlt : col < g.lp.cols.length := by
      by_contra hn
      simp [column, show ¬ (col : Int) < 0 by omega, List.getElem?_eq_none (not_lt.1 hn)] at hc
    unfold debugDownAndUp debugSolveBranch
    simp only [hc, Outcome.bind_ok, hd, h1, checkBranchColumn_change g hlt]
    norm_num [Dbl.le, Dbl.sub, Dbl.add, Dbl.neg, Outcome.check]
  | error m => simp [getLowerBound, hc] at hlo
  | abort => simp [getLowerBound, hc] at hlo
  | ub => simp [getLowerBound, hc] at hlo

/-- **C129** is violated by a column out of range: there is no assertion, and the behaviour is undefined. -/
theorem C129_column_violated (a : Accepts) (g : Interface) (col : Nat) (hcol : getNumberOfColumns g ≤ col) (v eps : ℚ) (n : Int)
    (down up : BranchAnswer) : debugDownAndUp a g col v eps n down up = .ub := by
  have h : g.lp.cols.length ≤ col := by simpa [getNumberOfColumns] using hcol
  simp [debugDownAndUp, column, show ¬ (col : Int) < 0 by omega, List.getElem?_eq_none h]

/-- **C129** is violated by `AddRow` in a session: the call raises no assertion, but `EndStrongBranching` then does. -/
theorem C129_add_row_violated (inf : ℚ) (g : Interface) (hf : freed g = false)
    (hr : (g.savedRows.length : Int) = getNumberOfRows g) (lhs rhs : Dbl) :
    ∃ g', debugAddRow inf g { row := {}, lhs := lhs, rhs := rhs, name := "" } = .ok g' ∧
      debugEndStrongBranching g' = .abort := by
  have hr : g.savedRows.length = g.lp.rows.length := by simpa [getNumberOfRows] using hr
  refine ⟨{ g with isSolved := false, lp := { g.lp with rows := g.lp.rows ++ [⟨lhs, rhs, ""⟩] } }, rfl, ?_⟩
  have hf' : freed { g with isSolved := false, lp := { g.lp with rows := g.lp.rows ++ [⟨lhs, rhs, ""⟩] } } = false := hf
  simp [debugEndStrongBranching, hf', debugRestoreBasis, hr, Outcome.check]

/-- `solvedInterface` and a call on its first column meet the hypotheses of `C129_session_partial`. -/
example : freed solvedInterface = true ∧ 0 < getNumberOfRows solvedInterface ∧
    ∃ lower upper, getLowerBound solvedInterface 0 = .ok lower ∧ getUpperBound solvedInterface 0 = .ok upper ∧
      IntegralBounds lower upper :=
  ⟨by decide +kernel, by decide +kernel, _, _, rfl, rfl,
    .inr ⟨0, by simp⟩, .inr ⟨1, by simp⟩, by decide +kernel⟩

/-- `branchingInterface` meets the hypotheses of `C129_call` and `C129_add_row_violated`, and with another bound those of
`C129_fractional_bound_violated`. -/
example : freed branchingInterface = false ∧ (branchingInterface.savedRows.length : Int) = getNumberOfRows branchingInterface ∧
    (branchingInterface.savedCols.length : Int) = getNumberOfColumns branchingInterface ∧
    getLowerBound (changeBounds branchingInterface 0 (.fin (1 / 2)) (.fin 1)) 0 = .ok (.fin (1 / 2)) := by
  decide +kernel

end Soplex
end MiniMip
