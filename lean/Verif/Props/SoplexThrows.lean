import Verif.Model.SoplexThrows
import Verif.Props.SoplexSolve

/-!
# Property C106: exceptions of SoPlex in strong branching
-/

namespace MiniMip
namespace Soplex

open Glop (Column)

/-- **C106**, the part that holds: if `optimize` does not throw, the call ends as described by C51 and C67. -/
theorem C106_no_exception_partial (a : Accepts) (g : Interface) (col : Nat) (v eps : ℚ) (n : Int) (down up : Attempt)
    (hd : down.throws = false) (hu : up.throws = false) :
    attemptDownAndUp a g col v eps n down up =
      solveDownAndUpStrongBranch a g col v eps n down.answer up.answer >>= fun r =>
        Outcome.ok (Ending.returned r.1 r.2.1 r.2.2) := by
  have hup : ∀ (g : Interface) (old : Dbl × Dbl) (m : Int) (limit : Dbl) (result : BranchResult) (problems : List (Dbl × Dbl)),
      attemptUp a g col old v eps n m limit result problems up = (do
        let newLower := Dbl.fin (upBranchBound v eps)
        let (g, result, problems) ←
          if Dbl.le newLower (Dbl.add old.2 (.fin (1 / 2))) then do
            let g ← solveBranch a g col old (newLower, old.2) n up.answer
            Outcome.ok (g, (branchBound limit up.answer).map (fun r => { result with
              upBound := some r.1, upValid := r.2, iterations := result.iterations + up.answer.iterations }),
              problems ++ [(newLower, old.2)])
          else Outcome.ok (g, some { result with upBound := some limit, upValid := true }, problems)
        Outcome.ok (Ending.returned (setIterLimit a g m) result problems)) := by
    intro g old m limit result problems
    unfold attemptUp attemptBranch
    rw [hu]
    simp only [Bool.false_eq_true, if_false]
    split
    · cases solveBranch a g col old (.fin (upBranchBound v eps), old.2) n up.answer <;> rfl
    · rfl
  unfold attemptDownAndUp solveDownAndUpStrongBranch
  cases hc : column g (col : Int) with
  | ok c =>
    simp only [Outcome.bind_ok]
    split
    · unfold attemptBranch
      rw [hd]
      simp only [Bool.false_eq_true, if_false]
      cases solveBranch a g col (c.lower, c.upper) (c.lower, .fin (downBranchBound v eps)) n down.answer with
      | ok g1 =>
        simp only [Outcome.bind_ok, Bool.false_eq_true, if_false]
        cases branchBound (objectiveLimit g) down.answer with
        | none => rfl
        | some r =>
          simp only [Option.map_some, hup]
          split
          · cases solveBranch a g1 col (c.lower, c.upper) (.fin (upBranchBound v eps), c.upper) n up.answer <;> rfl
          · rfl
      | error m => rfl
      | abort => rfl
      | ub => rfl
    · simp only [hup, Outcome.bind_ok]
      split
      · cases solveBranch a g col (c.lower, c.upper) (.fin (upBranchBound v eps), c.upper) n up.answer <;> rfl
      · rfl
  | error m => rfl
  | abort => rfl
  | ub => rfl

/-- The interface after an exception: column `col` has the bounds of the branch, the limit on the iterations is that of the
branch, and nothing else of the LP has changed; the basis is still saved. -/
structure LeftIn (g g' : Interface) (col : Nat) (lower upper : Dbl) (limit : Int) : Prop where
  lower : getLowerBound g' col = .ok lower
  upper : getUpperBound g' col = .ok upper
  others : ∀ j : Nat, j ≠ col → g'.lp.cols[j]? = g.lp.cols[j]?
  rows : g'.lp.rows = g.lp.rows
  iterations : g'.settings.iterlimit = limit
  saved : freed g' = false

theorem leftIn_of {a : Accepts} {g g' : Interface} {col : Nat} {c : Column} (hlp : g'.lp = g.lp)
    (hc : g.lp.cols[col]? = some c) (hf : freed g' = false) {n : Int} (ha : a.int .iterlimit n = true) (old new : Dbl × Dbl)
    {t : Attempt} (ht : t.throws = true) :
    ∃ g'', attemptBranch a g' col old new n t = .ok (g'', true) ∧ LeftIn g g'' col new.1 new.2 n := by
  unfold attemptBranch
  rw [ht, if_pos rfl]
  refine ⟨_, rfl, ?_, ?_, ?_, ?_, ?_, ?_⟩
  · simp [getLowerBound, column, setIterLimit, ha, changeBounds, hlp, hc, show ¬ (col : Int) < 0 by omega]
  · simp [getUpperBound, column, setIterLimit, ha, changeBounds, hlp, hc, show ¬ (col : Int) < 0 by omega]
  · intro j hj
    simp [setIterLimit, ha, changeBounds, hlp, List.getElem?_modify, Ne.symm hj]
  · simp [setIterLimit, ha, changeBounds, hlp]
  · simp [setIterLimit, ha]
  · simpa [setIterLimit, ha, changeBounds, freed] using hf

theorem LeftIn.ended {g g' : Interface} {col : Nat} {lower upper : Dbl} {n : Int} (h : LeftIn g g' col lower upper n) :
    ∃ g'', endStrongBranching g' = .ok g'' ∧ getLowerBound g'' col = .ok lower ∧ getUpperBound g'' col = .ok upper ∧
      g''.settings.iterlimit = n := by
  refine ⟨{ restoreBasis g' with savedRows := [], savedCols := [] }, ?_, h.lower, h.upper, h.iterations⟩
  rw [endStrongBranching, h.saved]
  rfl

/-- **C106 fails.**  Let strong branching be started, let the limit on the iterations be accepted, and let the branch be solved.
If `optimize` throws in the down branch, the exception leaves `SolveDownAndUpStrongBranch`, and the column keeps the upper bound
of the branch; if it throws in the up branch, the column keeps the lower bound of the branch.  In both cases the limit on the
iterations stays that of the call, and `SetColumnBounds` aborts until strong branching is ended; ending it does not repair
the bounds either. -/
theorem C106_exception_violated (a : Accepts) (g : Interface) (col : Nat) (lower upper : Dbl)
    (hl : getLowerBound g col = .ok lower) (hu : getUpperBound g col = .ok upper) (hf : freed g = false)
    (v eps : ℚ) (n : Int) (ha : a.int .iterlimit n = true) (down up : Attempt) :
    (Dbl.le (Dbl.sub lower (.fin (1 / 2))) (.fin ⌈v - 1 - eps⌉) = true → down.throws = true →
      ∃ g', attemptDownAndUp a g col v eps n down up = .ok (.threw g') ∧
        LeftIn g g' col lower (.fin ⌈v - 1 - eps⌉) n ∧ setColumnBounds g' col lower upper = .abort ∧
        ∃ g'', endStrongBranching g' = .ok g'' ∧ getUpperBound g'' col = .ok (.fin ⌈v - 1 - eps⌉) ∧
          g''.settings.iterlimit = n) ∧
    (Dbl.le (.fin ⌊v + 1 - eps⌋) (Dbl.add upper (.fin (1 / 2))) = true → down.throws = false → up.throws = true →
      branchBound (objectiveLimit g) down.answer ≠ none →
      ∃ g', attemptDownAndUp a g col v eps n down up = .ok (.threw g') ∧
        LeftIn g g' col (.fin ⌊v + 1 - eps⌋) upper n ∧ setColumnBounds g' col lower upper = .abort ∧
        ∃ g'', endStrongBranching g' = .ok g'' ∧ getLowerBound g'' col = .ok (.fin ⌊v + 1 - eps⌋) ∧
          g''.settings.iterlimit = n) := by
  obtain ⟨c, hc, hcl⟩ : ∃ c, g.lp.cols[col]? = some c ∧ c.lower = lower := by
    simp only [getLowerBound, column, Int.toNat_natCast] at hl
    rw [if_neg (by omega)] at hl
    cases hc : g.lp.cols[col]? with
    | none => simp [hc] at hl
    | some c => exact ⟨c, rfl, by simpa [hc] using hl⟩
  have hcu : c.upper = upper := by
    simpa [getUpperBound, column, hc, show ¬ (col : Int) < 0 by omega] using hu
  subst hcl hcu
  have hcol : column g (col : Int) = .ok c := by
    simp [column, hc, show ¬ (col : Int) < 0 by omega]
  have habort : ∀ g', freed g' = false → setColumnBounds g' col c.lower c.upper = .abort := by
    intro g' h
    simp [setColumnBounds, h, Outcome.check]
  constructor
  · intro hs ht
    obtain ⟨g', h1, h2⟩ := leftIn_of (a := a) rfl hc hf ha (c.lower, c.upper) (c.lower, .fin ⌈v - 1 - eps⌉) ht
    obtain ⟨g'', h3, -, h4, h5⟩ := h2.ended
    refine ⟨g', ?_, h2, habort g' h2.saved, g'', h3, h4, h5⟩
    unfold attemptDownAndUp
    simp only [hcol, Outcome.bind_ok, downBranchBound, hs, if_true, h1]
  · intro hs hd ht hb
    obtain ⟨r, hr⟩ := Option.ne_none_iff_exists'.mp hb
    have hup : ∀ g1 : Interface, Same g g1 → ∀ m limit result problems,
        ∃ g', attemptUp a g1 col (c.lower, c.upper) v eps n m limit result problems up = .ok (.threw g') ∧
          LeftIn g g' col (.fin ⌊v + 1 - eps⌋) c.upper n := by
      intro g1 hs1 m limit result problems
      obtain ⟨g', h1, h2⟩ := leftIn_of (a := a) hs1.lp hc (hs1.freed.trans hf) ha (c.lower, c.upper)
        (.fin ⌊v + 1 - eps⌋, c.upper) ht
      refine ⟨g', ?_, h2⟩
      unfold attemptUp
      simp only [upBranchBound, hs, if_true, h1, Outcome.bind_ok]
    have : ∃ g', attemptDownAndUp a g col v eps n down up = .ok (.threw g') ∧
        LeftIn g g' col (.fin ⌊v + 1 - eps⌋) c.upper n := by
      unfold attemptDownAndUp
      simp only [hcol, Outcome.bind_ok]
      split
      · obtain ⟨g1, h1, hs1⟩ := solveBranch_ok a g col c hc hf (c.lower, .fin (downBranchBound v eps)) n down.answer
        simp only [attemptBranch, hd, Bool.false_eq_true, if_false, h1, Outcome.bind_ok, hr]
        exact hup g1 hs1 _ _ _ _
      · exact hup g (Same.refl g) _ _ _ _
    obtain ⟨g', h1, h2⟩ := this
    obtain ⟨g'', h3, h4, -, h5⟩ := h2.ended
    exact ⟨g', h1, h2, habort g' h2.saved, g'', h3, h4, h5⟩

/-- The hypotheses are met: both branches of the first column of an interface in strong branching are solved. -/
example : ∃ lower upper, getLowerBound branchingInterface (0 : Nat) = .ok lower ∧
    getUpperBound branchingInterface (0 : Nat) = .ok upper ∧ freed branchingInterface = false ∧
    acceptEvery.int .iterlimit 5 = true ∧
    Dbl.le (Dbl.sub lower (.fin (1 / 2))) (.fin ⌈(1 / 2 : ℚ) - 1 - 1 / 10 ^ 6⌉) = true ∧
    Dbl.le (.fin ⌊(1 / 2 : ℚ) + 1 - 1 / 10 ^ 6⌋) (Dbl.add upper (.fin (1 / 2))) = true ∧
    upper ≠ .fin ⌈(1 / 2 : ℚ) - 1 - 1 / 10 ^ 6⌉ ∧
    branchBound (objectiveLimit branchingInterface) (branchOptimal 3) ≠ none := by
  have h1 : ⌈(1 / 2 : ℚ) - 1 - 1 / 10 ^ 6⌉ = 0 := by norm_num [Int.ceil_eq_iff]
  have h2 : ⌊(1 / 2 : ℚ) + 1 - 1 / 10 ^ 6⌋ = 1 := by norm_num [Int.floor_eq_iff]
  rw [h1, h2]
  refine ⟨.fin 0, .fin 1, rfl, rfl, rfl, rfl, ?_, ?_, ?_, ?_⟩
  all_goals decide +kernel

end Soplex
end MiniMip
