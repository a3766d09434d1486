import Verif.Props.GeneratorProblem

/-!
# C33 for problems with non-negative integer variables

The generator makes a variable non-negative with the bounds of the current node, but only if its lower
bound is negative.  So if the integer variables have non-negative lower bounds, no bound that branching
changes is used, and the cuts generated at any node are valid for the whole tree.
-/

namespace MiniMip.Generator
open SparseVector (Clean)

/-- The same row of data up to the bounds that are not used. -/
structure SameShifts (lp lp' : LpView) : Prop where
  rows : lp'.rows = lp.rows
  lhs : lp'.lhs = lp.lhs
  rhs : lp'.rhs = lp.rhs
  shifts : ∀ j, shiftOf lp' j = shiftOf lp j

theorem SameShifts.aggregateLoop {lp lp' : LpView} (h : SameShifts lp lp') (u : List Bool) (l : List Entry) :
    ∀ a, aggregateLoop lp' u a l = aggregateLoop lp u a l := by
  have hs : ∀ a j q, aggregateStep lp' u a j q = aggregateStep lp u a j q := by
    intro a j q
    simp only [aggregateStep, chosenSide, h.rows, h.lhs, h.rhs]
  induction l with
  | nil => intro a; rfl
  | cons e l ih => intro a; simp only [Generator.aggregateLoop, hs, ih]

theorem SameShifts.aggregate {lp lp' : LpView} (h : SameShifts lp lp') (w : SparseVector) (u : List Bool) :
    aggregateByWeight lp' w u = aggregateByWeight lp w u := by
  simp only [aggregateByWeight, h.aggregateLoop]

theorem SameShifts.shiftRow {lp lp' : LpView} (h : SameShifts lp lp') (rc) (a : AggRow) :
    shiftRow lp' rc a = shiftRow lp rc a := by
  have hl : ∀ (l : List Entry) (b : Option ℚ), shiftEntries lp' rc l b = shiftEntries lp rc l b := by
    intro l
    induction l with
    | nil => intro b; rfl
    | cons e l ih => intro b; simp only [shiftEntries, h.shifts, ih]
  simp only [Generator.shiftRow, hl]

theorem SameShifts.substituteSlacks {lp lp' : LpView} (h : SameShifts lp lp') (a : AggRow) :
    substituteSlacks lp' a = substituteSlacks lp a := by
  have hl : ∀ (signs sides : SparseVector) (l : List Entry) (v : SparseVector) (b : Option ℚ),
      substituteLoop lp' signs sides l v b = substituteLoop lp signs sides l v b := by
    intro signs sides l
    induction l with
    | nil => intro v b; rfl
    | cons e l ih => intro v b; simp only [substituteLoop, h.rows, ih]
  simp only [Generator.substituteSlacks, hl]

theorem SameShifts.roundOne {c : GenContext} {lp' : LpView} (h : SameShifts c.lp lp') (a : AggRow)
    (r : Rounder) : roundOne { c with lp := lp' } a r = roundOne c a r := by
  have hround : Rounder.round { c with lp := lp' } r a = Rounder.round c r a := by
    cases r with
    | mir =>
      have hs : ∀ l, readFlags { c with lp := lp' } l = readFlags c l := by
        intro l
        induction l with
        | nil => rfl
        | cons e l ih => simp only [readFlags, ih]; rfl
      simp only [Rounder.round, mirRound, hs]
      rfl
    | strongCG =>
      have hs : ∀ l, slacksAllowCG { c with lp := lp' } l = slacksAllowCG c l := by
        intro l
        induction l with
        | nil => rfl
        | cons e l ih => simp only [slacksAllowCG, ih]; rfl
      simp only [Rounder.round, strongCGRound, hs]
      rfl
  simp only [Generator.roundOne, hround, toOriginal, h.shiftRow, h.substituteSlacks]

/-- The rows marked integral are: integer coefficients on integer variables only, and integral (finite)
sides. -/
structure IntegralRows (c : GenContext) : Prop where
  coefs : ∀ (i : Nat) row, c.integralRow[i]? = some true → c.lp.rows[i]? = some row →
    ∀ e ∈ row.entries, c.isInteger e.index = true ∧ ∃ k : Int, e.value = k
  lhs : ∀ (i : Nat) q, c.integralRow[i]? = some true → c.lp.lhs[i]? = some (.fin q) → ∃ k : Int, q = k
  rhs : ∀ (i : Nat) q, c.integralRow[i]? = some true → c.lp.rhs[i]? = some (.fin q) → ∃ k : Int, q = k

/-- The bounds replaced by `[0, ∞)` for the integer variables. -/
def halfLines (c : GenContext) : LpView :=
  { c.lp with
    lower := c.lp.lower.mapIdx fun (j : Nat) l => if c.isInteger j then .fin 0 else l
    upper := c.lp.upper.mapIdx fun (j : Nat) u => if c.isInteger j then .pinf else u }

theorem halfLines_same {c : GenContext}
    (hnn : ∀ (j : Nat) l, c.isInteger j = true → c.lp.lower[j]? = some l → Dbl.le (.fin 0) l = true) :
    SameShifts c.lp (halfLines c) := by
  refine ⟨rfl, rfl, rfl, fun j => ?_⟩
  unfold shiftOf listAt
  by_cases h0 : j < 0
  · simp [h0]
  · simp only [h0, if_false, halfLines, List.getElem?_mapIdx]
    have hj : ((j.toNat : Nat) : Int) = j := by omega
    cases hl : c.lp.lower[j.toNat]? with
    | none => simp
    | some l =>
      cases hu : c.lp.upper[j.toNat]? with
      | none => simp
      | some u =>
        by_cases hi : c.isInteger j = true
        · have := hnn j.toNat l (by rw [hj]; exact hi) hl
          simp [hj, hi, this]
        · simp only [hj, hi, Bool.false_eq_true, if_false, Option.map_some, Outcome.bind_ok]
          rfl

/-- **C33, for non-negative integer variables.**  If the integer variables have non-negative lower
bounds at the node where the cuts are generated, every cut holds at every point that satisfies the rows of
the LP and the bounds of the continuous variables and has non-negative integers for the integer
variables, whether it is within the other bounds of the node or not. -/
theorem C33_nonnegative_partial (c : GenContext) (hr : RowsClean c.lp) (hI : IntegralRows c)
    (hnn : ∀ (j : Nat) l, c.isInteger j = true → c.lp.lower[j]? = some l → Dbl.le (.fin 0) l = true)
    (s : SolverView) (hB : SolverClean s) (htol : Harmless c s) (rs : List Rounder) (m : Int)
    (cuts : List CutData) (h : generateCuttingPlanes c s rs m = .ok cuts) (cut : CutData)
    (hc : cut ∈ cuts) (x : Int → ℚ) (hx : SatisfiesRows c.lp x)
    (hint : ∀ j, c.isInteger j = true → ∃ k : Int, x j = k)
    (hpos : ∀ j : Nat, c.isInteger j = true → 0 ≤ x j)
    (hlow : ∀ (n : Nat) l, c.isInteger n = false → c.lp.lower[n]? = some l → Dbl.le l (.fin (x n)) = true)
    (hupp : ∀ (n : Nat) u, c.isInteger n = false → c.lp.upper[n]? = some u → Dbl.le (.fin (x n)) u = true) :
    cut.row.eval x ≤ cut.rhs := by
  obtain ⟨-, -, -, primal, u, -, ho, -⟩ := generate_spec h
  obtain ⟨k, b, a, a', r, ⟨hk, -⟩, hb, ha, ht, -, hr2⟩ := (ho cut hc).source
  rw [rowWeights_eq (hB k b hb)] at ha
  have hsame := halfLines_same hnn
  have ht2 := htol k b u a a' hk hb ha ht
  rw [← hsame.aggregate] at ha
  rw [toNonNegative, ← hsame.shiftRow] at ht
  rw [← hsame.roundOne] at hr2
  refine roundOne_valid (c := { c with lp := halfLines c }) hr ?_ (hB k b hb).1 ha ht ht2 hr2 ?_
  · refine ⟨?_, ?_, hI.coefs, hI.lhs, hI.rhs⟩
    · intro j q hj hq
      simp only [halfLines, List.getElem?_mapIdx, Option.map_eq_some_iff] at hq
      obtain ⟨l, -, hq⟩ := hq
      rw [if_pos hj] at hq
      cases hq
      exact ⟨0, by simp⟩
    · intro j q hj hq
      simp only [halfLines, List.getElem?_mapIdx, Option.map_eq_some_iff] at hq
      obtain ⟨l, -, hq⟩ := hq
      rw [if_pos hj] at hq
      cases hq
  · refine ⟨⟨⟨?_, ?_⟩, hx⟩, hint⟩
    · intro n l hl
      simp only [halfLines, List.getElem?_mapIdx, Option.map_eq_some_iff] at hl
      obtain ⟨l', hl', hl⟩ := hl
      by_cases hi : c.isInteger n = true
      · rw [if_pos hi] at hl
        subst hl
        exact (Dbl.le_fin _ _).mpr (hpos n hi)
      · rw [if_neg hi] at hl
        subst hl
        exact hlow n _ (by simpa using hi) hl'
    · intro n l hl
      simp only [halfLines, List.getElem?_mapIdx, Option.map_eq_some_iff] at hl
      obtain ⟨l', hl', hl⟩ := hl
      by_cases hi : c.isInteger n = true
      · rw [if_pos hi] at hl
        subst hl
        rfl
      · rw [if_neg hi] at hl
        subst hl
        exact hupp n _ (by simpa using hi) hl'

/-- A node of `ex1` below the branch `y ≤ 0`.  The cut `x ≤ 1` found there holds at the point `(1, 1)`,
which is not within the bounds of the node. -/
example : let c := setBounds ex1 [.fin 0, .fin 0] [.fin 5, .fin 0]
    RowsClean c.lp ∧ IntegralRows c ∧
    (∀ (j : Nat) l, c.isInteger j = true → c.lp.lower[j]? = some l → Dbl.le (.fin 0) l = true) ∧
    SolverClean ex1Solver ∧ Harmless c ex1Solver ∧ SatisfiesRows c.lp (fun _ => 1) ∧
    ¬ MipFeasible c (fun _ => 1) ∧
    ∃ cut, generateCuttingPlanes c ex1Solver [.mir] 100 = .ok [cut] ∧
      cut.row = ⟨[⟨0, 1⟩], false⟩ ∧ cut.rhs = 1 := by
  refine ⟨ex1_clean, ⟨ex1_integral.coefs, ex1_integral.lhs, ex1_integral.rhs⟩, ?_, ex1_solverClean,
    fun k b u a a' _ _ _ _ => harmless_of_tol_zero a', ex1_feasible.1.2, ?_, ?_⟩
  · intro j l _ h
    rcases j with _ | _ | j <;> simp [setBounds] at h <;> subst h <;> norm_num [Dbl.le]
  · intro h
    have := h.1.1.2 1 (.fin 0) rfl
    norm_num [Dbl.le] at this
  · have hsame : SameShifts ex1.lp (setBounds ex1 [.fin 0, .fin 0] [.fin 5, .fin 0]).lp := by
      refine ⟨rfl, rfl, rfl, fun j => ?_⟩
      by_cases h0 : j < 0
      · simp [shiftOf, listAt, h0]
      · rcases hj : j.toNat with _ | _ | n <;> simp [shiftOf, listAt, h0, hj, setBounds, ex1, Dbl.le]
    have h1 := generate_single (c := setBounds ex1 [.fin 0, .fin 0] [.fin 5, .fin 0]) (s := ex1Solver)
      (rs := [.mir]) (m := 100) (u := [true]) (acts := [3]) (primal := [3 / 2, 0]) (col := 0)
      (b := ⟨[⟨0, 1 / 2⟩], false⟩) (a := ex1Agg) (a' := ex1Agg) (by norm_num) rfl rfl rfl
      (by norm_num [chooseSides, chooseSide, setBounds, ex1, Dbl.le, Dbl.neg, finPart, LpView.isInfinity, Dbl.eq,
        listAt]) rfl rfl rfl rfl
      (by norm_num [setBounds, ex1, isIntegerWithinTolerance, roundAway, SparseVector.ofDense,
        SparseVector.ofDenseFrom, SparseVector.value, SparseVector.valueAt]) rfl
      (by
        rw [hsame.aggregate]
        have : rowWeights ⟨[⟨0, 1 / 2⟩], false⟩ = ⟨[⟨0, 1 / 2⟩], false⟩ := by
          norm_num [rowWeights, SparseVector.cleanUpIfNeeded, SparseVector.addEntry, SparseVector.lastIndex]
        rw [this]; exact ex1_aggregate)
      (by rw [toNonNegative, hsame.shiftRow]; exact ex1_nonneg)
    have h2 : roundOne (setBounds ex1 [.fin 0, .fin 0] [.fin 5, .fin 0]) ex1Agg .mir =
        .ok (some (⟨[⟨0, 1⟩], false⟩, 1)) := (hsame.roundOne (c := ex1) ex1Agg .mir).trans ex1_mir
    rw [h1]
    simp only [roundAll, h2, ex1_violated, Outcome.bind_ok, Outcome.pure_eq, if_true]
    exact ⟨_, rfl, rfl, rfl⟩

end MiniMip.Generator
