import Verif.Props.DebugRound
import Verif.Props.GeneratorWitness

/-!
# C120: the tableau generator in the debug build
-/

namespace MiniMip
namespace Generator

open SparseVector (Clean)

/-- The sides of the rows of an LP are in order. -/
def SidesOrdered (lp : LpView) : Prop :=
  ∀ (k : Nat) l r, lp.lhs[k]? = some l → lp.rhs[k]? = some r → Dbl.le l r = true

/-- A row that strong CG rounding does not assert on: it has a right-hand side with a fraction, and the coefficients of the
continuous variables are not negative. -/
def Roundable (c : GenContext) (a : AggRow) : Prop :=
  (∃ b, a.rhs = some b ∧ fractionality c.tol b ≠ 0) ∧ ∀ t ∈ a.vars.entries, c.isInteger t.index = true ∨ 0 ≤ t.value

/-- The calls do the same, or the second one fails or returns a cut without coefficients. -/
def SameOrEmpty (x y : Outcome (List CutData)) : Prop :=
  x = y ∨ ∀ cuts, y = .ok cuts → ∃ cut ∈ cuts, cut.row.entries = []

theorem SameOrEmpty.refl (x : Outcome (List CutData)) : SameOrEmpty x x := .inl rfl

theorem SameOrEmpty.bind {α : Type} (x : Outcome α) {f g : α → Outcome (List CutData)} (h : ∀ a, x = .ok a → SameOrEmpty (f a) (g a)) :
    SameOrEmpty (x >>= f) (x >>= g) := by
  cases x with
  | ok a => exact h a rfl
  | _ => exact .inl rfl

theorem listAt_get {α : Type} {l : List α} {k : Nat} {a : α} (h : listAt l k = .ok a) : l[k]? = some a := by
  unfold listAt at h
  rw [if_neg (by simp), Int.toNat_natCast] at h
  split at h
  · rename_i hk; cases h; exact hk
  · cases h

theorem sides_eq {lp : LpView} (h : SidesOrdered lp) (l : List ℚ) :
    ∀ k, debugChooseSides lp k l = chooseSides lp k l := by
  induction l with
  | nil => exact fun _ => rfl
  | cons a l ih =>
    intro k
    unfold debugChooseSides chooseSides
    rw [ih]
    cases hr : listAt lp.rhs k with
    | ok r =>
      cases hl : listAt lp.lhs k with
      | ok x =>
        have h1 := listAt_get hr
        have h2 := listAt_get hl
        have h3 := h k x r h2 h1
        have : (Dbl.eq x r || Dbl.lt x r) = true := by
          cases x <;> cases r <;> simp_all [Dbl.le, Dbl.eq, Dbl.lt]
          exact h3.eq_or_lt
        simp only [Outcome.bind_ok, Bool.or_assoc, this, Bool.or_true, Outcome.check, if_true]
      | _ => rfl
    | _ => rfl

theorem roundAll_same {c : GenContext} (ho : Clean c.objective.entries) (hne : c.objective.entries ≠ []) (x : SparseVector)
    (a : AggRow) (rs : List Rounder) (hcg : .strongCG ∈ rs → Roundable c a)
    (hgood : ∀ r row rhs, roundOne c a r = .ok (some (row, rhs)) → row.Good) :
    ∀ n, SameOrEmpty (debugRoundAll c x a n rs) (roundAll c x a n rs) := by
  induction rs with
  | nil => exact fun _ => .refl _
  | cons r rs ih =>
    intro n
    have ih := ih fun h => hcg (List.mem_cons_of_mem _ h)
    have hone : debugRoundOne c a r = roundOne c a r := by
      cases r with
      | mir => rfl
      | strongCG =>
        have hr := hcg (by simp)
        have : debugStrongCGRound c a = strongCGRound c a := by
          rw [C120_strong_cg, if_neg]
          rintro ⟨-, -, h | ⟨t, ht, h1, h2⟩⟩
          · obtain ⟨b, hb, hf⟩ := hr.1
            exact hf (h b hb)
          · rcases hr.2 t ht with h | h
            · simp [h] at h1
            · exact absurd h2 (not_lt.2 h)
        unfold debugRoundOne roundOne
        show (debugStrongCGRound c a >>= _) = (strongCGRound c a >>= _)
        rw [this]
        rfl
    unfold debugRoundAll roundAll
    rw [hone]
    refine SameOrEmpty.bind _ fun res hres => ?_
    cases res with
    | none => exact ih n
    | some y =>
      obtain ⟨row, rhs⟩ := y
      simp only
      by_cases hrem : removesLPOptimum row rhs x = true
      · rw [if_pos hrem, if_pos hrem]
        have hg := hgood r row rhs hres
        have hlt : rhs < row.dotProduct x := of_decide_eq_true hrem
        have hname : r.name ++ toString n ≠ "" := by
          intro h
          have h := congrArg String.length h
          rw [String.length_append] at h
          cases r <;> simp [Rounder.name] at h
        by_cases hrow : row.entries = []
        · right
          intro cuts hcuts
          simp only [Outcome.bind_eq_ok] at hcuts
          obtain ⟨l, -, hl⟩ := hcuts
          cases hl
          exact ⟨_, List.mem_cons_self, hrow⟩
        · rw [C120_cut_data _ _ _ _ _ _ _ hg.1 ho, if_pos ⟨hrow, hne, hlt.le, hname⟩]
          simp only [Outcome.bind_ok]
          rcases ih (n + 1) with h | h
          · left; rw [h]
          · right
            intro cuts hcuts
            simp only [Outcome.bind_eq_ok] at hcuts
            obtain ⟨l, hl, hc⟩ := hcuts
            cases hc
            obtain ⟨cut, hcut, he⟩ := h l hl
            exact ⟨cut, by simp [hcut], he⟩
      · rw [if_neg hrem, if_neg hrem]
        exact ih n

/-- **C120**, the tableau generator.  For every LP whose rows are clean and whose sides are in order, every objective that is
not zero, all answers of the LP code with clean rows of the inverse, all limits, and all rounders, strong CG rounding only if
the rows of the tableau are such that it does not assert: the debug build does what the release build does, except that it
aborts at a cut without coefficients. -/
theorem C120_generator_partial (c : GenContext) (hr : RowsClean c.lp) (hs : SidesOrdered c.lp)
    (ho : Clean c.objective.entries) (hne : c.objective.entries ≠ []) (s : SolverView) (hB : SolverClean s)
    (rs : List Rounder) (m : Int)
    (hcg : .strongCG ∈ rs → ∀ k b u a a', s.bInverted k = .ok b → aggregateByWeight c.lp b u = .ok a →
      toNonNegative c.lp a = .ok (a', true) → Roundable c a') :
    debugGenerate c s rs m = generateCuttingPlanes c s rs m ∨
      ∀ cuts, generateCuttingPlanes c s rs m = .ok cuts → ∃ cut ∈ cuts, cut.row.entries = [] := by
  have hrow : ∀ u x k, SameOrEmpty (debugTableauRow c s rs u x k) (tableauRow c s rs u x k) := by
    intro u x k
    unfold debugTableauRow tableauRow
    refine SameOrEmpty.bind _ fun b _ => ?_
    cases b with
    | none => exact .refl _
    | some col =>
      simp only
      split
      · exact .refl _
      split
      · exact .refl _
      refine SameOrEmpty.bind _ fun b hb => SameOrEmpty.bind _ fun a ha => SameOrEmpty.bind _ fun y hy => ?_
      obtain ⟨a', ok⟩ := y
      cases ok with
      | false => exact .refl _
      | true =>
        rw [rowWeights_eq (hB k b hb)] at ha
        exact roundAll_same ho hne x a' rs (fun h => hcg h k b u a a' hb ha hy)
          (fun r row rhs h => roundOne_good hr (hB k b hb).1 ha hy h) 0
  have hloop : ∀ u x n k cuts, SameOrEmpty (debugTableauLoop c s rs m u x n k cuts) (tableauLoop c s rs m u x n k cuts) ∧
      ∀ out, tableauLoop c s rs m u x n k cuts = .ok out → ∀ cut ∈ cuts, cut ∈ out := by
    intro u x n
    induction n with
    | zero => exact fun k cuts => ⟨.refl _, fun out h => by cases h; exact fun _ h => h⟩
    | succ n ih =>
      intro k cuts
      unfold debugTableauLoop tableauLoop
      split
      · constructor
        · rcases hrow u x k with h | h
          · rw [h]
            exact SameOrEmpty.bind _ fun new _ => (ih (k + 1) (cuts ++ new)).1
          · right
            intro out hout
            simp only [Outcome.bind_eq_ok] at hout
            obtain ⟨new, hnew, hout⟩ := hout
            obtain ⟨cut, hcut, he⟩ := h new hnew
            exact ⟨cut, (ih _ _).2 out hout cut (by simp [hcut]), he⟩
        · intro out hout cut hcut
          simp only [Outcome.bind_eq_ok] at hout
          obtain ⟨new, -, hout⟩ := hout
          exact (ih _ _).2 out hout cut (by simp [hcut])
      · exact ⟨.refl _, fun out h => by cases h; exact fun _ h => h⟩
  show SameOrEmpty _ _
  unfold debugGenerate generateCuttingPlanes
  split
  · exact .refl _
  split
  · exact .refl _
  refine SameOrEmpty.bind _ fun act _ => ?_
  rw [sides_eq hs]
  refine SameOrEmpty.bind _ fun u _ => SameOrEmpty.bind _ fun primal _ => ?_
  simp only
  split
  · exact .refl _
  · exact (hloop _ _ _ _ _).1

theorem ex1_sides : SidesOrdered ex1.lp := by
  intro k l r hl hr
  rcases k with _ | k <;> simp [ex1] at hl hr
  subst hl hr
  rfl

/-- Non-vacuity: the hypotheses are met, and the generator returns a cut with a coefficient, so it does in the debug build. -/
example : RowsClean ex1.lp ∧ SidesOrdered ex1.lp ∧ Clean ex1.objective.entries ∧ ex1.objective.entries ≠ [] ∧
    SolverClean ex1Solver ∧ ∃ cut, debugGenerate ex1 ex1Solver [.mir] 100 = .ok [cut] ∧ cut.row = ⟨[⟨0, 1⟩], false⟩ := by
  have ho : Clean ex1.objective.entries := by norm_num [ex1, Clean]
  have hne : ex1.objective.entries ≠ [] := by simp [ex1]
  refine ⟨ex1_clean, ex1_sides, ho, hne, ex1_solverClean, ?_⟩
  obtain ⟨cut, hcut, hrow⟩ : ∃ cut, generateCuttingPlanes ex1 ex1Solver [.mir] 100 = .ok [cut] ∧
      cut.row = ⟨[⟨0, 1⟩], false⟩ := by
    rw [ex1_generate _ _ (by norm_num)]
    simp only [roundAll, ex1_mir, ex1_violated, Outcome.bind_ok, Outcome.pure_eq, if_true]
    exact ⟨_, rfl, rfl⟩
  refine ⟨cut, ?_, hrow⟩
  rcases C120_generator_partial ex1 ex1_clean ex1_sides ho hne ex1Solver ex1_solverClean [.mir] 100 (by simp) with h | h
  · rw [h, hcut]
  · obtain ⟨d, hd, he⟩ := h _ hcut
    simp only [List.mem_singleton] at hd
    subst hd
    rw [hrow] at he
    simp at he

/-- **C120 fails** in the cut generator for a problem without an objective: on `2 x + y ≤ 3`, `0 ≤ x, y ≤ 5` integer, at the
LP optimum `x = 3 / 2`, the release build returns the cut `x ≤ 1`, whose parallelism to the objective is NaN, and the
constructor of `CutData` asserts in the debug build (cuts_data.h:117-120). -/
theorem C120_zero_objective_violated :
    (∃ cut, generateCuttingPlanes { ex1 with objective := {} } ex1Solver [.mir] 100 = .ok [cut] ∧
      cut.row = ⟨[⟨0, 1⟩], false⟩ ∧ cut.rhs = 1) ∧
    debugGenerate { ex1 with objective := {} } ex1Solver [.mir] 100 = .abort := by
  have hgen : generateCuttingPlanes { ex1 with objective := {} } ex1Solver [.mir] 100 =
      roundAll { ex1 with objective := {} } (SparseVector.ofDense [3 / 2, 0]) ex1Agg 0 [.mir] := by
    refine generate_single (u := [true]) (col := 0) (by norm_num) rfl rfl rfl ?_ rfl rfl rfl rfl ?_ rfl ?_ ex1_nonneg
    · gen_eval [ex1]
    · gen_eval [ex1]
    · have : rowWeights ⟨[⟨0, 1 / 2⟩], false⟩ = ⟨[⟨0, 1 / 2⟩], false⟩ := by gen_eval []
      rw [this]; exact ex1_aggregate
  have hround : roundOne { ex1 with objective := {} } ex1Agg .mir = .ok (some (⟨[⟨0, 1⟩], false⟩, 1)) := by
    gen_eval [ex1, ex1Agg]
  have hok : ∃ cut, generateCuttingPlanes { ex1 with objective := {} } ex1Solver [.mir] 100 = .ok [cut] ∧
      cut.row = ⟨[⟨0, 1⟩], false⟩ ∧ cut.rhs = 1 := by
    rw [hgen]
    simp only [roundAll, hround, ex1_violated, Outcome.bind_ok, Outcome.pure_eq, if_true]
    exact ⟨_, rfl, rfl, rfl⟩
  refine ⟨hok, ?_⟩
  have hall : debugRoundAll { ex1 with objective := {} } (SparseVector.ofDense [3 / 2, 0]) ex1Agg 0 [.mir] = .abort := by
    have h1 : debugRoundOne { ex1 with objective := {} } ex1Agg .mir = .ok (some (⟨[⟨0, 1⟩], false⟩, 1)) := hround
    have h2 := C120_cut_data {} (SparseVector.ofDense [3 / 2, 0]) ⟨[⟨0, 1⟩], false⟩ ex1.isInteger 1
      (Rounder.mir.name ++ toString 0) false (by norm_num [Clean]) (by norm_num [Clean])
    rw [if_neg (by simp)] at h2
    simp only [debugRoundAll, h1, Outcome.bind_ok, ex1_violated, if_true, h2]
    rfl
  have hrow : debugTableauRow { ex1 with objective := {} } ex1Solver [.mir] [true] (SparseVector.ofDense [3 / 2, 0]) 0 = .abort := by
    have e1 : listAt ex1Solver.basis 0 = .ok (some 0) := rfl
    have e2 : isIntegerWithinTolerance (0 : ℚ) ((SparseVector.ofDense [3 / 2, 0]).value 0) = false := by gen_eval []
    have e3 : rowWeights ⟨[⟨0, 1 / 2⟩], false⟩ = ⟨[⟨0, 1 / 2⟩], false⟩ := by gen_eval []
    unfold debugTableauRow
    simp only [Int.natCast_zero, e1, Outcome.bind_ok]
    rw [if_neg (by simp [ex1]), if_neg (by rw [show ({ ex1 with objective := {} } : GenContext).tol = 0 from rfl, e2]; simp)]
    have e4 : aggregateByWeight ex1.lp ⟨[⟨0, 1 / 2⟩], false⟩ [true] = .ok ex1Agg := ex1_aggregate
    simp only [show ex1Solver.bInverted 0 = .ok ⟨[⟨0, 1 / 2⟩], false⟩ from rfl, Outcome.bind_ok, e3, e4, ex1_nonneg,
      Bool.not_true, Bool.false_eq_true, if_false]
    exact hall
  have e5 : debugChooseSides ex1.lp 0 [3] = .ok [true] := by
    rw [sides_eq ex1_sides]
    gen_eval [ex1]
  unfold debugGenerate
  rw [if_neg (by simp [ex1Solver]), if_neg (by simp [ex1Solver])]
  simp only [show ex1Solver.activities = .ok [3] from rfl, show ex1Solver.primal = .ok [3 / 2, 0] from rfl, Outcome.bind_ok, e5]
  rw [if_neg (by norm_num), show ex1.lp.rows.length = 1 from rfl]
  unfold debugTableauLoop
  rw [if_pos (by norm_num), hrow]
  rfl

end Generator
end MiniMip
