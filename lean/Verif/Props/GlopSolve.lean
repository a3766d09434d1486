import Verif.Props.GlopStore
import Mathlib.Data.Rat.Floor
import Mathlib.Algebra.Order.Floor.Ring
import Mathlib.Tactic.Linarith
import Mathlib.Tactic.NormNum

/-!
# Properties C47, C51, C52, C57 and C64 for the Glop interface
-/

namespace MiniMip
namespace Glop

/-! ### C47: IsSolved -/

/-- `SolveInternal` calls itself at most once. -/
theorem C47_solve_fuel (n : Nat) (recursive : Bool) (g : Interface) (answers : Nat → Answer) :
    solveInternal (n + 2) recursive g answers = solveInternal 2 recursive g answers := by
  have h1 : ∀ (n : Nat) (g : Interface) (answers : Nat → Answer), g.useScaling = false →
      solveInternal (n + 1) true g answers = solveInternal 1 true g answers := by
    intro n g answers hs
    simp [solveInternal, hs]
  conv_lhs => rw [solveInternal]
  conv_rhs => rw [solveInternal]
  dsimp only
  rw [h1 n _ _ rfl]

/-- The calls of C47. -/
inductive Event where
  | modify (m : Modification)
  | solve (answers : Nat → Answer)
  | setBasis (cols rows : List LpBasisStatus)
  | clearState
  | read (file : Option LinearProgram)

/-- What a client sees of a call: the LP was modified; a solve returned OK or not; neither. -/
inductive Seen where
  | modified
  | solve (ok : Bool)
  | other
  deriving DecidableEq

/-- Adding no columns or no rows is not a modification. -/
def Modification.changes : Modification → Bool
  | .addColumns [] => false
  | .addRows [] => false
  | _ => true

/-- One call. -/
def Event.call (g : Interface) : Event → Outcome (Interface × Seen)
  | .modify m => do return (← m.call g, if m.changes then .modified else .other)
  | .solve answers => .ok ((solveLp g answers).1, .solve (solveLp g answers).2)
  | .setBasis c r => do return (← Glop.setBasisStatus g c r, .other)
  | .clearState => .ok (Glop.clearState g, .other)
  | .read file => .ok ((readLpFromFile g file).1, if file.isSome then .modified else .other)

/-- A sequence of calls. -/
def runEvents : Interface → List Event → Outcome (Interface × List Seen)
  | g, [] => .ok (g, [])
  | g, e :: r => do
    let (g, s) ← e.call g
    let (g, l) ← runEvents g r
    return (g, s :: l)

/-- Some solve returned OK and nothing was modified since. -/
def SolvedSinceModified (l : List Seen) : Prop :=
  ∃ before after, l = before ++ .solve true :: after ∧ .modified ∉ after

theorem addColumns_modified (g : Interface) (cs : List NewColumn) :
    (addColumns g cs).modified = if cs = [] then g.modified else true := by
  induction cs generalizing g with
  | nil => rfl
  | cons c r ih =>
    rw [addColumns, ih]
    by_cases h : r = [] <;> simp [h, addColumn]

theorem addRow_modified {g g' : Interface} {r : SparseVector} {a b : Dbl} {n : String}
    (h : addRow g r a b n = .ok g') : g'.modified = true := by
  unfold addRow at h
  obtain ⟨lp, -, h⟩ := Outcome.bind_eq_ok.mp h
  have h := Outcome.ok.inj h
  subst h; rfl

theorem addRows_modified {g g' : Interface} {rs : List NewRow} (h : addRows g rs = .ok g') :
    g'.modified = if rs = [] then g.modified else true := by
  induction rs generalizing g with
  | nil => have h := Outcome.ok.inj h; subst h; rfl
  | cons r rs ih =>
    obtain ⟨g1, h1, h2⟩ := Outcome.bind_eq_ok.mp h
    rw [ih h2, addRow_modified h1]; simp

theorem deleteRowsAndUpdate_modified {g g' : Interface} {mask : List Bool}
    (h : deleteRowsAndUpdateCurrentBasis g mask = .ok g') : g'.modified = true := by
  unfold deleteRowsAndUpdateCurrentBasis at h
  dsimp only at h
  split at h
  · obtain ⟨⟨n, st⟩, -, h⟩ := Outcome.bind_eq_ok.mp h
    have h := Outcome.ok.inj h
    subst h; rfl
  · have h := Outcome.ok.inj h
    subst h; rfl

theorem modify_modified {g g' : Interface} {m : Modification} (h : m.call g = .ok g') :
    g'.modified = if m.changes then true else g.modified := by
  cases m with
  | addColumn c => have h := Outcome.ok.inj h; subst h; rfl
  | addColumns cs =>
    have h := Outcome.ok.inj h; subst h
    rw [addColumns_modified]
    cases cs <;> simp [Modification.changes]
  | addRow r => simpa [Modification.changes] using addRow_modified h
  | addRows rs =>
    rw [addRows_modified h]
    cases rs <;> simp [Modification.changes]
  | deleteColumns f l =>
    obtain ⟨mk, -, h⟩ := Outcome.bind_eq_ok.mp h
    have h := Outcome.ok.inj h; subst h; rfl
  | deleteRows f l =>
    obtain ⟨mk, -, h⟩ := Outcome.bind_eq_ok.mp h
    simpa [Modification.changes] using deleteRowsAndUpdate_modified h
  | deleteRowSet mask =>
    obtain ⟨⟨g1, mp⟩, h1, h⟩ := Outcome.bind_eq_ok.mp h
    have h := Outcome.ok.inj h; subst h
    unfold deleteRowSet at h1
    dsimp only at h1
    split at h1
    · simp at h1
    · obtain ⟨g2, h2, h3⟩ := Outcome.bind_eq_ok.mp h1
      have h3 := Outcome.ok.inj h3
      have h3 := congrArg Prod.fst h3
      simp only at h3
      subst h3
      simpa [Modification.changes] using deleteRowsAndUpdate_modified h2
  | setColumnBounds c lo up =>
    simp only [Modification.call, setColumnBounds] at h
    split at h
    · have h := Outcome.ok.inj h; subst h; rfl
    · simp at h
  | setRowSides c lo up =>
    simp only [Modification.call, setRowSides] at h
    split at h
    · have h := Outcome.ok.inj h; subst h; rfl
    · simp at h
  | setObjectiveSense b => have h := Outcome.ok.inj h; subst h; rfl
  | setObjectiveCoefficient c x =>
    simp only [Modification.call, setObjectiveCoefficient] at h
    split at h
    · have h := Outcome.ok.inj h; subst h; rfl
    · simp at h
  | clear => have h := Outcome.ok.inj h; subst h; rfl

/-- The modification mark and the scaling parameter after a solve. -/
theorem solve_modified (g : Interface) (answers : Nat → Answer) :
    ((solveLp g answers).2 = true → (solveLp g answers).1.modified = false ∧
      (solveLp g answers).1.useScaling = g.useScaling) ∧
    ((solveLp g answers).2 = false → (solveLp g answers).1.modified = g.modified ∨
      (solveLp g answers).1.modified = true) := by
  unfold solveLp
  simp only [solveInternal]
  cases h0 : (answers 0).ok <;> cases h1 : (answers 1).ok <;> cases h2 : (answers 0).feasible <;>
    cases h3 : (answers 0).lpFeasible <;> cases h4 : g.useScaling <;> simp [*]

theorem event_modified {g g' : Interface} {e : Event} {s : Seen} (h : e.call g = .ok (g', s))
    (hr : ∀ f, e ≠ .read f) :
    (s = .modified → g'.modified = true) ∧ (s = .other → g'.modified = g.modified) ∧
    (s = .solve true → g'.modified = false) ∧
    (s = .solve false → g'.modified = g.modified ∨ g'.modified = true) := by
  cases e with
  | modify m =>
    obtain ⟨g1, h1, h2⟩ := Outcome.bind_eq_ok.mp h
    have h2 := Outcome.ok.inj h2
    simp only [Prod.mk.injEq] at h2
    obtain ⟨rfl, rfl⟩ := h2
    have := modify_modified h1
    cases hc : m.changes <;> simp [hc] at this ⊢ <;> exact this
  | solve answers =>
    have h := Outcome.ok.inj h
    simp only [Prod.mk.injEq] at h
    obtain ⟨rfl, rfl⟩ := h
    have := solve_modified g answers
    cases hc : (solveLp g answers).2 <;> simp [hc] at this ⊢
    · exact this
    · exact this.1
  | setBasis c r =>
    obtain ⟨g1, h1, h2⟩ := Outcome.bind_eq_ok.mp h
    have h2 := Outcome.ok.inj h2
    simp only [Prod.mk.injEq] at h2
    obtain ⟨rfl, rfl⟩ := h2
    unfold setBasisStatus at h1
    obtain ⟨cs, -, h1⟩ := Outcome.bind_eq_ok.mp h1
    obtain ⟨rs, -, h1⟩ := Outcome.bind_eq_ok.mp h1
    have h1 := Outcome.ok.inj h1
    subst h1
    simp
  | clearState =>
    have h := Outcome.ok.inj h
    simp only [Prod.mk.injEq] at h
    obtain ⟨rfl, rfl⟩ := h
    simp [clearState]
  | read f => exact absurd rfl (hr f)

theorem runEvents_modified {g g' : Interface} {es : List Event} {l : List Seen}
    (h : runEvents g es = .ok (g', l)) (hr : ∀ e ∈ es, ∀ f, e ≠ .read f) :
    (isSolved g' = true → SolvedSinceModified l ∨ (isSolved g = true ∧ .modified ∉ l)) ∧
    (.solve false ∉ l → (SolvedSinceModified l ∨ (isSolved g = true ∧ .modified ∉ l)) →
      isSolved g' = true) := by
  induction es generalizing g l with
  | nil =>
    have h := Outcome.ok.inj h
    simp only [Prod.mk.injEq] at h
    obtain ⟨rfl, rfl⟩ := h
    refine ⟨fun h => .inr ⟨h, by simp⟩, fun _ h => ?_⟩
    rcases h with ⟨b, a, h, -⟩ | h
    · simp at h
    · exact h.1
  | cons e r ih =>
    obtain ⟨⟨g1, s⟩, h1, h⟩ := Outcome.bind_eq_ok.mp h
    obtain ⟨⟨g2, l2⟩, h2, h⟩ := Outcome.bind_eq_ok.mp h
    have h := Outcome.ok.inj h
    simp only [Prod.mk.injEq] at h
    obtain ⟨rfl, rfl⟩ := h
    obtain ⟨ih1, ih2⟩ := ih h2 (fun e he => hr e (by simp [he]))
    obtain ⟨e1, e2, e3, e4⟩ := event_modified h1 (hr e (by simp))
    constructor
    · intro hs
      rcases ih1 hs with ⟨b, a, rfl, ha⟩ | ⟨hg, hm⟩
      · exact .inl ⟨s :: b, a, rfl, ha⟩
      · cases s with
        | modified => simp [isSolved, e1 rfl] at hg
        | other => exact .inr ⟨by simpa [isSolved, e2 rfl] using hg, by simp [hm]⟩
        | solve b =>
          cases b
          · rcases e4 rfl with h4 | h4
            · exact .inr ⟨by simpa [isSolved, h4] using hg, by simp [hm]⟩
            · simp [isSolved, h4] at hg
          · exact .inl ⟨[], l2, rfl, hm⟩
    · intro hf hs
      have hf2 : Seen.solve false ∉ l2 := fun hc => hf (by simp [hc])
      apply ih2 hf2
      rcases hs with ⟨b, a, hl, ha⟩ | ⟨hg, hm⟩
      · cases b with
        | nil =>
          simp only [List.nil_append, List.cons.injEq] at hl
          obtain ⟨rfl, rfl⟩ := hl
          exact .inr ⟨by simp [isSolved, e3 rfl], ha⟩
        | cons x b =>
          simp only [List.cons_append, List.cons.injEq] at hl
          exact .inl ⟨b, a, hl.2, ha⟩
      · have hm2 : Seen.modified ∉ l2 := fun hc => hm (by simp [hc])
        cases s with
        | modified => simp at hm
        | other => exact .inr ⟨by simpa [isSolved, e2 rfl] using hg, hm2⟩
        | solve b =>
          cases b
          · simp at hf
          · exact .inr ⟨by simp [isSolved, e3 rfl], hm2⟩

/-- **C47** (Glop), partial: what is missing are reads from a file
(`C47_read_keeps_solved_violated`) and, for the converse, solves that fail.  After any calls on a new
interface, `IsSolved` implies that some solve returned OK and nothing was modified since; the
converse holds if no solve failed. -/
theorem C47_is_solved_partial {g : Interface} {es : List Event} {l : List Seen}
    (h : runEvents {} es = .ok (g, l)) (hr : ∀ e ∈ es, ∀ f, e ≠ .read f) :
    (isSolved g = true → SolvedSinceModified l) ∧
    (.solve false ∉ l → SolvedSinceModified l → isSolved g = true) := by
  obtain ⟨h1, h2⟩ := runEvents_modified h hr
  have h0 : isSolved {} = false := rfl
  refine ⟨fun hs => ?_, fun hf hs => h2 hf (.inl hs)⟩
  rcases h1 hs with h | ⟨h, -⟩
  · exact h
  · rw [h0] at h; exact absurd h (by simp)

/-- An answer of the simplex: optimal and feasible. -/
def goodAnswer : Answer := ⟨true, true, true, false, 3, []⟩
/-- An answer that forces the solve without scaling. -/
def imprecise : Answer := ⟨true, true, false, false, 3, []⟩
/-- A failure of the simplex. -/
def failure : Answer := ⟨false, false, false, false, 0, []⟩

example : ∃ g, runEvents {} [.modify (.addColumn ⟨⟨[], false⟩, .fin 0, .fin 1, 1, "x"⟩),
    .solve fun _ => goodAnswer, .clearState] =
    .ok (g, [.modified, .solve true, .other]) ∧ isSolved g = true := ⟨_, rfl, rfl⟩

/-- **C47** is violated by `ReadLpFromFile`: after a solve and a successful read of another LP the
interface still claims to be solved. -/
theorem C47_read_keeps_solved_violated (lp : LinearProgram) :
    ∃ g, runEvents {} [.solve fun _ => goodAnswer, .read (some lp)] =
      .ok (g, [.solve true, .modified]) ∧ g.lp = lp ∧ isSolved g = true ∧
      ¬ SolvedSinceModified [.solve true, .modified] := by
  refine ⟨_, rfl, rfl, rfl, ?_⟩
  rintro ⟨b, a, h, ha⟩
  cases b with
  | nil => simp at h; subst h; simp at ha
  | cons x b => cases b with
    | nil => simp at h
    | cons y b => simp at h

/-- **C47** is violated by failing solves: a solve of a solved LP can end with `IsSolved` false
although nothing was modified. -/
theorem C47_failed_solve_violated :
    ∃ g, runEvents {} [.solve fun _ => goodAnswer,
      .solve fun k => if k = 0 then imprecise else failure] =
      .ok (g, [.solve true, .solve false]) ∧ isSolved g = false := ⟨_, rfl, rfl⟩

/-! ### C64: solving keeps the parameters -/

/-- **C64** (Glop), partial: a solve that returns OK leaves `use_scaling` as it was. -/
theorem C64_solve_keeps_scaling_partial (g : Interface) (answers : Nat → Answer)
    (h : (solveLp g answers).2 = true) : (solveLp g answers).1.useScaling = g.useScaling :=
  ((solve_modified g answers).1 h).2

example : (solveLp {} fun k => if k = 0 then imprecise else goodAnswer).2 = true := rfl

/-- **C64** is violated by a solve that fails after scaling was switched off: scaling stays off
for all later solves. -/
theorem C64_failed_solve_loses_scaling_violated :
    (({} : Interface).useScaling = true) ∧
    (solveLp {} fun k => if k = 0 then imprecise else failure).1.useScaling = false := ⟨rfl, rfl⟩

/-! ### C51: strong branching -/

/-- The integer `x` is a value of the column in some problem that was solved. -/
def Covered (problems : List (Dbl × Dbl)) (x : ℚ) : Prop :=
  ∃ p ∈ problems, Dbl.le p.1 (.fin x) = true ∧ Dbl.le (.fin x) p.2 = true

theorem le_sub_half {lower : Dbl} {x y : ℚ} (h : Dbl.le lower (.fin x) = true) (hxy : x ≤ y) :
    Dbl.le (Dbl.sub lower (.fin (1 / 2))) (.fin y) = true := by
  cases lower <;> simp_all [Dbl.le, Dbl.sub, Dbl.add, Dbl.neg]
  linarith

theorem le_add_half {upper : Dbl} {x y : ℚ} (h : Dbl.le (.fin x) upper = true) (hxy : y ≤ x) :
    Dbl.le (.fin y) (Dbl.add upper (.fin (1 / 2))) = true := by
  cases upper <;> simp_all [Dbl.le, Dbl.add]
  linarith

theorem downBranchBound_eq {v eps : ℚ} (h0 : 0 ≤ eps) (hv : ∀ n : ℤ, eps < |v - n|) :
    downBranchBound v eps = ⌊v⌋ := by
  unfold downBranchBound
  have h1 := hv ⌊v⌋
  have h2 := Int.floor_le v
  have h3 := Int.lt_floor_add_one v
  rw [abs_of_nonneg (by linarith)] at h1
  norm_cast
  rw [Int.ceil_eq_iff]
  constructor <;> linarith

theorem upBranchBound_eq {v eps : ℚ} (h0 : 0 ≤ eps) (hv : ∀ n : ℤ, eps < |v - n|) :
    upBranchBound v eps = ⌊v⌋ + 1 := by
  unfold upBranchBound
  have h1 := hv (⌊v⌋ + 1)
  have h2 := Int.floor_le v
  have h3 := Int.lt_floor_add_one v
  push_cast at h1
  rw [abs_of_nonpos (by linarith)] at h1
  norm_cast
  rw [Int.floor_eq_iff]
  push_cast
  constructor <;> linarith

/-- **C51** (Glop), partial: what is missing are values within the tolerance of an integer and
scaled columns (`C51_integer_value_violated`, `C51_scaled_column_violated`).  If the scaling factor
of the column is 1 and the primal value is not within the tolerance of an integer, every integer
between the bounds lies in a problem that was solved, and no problem contains the primal value. -/
theorem C51_branches_cover_partial (lower upper : Dbl) (eps v : ℚ) (limit : Dbl)
    (down up : BranchAnswer) (h0 : 0 ≤ eps) (hv : ∀ n : ℤ, eps < |v - n|) :
    (∀ x : ℤ, Dbl.le lower (.fin x) = true → Dbl.le (.fin x) upper = true →
      Covered (solveDownAndUpStrongBranch lower upper 1 eps v limit down up).2 x) ∧
    ¬ Covered (solveDownAndUpStrongBranch lower upper 1 eps v limit down up).2 v := by
  have hd := downBranchBound_eq h0 hv
  have hu := upBranchBound_eq h0 hv
  have h2 := Int.floor_le v
  have h3 := Int.lt_floor_add_one v
  have h4 : (⌊v⌋ : ℚ) < v := by
    have := hv ⌊v⌋
    rw [abs_of_nonneg (by linarith)] at this
    linarith
  unfold solveDownAndUpStrongBranch Covered
  simp only [mul_one, hd, hu]
  constructor
  · intro x hl hx
    by_cases hxv : x ≤ ⌊v⌋
    · have hle : (x : ℚ) ≤ (⌊v⌋ : ℚ) := by exact_mod_cast hxv
      refine ⟨(lower, .fin ⌊v⌋), ?_, hl, by simpa [Dbl.le] using hle⟩
      simp only [le_sub_half hl hle, if_true]
      split <;> simp
    · have hle : (⌊v⌋ : ℚ) + 1 ≤ (x : ℚ) := by
        have : ⌊v⌋ + 1 ≤ x := by omega
        exact_mod_cast this
      refine ⟨(.fin (⌊v⌋ + 1), upper), ?_, by simpa [Dbl.le] using hle, hx⟩
      simp only [le_add_half hx hle, if_true]
      simp
  · rintro ⟨p, hp, h5, h6⟩
    have : p.2 = .fin ⌊v⌋ ∨ p.1 = .fin (⌊v⌋ + 1) := by
      by_cases h7 : Dbl.le (Dbl.sub lower (.fin (1 / 2))) (.fin (⌊v⌋ : ℚ)) = true <;>
        by_cases h8 : Dbl.le (.fin ((⌊v⌋ : ℚ) + 1)) (Dbl.add upper (.fin (1 / 2))) = true <;>
        simp only [h7, h8, if_true] at hp <;> simp at hp
      · rcases hp with rfl | rfl <;> simp
      · rw [hp]; simp
      · rw [hp]; simp
    rcases this with h | h
    · rw [h] at h6
      simp [Dbl.le] at h6
      have : v ≤ (⌊v⌋ : ℚ) := by exact_mod_cast h6
      linarith
    · rw [h] at h5
      simp [Dbl.le] at h5
      linarith

example : (0 : ℚ) ≤ 1 / 1000000 ∧ ∀ n : ℤ, (1 / 1000000 : ℚ) < |(5 / 2 : ℚ) - n| := by
  refine ⟨by norm_num, fun n => ?_⟩
  rcases le_or_gt n 2 with h | h
  · have : (n : ℚ) ≤ 2 := by exact_mod_cast h
    rw [abs_of_nonneg] <;> linarith
  · have : (3 : ℚ) ≤ n := by exact_mod_cast h
    rw [abs_of_nonpos] <;> linarith

/-- **C51** is violated when the primal value is an integer: that integer lies in neither problem
(value 3, tolerance 1/10^8, bounds 0 and 10). -/
theorem C51_integer_value_violated (limit : Dbl) (down up : BranchAnswer) :
    ¬ Covered (solveDownAndUpStrongBranch (.fin 0) (.fin 10) 1 (1 / 10 ^ 8) 3 limit down up).2 3 := by
  have hd : downBranchBound (3 * 1) (1 / 10 ^ 8) = 2 := by norm_num [downBranchBound, Int.ceil_eq_iff]
  have hu : upBranchBound (3 * 1) (1 / 10 ^ 8) = 4 := by norm_num [upBranchBound, Int.floor_eq_iff]
  unfold solveDownAndUpStrongBranch Covered
  simp only [hd, hu]
  norm_num [Dbl.le, Dbl.sub, Dbl.add, Dbl.neg]

/-- **C51** is violated when the column is scaled: with scaling factor 1/2 and value 5/2, the
integer value 3 (3/2 in the scaled problem) lies in neither problem. -/
theorem C51_scaled_column_violated (limit : Dbl) (down up : BranchAnswer) :
    ¬ Covered (solveDownAndUpStrongBranch (.fin 0) (.fin 10) (1 / 2) (1 / 10 ^ 8) (5 / 2) limit
      down up).2 (3 * (1 / 2)) := by
  have hd : downBranchBound (5 / 2 * (1 / 2)) (1 / 10 ^ 8) = 1 := by
    norm_num [downBranchBound, Int.ceil_eq_iff]
  have hu : upBranchBound (5 / 2 * (1 / 2)) (1 / 10 ^ 8) = 2 := by
    norm_num [upBranchBound, Int.floor_eq_iff]
  unfold solveDownAndUpStrongBranch Covered
  simp only [hd, hu]
  norm_num [Dbl.le, Dbl.sub, Dbl.add, Dbl.neg]

/-- **C51** (Glop), partial: if both solves return OK, the bounds and validity flags are those of the
right branch (an empty branch is valid with the objective limit). -/
theorem C51_flags_partial (lower upper : Dbl) (s eps v : ℚ) (limit : Dbl) (i1 i2 : Int)
    (o1 o2 : Dbl) (v1 v2 : Bool) :
    let r := (solveDownAndUpStrongBranch lower upper s eps v limit (some (i1, o1, v1))
      (some (i2, o2, v2))).1
    ((r.downBound = some o1 ∧ r.downValid = some v1) ∨
      (r.downBound = some limit ∧ r.downValid = some true)) ∧
    ((r.upBound = some o2 ∧ r.upValid = some v2) ∨
      (r.upBound = some limit ∧ r.upValid = some true)) := by
  unfold solveDownAndUpStrongBranch
  dsimp only
  split <;> split <;> simp

/-- **C51** (Glop), partial: whatever the two solves return, also if one or both of them fail, a bound that is called
valid is the objective value of a solve that succeeded and called it valid, or the branch has no point (its bounds cross
by more than 1/2) and the bound is the objective limit.  Missing: a valid bound of the down branch is called invalid when
the up solve fails (`C51_up_failure_violated`). -/
theorem C51_valid_flags_partial (lower upper : Dbl) (s eps v : ℚ) (limit : Dbl) (down up : BranchAnswer) :
    let r := (solveDownAndUpStrongBranch lower upper s eps v limit down up).1
    (r.downValid = some true → (∃ i o, down = some (i, o, true) ∧ r.downBound = some o) ∨
      (¬ Dbl.le (Dbl.sub lower (.fin (1 / 2))) (.fin ⌈v * s - 1 - eps⌉) = true ∧ r.downBound = some limit)) ∧
    (r.upValid = some true → (∃ i o, up = some (i, o, true) ∧ r.upBound = some o) ∨
      (¬ Dbl.le (.fin ⌊v * s + 1 + eps⌋) (Dbl.add upper (.fin (1 / 2))) = true ∧ r.upBound = some limit)) := by
  unfold solveDownAndUpStrongBranch downBranchBound upBranchBound
  dsimp only
  generalize Dbl.le (Dbl.sub lower (.fin (1 / 2))) (.fin ⌈v * s - 1 - eps⌉) = d
  generalize Dbl.le (.fin ⌊v * s + 1 + eps⌋) (Dbl.add upper (.fin (1 / 2))) = e
  rcases down with _ | ⟨i1, o1, v1⟩ <;> rcases up with _ | ⟨i2, o2, v2⟩ <;> cases d <;> cases e <;> simp

/-- Both alternatives occur: a down branch that is solved and an up branch without points. -/
example : let r := (solveDownAndUpStrongBranch (.fin 0) (.fin 2) 1 (1 / 10 ^ 8) (5 / 2) .pinf (some (7, .fin 1, true)) none).1
    r.downValid = some true ∧ r.downBound = some (.fin 1) ∧ r.upValid = some true ∧ r.upBound = some .pinf := by
  have hd : downBranchBound (5 / 2 * 1) (1 / 10 ^ 8) = 2 := by
    norm_num [downBranchBound, Int.ceil_eq_iff]
  have hu : upBranchBound (5 / 2 * 1) (1 / 10 ^ 8) = 3 := by
    norm_num [upBranchBound, Int.floor_eq_iff]
  unfold solveDownAndUpStrongBranch
  simp only [hd, hu]
  norm_num [Dbl.le, Dbl.sub, Dbl.add, Dbl.neg]

/-- **C51** is violated when the up solve fails: the valid flag of the down branch is cleared, that of
the up branch is not set. -/
theorem C51_up_failure_violated :
    let r := (solveDownAndUpStrongBranch (.fin 0) (.fin 10) 1 (1 / 10 ^ 8) (5 / 2) .pinf
      (some (7, .fin 1, true)) none).1
    r.downBound = some (.fin 1) ∧ r.downValid = some false ∧ r.upValid = none := by
  have hd : downBranchBound (5 / 2 * 1) (1 / 10 ^ 8) = 2 := by
    norm_num [downBranchBound, Int.ceil_eq_iff]
  have hu : upBranchBound (5 / 2 * 1) (1 / 10 ^ 8) = 3 := by
    norm_num [upBranchBound, Int.floor_eq_iff]
  unfold solveDownAndUpStrongBranch
  simp only [hd, hu]
  norm_num [Dbl.le, Dbl.sub, Dbl.add, Dbl.neg]

/-- **C51**: the number of iterations is never initialised, whatever the solves return. -/
theorem C51_iterations_violated (lower upper : Dbl) (s eps v : ℚ) (limit : Dbl)
    (down up : BranchAnswer) :
    (solveDownAndUpStrongBranch lower upper s eps v limit down up).1.iterations = none := by
  unfold solveDownAndUpStrongBranch
  dsimp only
  cases down <;> cases up <;> (dsimp only; split <;> split <;> simp)

/-! ### C52: the basis round trip -/

/-- The statuses read back: `fixed` becomes a bound chosen by the sign of the reduced cost (dual
value), everything else is unchanged. -/
def readBack (l : List LpBasisStatus) (cost : Nat → ℚ) : List LpBasisStatus :=
  l.mapIdx fun i s => if s = .fixed then (if cost i > 0 then .atLower else .atUpper) else s

theorem set_get_basis (g : Interface) (cs rs : List LpBasisStatus)
    (hc : (cs.length : Int) = getNumberOfColumns g) (hr : (rs.length : Int) = getNumberOfRows g)
    (reducedCost dualValue : Nat → ℚ) :
    ∃ g', setBasisStatus g cs rs = .ok g' ∧ g'.lp = g.lp ∧
      getBasisStatusForColumns g' reducedCost = .ok (readBack cs reducedCost) ∧
      getBasisStatusForRows g' dualValue = .ok (readBack rs dualValue) := by
  have hc : cs.length = g.lp.cols.length := by simpa [getNumberOfColumns] using hc
  have hr : rs.length = g.lp.rows.length := by simpa [getNumberOfRows] using hr
  refine ⟨{ g with
      statuses := cs.map convertVariableStatus ++ rs.map convertConstraintStatusToSlackStatus },
    by simp only [setBasisStatus, firstN, ← hc, ← hr, lt_irrefl, if_false,
    Outcome.bind_ok, Outcome.pure_eq, List.take_length], rfl, ?_, ?_⟩
  · simp only [getBasisStatusForColumns, firstN, ← hc]
    rw [if_neg (by simp)]
    have : (cs.map convertVariableStatus ++ rs.map convertConstraintStatusToSlackStatus).take
        cs.length = cs.map convertVariableStatus := by
      rw [List.take_append_of_le_length (by simp)]; simp
    simp only [this, Outcome.bind_ok, Outcome.pure_eq, readBack]
    congr 1
    apply List.ext_getElem
    · simp
    · intro i h1 h2
      simp only [List.getElem_mapIdx, List.getElem_map]
      cases cs[i]'(by simpa using h2) <;> simp [convertGlopVariableStatus, convertVariableStatus]
  · have : (cs.map convertVariableStatus ++ rs.map convertConstraintStatusToSlackStatus).drop
        cs.length = rs.map convertConstraintStatusToSlackStatus := by
      rw [List.drop_append_of_le_length (by simp)]; simp
    simp only [getBasisStatusForRows, firstN, ← hc, ← hr, this]
    rw [if_neg (by simp)]
    simp only [Outcome.bind_ok, Outcome.pure_eq, readBack]
    rw [List.take_of_length_le (by simp)]
    congr 1
    apply List.ext_getElem
    · simp
    · intro i h1 h2
      simp only [List.getElem_mapIdx, List.getElem_map]
      cases rs[i]'(by simpa using h2) <;> simp [convertGlopConstraintStatus, glopConstraintStatus,
        convertConstraintStatusToSlackStatus]

/-- **C52** (Glop), partial: what is missing is the status `kFixed` (`C52_fixed_violated`).  Statuses
other than `kFixed` survive setting and reading, for columns and rows. -/
theorem C52_round_trip_partial (g : Interface) (cs rs : List LpBasisStatus)
    (hc : (cs.length : Int) = getNumberOfColumns g) (hr : (rs.length : Int) = getNumberOfRows g)
    (hcf : .fixed ∉ cs) (hrf : .fixed ∉ rs) (reducedCost dualValue : Nat → ℚ) :
    ∃ g', setBasisStatus g cs rs = .ok g' ∧ g'.lp = g.lp ∧
      getBasisStatusForColumns g' reducedCost = .ok cs ∧
      getBasisStatusForRows g' dualValue = .ok rs := by
  have key : ∀ (l : List LpBasisStatus) (cost : Nat → ℚ), .fixed ∉ l → readBack l cost = l := by
    intro l cost hl
    apply List.ext_getElem
    · simp [readBack]
    · intro i h1 h2
      have : l[i] ≠ .fixed := fun h => hl (h ▸ List.getElem_mem h2)
      simp [readBack, this]
  obtain ⟨g', h1, h2, h3, h4⟩ := set_get_basis g cs rs hc hr reducedCost dualValue
  exact ⟨g', h1, h2, by rw [h3, key _ _ hcf], by rw [h4, key _ _ hrf]⟩

example : (([.atUpper] : List LpBasisStatus).length : Int) = getNumberOfColumns exampleInterface ∧
    (([.basic, .free, .atLower] : List LpBasisStatus).length : Int) =
      getNumberOfRows exampleInterface := ⟨rfl, rfl⟩

/-- **C52** is violated by `kFixed`, which is never returned, for columns and rows. -/
theorem C52_fixed_violated (reducedCost dualValue : Nat → ℚ) :
    ∃ g', setBasisStatus exampleInterface [.fixed] [.basic, .fixed, .basic] = .ok g' ∧
      (∀ l, getBasisStatusForColumns g' reducedCost = .ok l → .fixed ∉ l) ∧
      (∀ l, getBasisStatusForRows g' dualValue = .ok l → .fixed ∉ l) := by
  obtain ⟨g', h1, -, h3, h4⟩ := set_get_basis exampleInterface [.fixed] [.basic, .fixed, .basic]
    rfl rfl reducedCost dualValue
  refine ⟨g', h1, ?_, ?_⟩
  · intro l hl
    rw [h3] at hl
    have hl := Outcome.ok.inj hl
    subst hl
    simp only [readBack, List.mapIdx_cons, List.mapIdx_nil]
    simp
    split <;> simp
  · intro l hl
    rw [h4] at hl
    have hl := Outcome.ok.inj hl
    subst hl
    simp only [readBack, List.mapIdx_cons, List.mapIdx_nil]
    simp
    split <;> simp

/-! ### C57: WriteLpToFile -/

/-- **C57** is violated (Glop) for every path and every outcome of the write: the result is an error
if the file was written and the path if it was not. -/
theorem C57_write_inverted_violated (path : String) :
    (∃ msg, writeLpToFile path true = .error msg) ∧ writeLpToFile path false = .ok path :=
  ⟨⟨_, rfl⟩, rfl⟩

end Glop
end MiniMip
