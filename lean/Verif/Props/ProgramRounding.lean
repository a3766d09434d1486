import Verif.Props.ProgramTolerance
import Verif.Props.SolverApprox

/-!
# Property C105: rounding the integer variables of what `Solve` returns
-/

namespace MiniMip
namespace Program

open Solver (point)

/-! ### The specification -/

/-- `z` is `y` with the integer variables rounded to the nearest integer (either one in the middle between two). -/
def Rounded (p : Problem) (y z : Int → ℚ) : Prop :=
  ∀ (n : Nat) (v : Variable), p.vars[n]? = some v →
    if v.isInteger then ∃ k : Int, z n = k ∧ |y n - k| ≤ 1 / 2 else z n = y n

/-- Variable `j` is an integer variable. -/
def integerAt (p : Problem) (j : Int) : Bool := (p.vars[j.toNat]?.map (·.isInteger)).getD false

/-- How much a constraint can change per unit by which all integer variables change. -/
def rowMass (p : Problem) (k : Constraint) : ℚ :=
  ((k.varIndices.zip k.coefficients).map fun t => if integerAt p t.1 then |t.2| else 0).sum

/-- The same for the objective. -/
def objectiveMass (p : Problem) : ℚ := (p.vars.map fun v => if v.isInteger then |v.objective| else 0).sum

/-- A constraint on integer variables only, with integral coefficients and (finite) sides. -/
structure WholeRow (p : Problem) (k : Constraint) : Prop where
  integers : ∀ j ∈ k.varIndices, integerAt p j = true
  coefficients : ∀ q ∈ k.coefficients, ∃ i : Int, q = i
  sides : ∀ q, (k.lhs = .fin q ∨ k.rhs = .fin q) → ∃ i : Int, q = i

/-- A problem with integer variables only, all of whose numbers are integral (the offset of the objective need not be), and
in which rounding by `tol` changes no constraint and no objective value by one. -/
structure WholeProblem (p : Problem) (tol : ℚ) : Prop where
  integers : ∀ v ∈ p.vars, v.isInteger = true ∧ ∃ i : Int, v.objective = i
  bounds : IntegralIntegers p
  rows : ∀ k ∈ p.constraints, WholeRow p k ∧ tol * rowMass p k < 1
  objective : tol * objectiveMass p < 1

/-! ### Rounding a point -/

theorem between_int {l u : Dbl} (hl : ∀ q, l = .fin q → ∃ i : Int, q = i) (hu : ∀ q, u = .fin q → ∃ i : Int, q = i)
    {y : ℚ} (h : Between l y u) {k : Int} (hk : |y - k| < 1) : Between l k u := by
  obtain ⟨h1, h2⟩ := h
  rw [abs_lt] at hk
  constructor
  · cases l with
    | nan => cases h1
    | ninf => rfl
    | pinf => cases h1
    | fin q =>
      obtain ⟨i, rfl⟩ := hl q rfl
      simp at h1 ⊢
      have : (i : ℚ) - 1 < k := by linarith
      have : i - 1 < k := by exact_mod_cast this
      omega
  · cases u with
    | nan => cases h2
    | ninf => cases h2
    | pinf => rfl
    | fin q =>
      obtain ⟨i, rfl⟩ := hu q rfl
      simp at h2 ⊢
      have : (k : ℚ) - 1 < i := by linarith
      have : k - 1 < i := by exact_mod_cast this
      omega

theorem sum_change (l : List (Int × ℚ)) (y z : Int → ℚ) (b : Int → Bool) (tol : ℚ)
    (h : ∀ t ∈ l, |y t.1 - z t.1| ≤ if b t.1 then tol else 0) :
    |(l.map fun t => t.2 * y t.1).sum - (l.map fun t => t.2 * z t.1).sum| ≤
      tol * (l.map fun t => if b t.1 then |t.2| else 0).sum := by
  induction l with
  | nil => simp
  | cons t r ih =>
    have ih := ih fun t ht => h t (List.mem_cons_of_mem _ ht)
    have h0 := h t List.mem_cons_self
    simp only [List.map_cons, List.sum_cons]
    have e : t.2 * y t.1 + (r.map fun t => t.2 * y t.1).sum - (t.2 * z t.1 + (r.map fun t => t.2 * z t.1).sum) =
        t.2 * (y t.1 - z t.1) + ((r.map fun t => t.2 * y t.1).sum - (r.map fun t => t.2 * z t.1).sum) := by ring
    rw [e, mul_add]
    refine (abs_add_le _ _).trans (add_le_add ?_ ih)
    rw [abs_mul]
    split <;> rename_i hb
    · rw [if_pos hb] at h0
      rw [mul_comm tol]
      exact mul_le_mul_of_nonneg_left h0 (abs_nonneg _)
    · rw [if_neg hb] at h0
      rw [mul_zero, le_antisymm h0 (abs_nonneg _), mul_zero]

theorem objective_change (l : List Variable) (y z : Int → ℚ) (tol : ℚ) : ∀ k : Nat,
    (∀ (n : Nat) (v : Variable), l[n]? = some v →
      |y ((k + n : Nat) : Int) - z ((k + n : Nat) : Int)| ≤ if v.isInteger then tol else 0) →
    |objectiveFrom k l y - objectiveFrom k l z| ≤
      tol * (l.map fun v => if v.isInteger then |v.objective| else 0).sum := by
  induction l with
  | nil => intro k _; simp [objectiveFrom]
  | cons v r ih =>
    intro k h
    have ih := ih (k + 1) fun n w hw => by
      have := h (n + 1) w (by simpa using hw)
      rwa [show k + (n + 1) = k + 1 + n by omega] at this
    have h0 := h 0 v rfl
    simp only [List.map_cons, List.sum_cons, objectiveFrom]
    have e : v.objective * y k + objectiveFrom (k + 1) r y - (v.objective * z k + objectiveFrom (k + 1) r z) =
        v.objective * (y k - z k) + (objectiveFrom (k + 1) r y - objectiveFrom (k + 1) r z) := by ring
    rw [e, mul_add]
    refine (abs_add_le _ _).trans (add_le_add ?_ ih)
    rw [abs_mul]
    simp only [Nat.add_zero] at h0
    split <;> rename_i hb
    · rw [if_pos hb] at h0
      rw [mul_comm tol]
      exact mul_le_mul_of_nonneg_left h0 (abs_nonneg _)
    · rw [if_neg hb] at h0
      rw [mul_zero, le_antisymm h0 (abs_nonneg _), mul_zero]

theorem sum_whole (l : List (Int × ℚ)) (z : Int → ℚ) (h : ∀ t ∈ l, (∃ i : Int, t.2 = i) ∧ ∃ k : Int, z t.1 = k) :
    ∃ i : Int, (l.map fun t => t.2 * z t.1).sum = i := by
  induction l with
  | nil => exact ⟨0, by simp⟩
  | cons t r ih =>
    obtain ⟨i, hi⟩ := ih fun t ht => h t (List.mem_cons_of_mem _ ht)
    obtain ⟨⟨a, ha⟩, b, hb⟩ := h t List.mem_cons_self
    exact ⟨a * b + i, by simp only [List.map_cons, List.sum_cons, hi, ha, hb]; push_cast; ring⟩

theorem objective_whole (l : List Variable) (hl : ∀ v ∈ l, ∃ i : Int, v.objective = i) (z : Int → ℚ) : ∀ k : Nat,
    (∀ (n : Nat), n < l.length → ∃ i : Int, z ((k + n : Nat) : Int) = i) →
    ∃ i : Int, objectiveFrom k l z = i := by
  induction l with
  | nil => intro k _; exact ⟨0, by simp [objectiveFrom]⟩
  | cons v r ih =>
    intro k h
    obtain ⟨i, hi⟩ := ih (fun v hv => hl v (List.mem_cons_of_mem _ hv)) (k + 1) fun n hn => by
      obtain ⟨i, hi⟩ := h (n + 1) (by simpa using hn)
      exact ⟨i, by rw [← hi]; congr 2; omega⟩
    obtain ⟨a, ha⟩ := hl v List.mem_cons_self
    obtain ⟨b, hb⟩ := h 0 (by simp)
    refine ⟨a * b + i, ?_⟩
    simp only [Nat.add_zero] at hb
    rw [objectiveFrom, hi, ha, hb]; push_cast; ring

theorem Rounded.near {p : Problem} {tol : ℚ} (ht : tol < 1 / 2) {y z : Int → ℚ} (hy : p.FeasibleUpTo tol y)
    (hz : Rounded p y z) {n : Nat} {v : Variable} (hv : p.vars[n]? = some v) :
    |y n - z n| ≤ if v.isInteger then tol else 0 := by
  have h := hz n v hv
  split <;> rename_i hi
  · rw [if_pos hi] at h
    obtain ⟨k, hk, hd⟩ := h
    obtain ⟨m, hm⟩ := (hy.1 n v hv).2 hi
    obtain rfl : k = m := by
      rw [abs_le] at hd hm
      have h1 : (k : ℚ) - m < 1 := by linarith [hd.1, hm.2]
      have h2 : (m : ℚ) - k < 1 := by linarith [hd.2, hm.1]
      have h1 : k - m < 1 := by exact_mod_cast h1
      have h2 : m - k < 1 := by exact_mod_cast h2
      omega
    rw [hk]; exact hm
  · rw [if_neg hi] at h
    rw [h, sub_self, abs_zero]

theorem Rounded.near_row {p : Problem} (hp : p.WellFormed) {tol : ℚ} (ht : tol < 1 / 2) {y z : Int → ℚ}
    (hy : p.FeasibleUpTo tol y) (hz : Rounded p y z) {k : Constraint} (hk : k ∈ p.constraints) :
    |k.activity y - k.activity z| ≤ tol * rowMass p k := by
  refine sum_change _ y z (integerAt p) tol fun t ht' => ?_
  obtain ⟨-, -, -, -, hr⟩ := hp.2 k hk
  obtain ⟨h0, h1⟩ := hr t.1 (List.of_mem_zip ht').1
  obtain ⟨n, hn⟩ := Int.eq_ofNat_of_zero_le h0
  rw [hn] at h1 ⊢
  have hlt : n < p.vars.length := by omega
  have := hz.near ht hy (List.getElem?_eq_getElem hlt)
  rw [integerAt, Int.toNat_natCast, List.getElem?_eq_getElem hlt]
  exact this

/-- What rounding does in general.  Let the tolerance be below one half, and let `y` satisfy bounds and constraints
and be integral up to the tolerance.  Rounding the integer variables moves each of
them by the tolerance at most and leaves the others; it stays within bounds that are integral; it breaks a constraint by at
most the tolerance times the sum of the sizes of the coefficients of the integer variables in it, and a constraint on
integer variables with integral numbers not at all if that is less than one; and it changes the objective by at most
the tolerance times the sum of the sizes of the objective coefficients of the integer variables. -/
theorem rounding_change (p : Problem) (hp : p.WellFormed) (tol : ℚ) (ht : tol < 1 / 2) (y z : Int → ℚ)
    (hy : p.FeasibleUpTo tol y) (hz : Rounded p y z) :
    (∀ (n : Nat) (v : Variable), p.vars[n]? = some v →
      (v.isInteger = true → (∃ k : Int, z n = k) ∧ |y n - z n| ≤ tol) ∧ (v.isInteger = false → z n = y n) ∧
      (IntegralIntegers p → Between v.lower (z n) v.upper)) ∧
    (∀ k ∈ p.constraints, BetweenUpTo (tol * rowMass p k) k.lhs (k.activity z) k.rhs ∧
      (WholeRow p k → tol * rowMass p k < 1 → Between k.lhs (k.activity z) k.rhs)) ∧
    |p.userObjective y - p.userObjective z| ≤ tol * objectiveMass p := by
  refine ⟨fun n v hv => ⟨fun hi => ?_, fun hi => ?_, fun hI => ?_⟩, fun k hk => ⟨?_, fun hw hlt => ?_⟩, ?_⟩
  · have h1 := hz n v hv
    have h2 := hz.near ht hy hv
    rw [if_pos hi] at h1 h2
    obtain ⟨k, hk, -⟩ := h1
    exact ⟨⟨k, hk⟩, h2⟩
  · have h1 := hz n v hv
    rwa [if_neg (by simp [hi])] at h1
  · have h1 := hz n v hv
    have h2 := hz.near ht hy hv
    split at h1 <;> rename_i hi
    · rw [if_pos hi] at h2
      obtain ⟨k, hk, -⟩ := h1
      obtain ⟨hl, hu⟩ := hI v (List.mem_of_getElem? hv) hi
      rw [hk] at h2 ⊢
      refine between_int (fun q hq => ?_) (fun q hq => ?_) (hy.1 n v hv).1 (lt_of_le_of_lt h2 (by linarith))
      · rcases hl with h | ⟨i, h⟩ <;> rw [h] at hq <;> cases hq
        exact ⟨i, rfl⟩
      · rcases hu with h | ⟨i, h⟩ <;> rw [h] at hq <;> cases hq
        exact ⟨i, rfl⟩
    · rw [h1]; exact (hy.1 n v hv).1
  · have h1 := hz.near_row hp ht hy hk
    obtain ⟨h2, h3⟩ := hy.2 k hk
    rw [abs_le] at h1
    constructor
    · cases hl : k.lhs with
      | nan => rw [hl] at h2; cases h2
      | ninf => rfl
      | pinf => rw [hl] at h2; cases h2
      | fin q => rw [hl] at h2; simp at h2 ⊢; linarith [h1.2]
    · cases hl : k.rhs with
      | nan => rw [hl] at h3; cases h3
      | ninf => rw [hl] at h3; cases h3
      | pinf => rfl
      | fin q => rw [hl] at h3; simp at h3 ⊢; linarith [h1.1]
  · have h1 := hz.near_row hp ht hy hk
    obtain ⟨i, hi⟩ : ∃ i : Int, k.activity z = i := by
      refine sum_whole _ z fun t ht' => ⟨hw.coefficients _ (List.of_mem_zip ht').2, ?_⟩
      have hm := (List.of_mem_zip ht').1
      obtain ⟨-, -, -, -, hr⟩ := hp.2 k hk
      obtain ⟨h0, h1⟩ := hr t.1 hm
      have hint := hw.integers t.1 hm
      obtain ⟨n, hn⟩ := Int.eq_ofNat_of_zero_le h0
      rw [hn] at h1 hint ⊢
      have hlt' : n < p.vars.length := by omega
      rw [integerAt, Int.toNat_natCast, List.getElem?_eq_getElem hlt'] at hint
      have h3 := hz n _ (List.getElem?_eq_getElem hlt')
      rw [if_pos (by exact hint)] at h3
      obtain ⟨k, hk, -⟩ := h3
      exact ⟨k, hk⟩
    rw [hi] at h1 ⊢
    exact between_int (fun q hq => hw.sides q (.inl hq)) (fun q hq => hw.sides q (.inr hq)) (hy.2 k hk)
      (lt_of_le_of_lt h1 hlt)
  · have := objective_change p.vars y z tol 0 fun n v hv => by
      rw [Nat.zero_add]; exact hz.near ht hy hv
    rw [Problem.userObjective, Problem.userObjective, add_sub_add_right_eq_sub]
    exact this

/-- **C105**, what holds in general, with cuts or without, for all parameters with a tolerance below one half, and all LP code
that reports feasible points: let `sol` be the best or another solution that `Solve` returned.  Rounding its integer variables moves each of
them by the tolerance at most and leaves the others; it stays within bounds that are integral; it breaks a constraint by at
most the tolerance times the sum of the sizes of the coefficients of the integer variables in it, and a constraint on
integer variables with integral numbers not at all if that is less than one; and it changes the objective by at most
the tolerance times the sum of the sizes of the objective coefficients of the integer variables. -/
theorem C105_rounding_partial {e : Engine} (he : e.Feasible) {x : Setup.External} {p : Problem} (hp : p.WellFormed)
    {user : Setup.ParamsMsg} {c : Setup.Created} (h : Setup.create x p user = .ok c)
    (ht : user.integralityTolerance.getD (1 / 10 ^ 6) < 1 / 2) {fuel : Nat} {s : Solver.State (Runner World)}
    (hs : solve e c fuel = some (.ok s)) {sol : Solution}
    (hsol : (sol = s.result.best ∧ s.result.best ≠ {}) ∨ sol ∈ s.result.additional) {z : Int → ℚ}
    (hz : Rounded p (point sol.values) z) :
    (∀ (n : Nat) (v : Variable), p.vars[n]? = some v →
      (v.isInteger = true → (∃ k : Int, z n = k) ∧
        |point sol.values n - z n| ≤ user.integralityTolerance.getD (1 / 10 ^ 6)) ∧
      (v.isInteger = false → z n = point sol.values n) ∧ (IntegralIntegers p → Between v.lower (z n) v.upper)) ∧
    (∀ k ∈ p.constraints,
      BetweenUpTo (user.integralityTolerance.getD (1 / 10 ^ 6) * rowMass p k) k.lhs (k.activity z) k.rhs ∧
      (WholeRow p k → user.integralityTolerance.getD (1 / 10 ^ 6) * rowMass p k < 1 →
        Between k.lhs (k.activity z) k.rhs)) ∧
    |p.userObjective (point sol.values) - p.userObjective z| ≤
      user.integralityTolerance.getD (1 / 10 ^ 6) * objectiveMass p := by
  obtain ⟨h1, h2⟩ := (C74_solutions_feasible he hp h).2 fuel s hs
  refine rounding_change p hp _ ht _ z ?_ hz
  rcases hsol with ⟨rfl, hb⟩ | hm
  · exact h1.resolve_left hb
  · exact h2 sol hm

/-! ### Problems on which rounding gives the exact answer -/

theorem whole_feasible {p : Problem} (hp : p.WellFormed) {tol : ℚ} (ht : tol < 1 / 2) (hw : WholeProblem p tol)
    {y z : Int → ℚ} (hy : p.FeasibleUpTo tol y) (hz : Rounded p y z) : p.Feasible z := by
  obtain ⟨h1, h2, -⟩ := rounding_change p hp tol ht y z hy hz
  refine ⟨fun n v hv => ?_, fun k hk => ?_⟩
  · obtain ⟨h3, -, h5⟩ := h1 n v hv
    exact ⟨h5 hw.bounds, fun hi => (h3 hi).1⟩
  · exact (h2 k hk).2 (hw.rows k hk).1 (hw.rows k hk).2

theorem whole_objective {p : Problem} {tol : ℚ} (hw : WholeProblem p tol) {z : Int → ℚ} (hz : p.Feasible z) :
    ∃ i : Int, objectiveFrom 0 p.vars z = i := by
  refine objective_whole p.vars (fun v hv => (hw.integers v hv).2) z 0 fun n hn => ?_
  rw [Nat.zero_add]
  exact (hz.1 n _ (List.getElem?_eq_getElem hn)).2 (hw.integers _ (List.getElem_mem hn)).1

/-- On a problem with integer variables only and integral numbers, in which rounding by the tolerance changes no
constraint and no objective value by one, an answer that is right up to the tolerance gives the exact answer: either the
problem is infeasible, and `Solve` returned an error or no solution, or `Solve` returned a solution, and rounding it gives an
optimal point of the user's problem. -/
theorem rounded_optimal {p : Problem} (hp : p.WellFormed) {tol : ℚ} (ht : tol < 1 / 2) (hw : WholeProblem p tol)
    {o : Option (Outcome (Solver.State (Runner World)))} (ho : Solves p tol o) :
    ((∀ y, ¬ p.Feasible y) ∧ (o = some (.error "The problem is infeasible or unbounded") ∨
      ∃ s, o = some (.ok s) ∧ s.result.best = {})) ∨
    ∃ s, o = some (.ok s) ∧ s.result.best ≠ {} ∧
      ∀ z, Rounded p (point s.result.best.values) z → p.Optimal z := by
  rcases ho with ⟨h1, h2⟩ | ⟨s, h1, h2, h3⟩
  · exact .inl ⟨h2, .inl h1⟩
  · by_cases hb : s.result.best = {}
    · exact .inl ⟨fun y hy => (h3 y hy).1 hb, .inr ⟨s, h1, hb⟩⟩
    · refine .inr ⟨s, h1, hb, fun z hz => ?_⟩
      have hf := whole_feasible hp ht hw (h2 hb) hz
      refine ⟨hf, fun y hy => ?_⟩
      obtain ⟨-, h4⟩ := h3 y hy
      obtain ⟨-, -, h5⟩ := rounding_change p hp tol ht _ z (h2 hb) hz
      have h6 := lt_of_le_of_lt h5 hw.objective
      obtain ⟨i, hi⟩ := whole_objective hw hf
      obtain ⟨j, hj⟩ := whole_objective hw hy
      rw [abs_lt] at h6
      have ei : p.userObjective z = i + p.offset := by rw [Problem.userObjective, hi]
      have ej : p.userObjective y = j + p.offset := by rw [Problem.userObjective, hj]
      split at h4 <;> rename_i hm
      · rw [if_pos hm]
        have : (j : ℚ) - 1 < i := by linarith [h6.1, h6.2]
        have : j - 1 < i := by exact_mod_cast this
        have : (j : ℚ) ≤ i := by exact_mod_cast (by omega : j ≤ i)
        linarith
      · rw [if_neg hm]
        have : (i : ℚ) - 1 < j := by linarith [h6.1, h6.2]
        have : i - 1 < j := by exact_mod_cast this
        have : (i : ℚ) ≤ j := by exact_mod_cast (by omega : i ≤ j)
        linarith

theorem objective_within (range : Nat → ℚ × ℚ) (l : List Variable) : ∀ k : Nat, ∃ B : ℚ, ∀ y : Int → ℚ,
    (∀ n < l.length, (range (k + n)).1 ≤ y ((k + n : Nat) : Int) ∧ y ((k + n : Nat) : Int) ≤ (range (k + n)).2) →
      |objectiveFrom k l y| ≤ B := by
  induction l with
  | nil => intro k; exact ⟨0, fun y _ => by simp [objectiveFrom]⟩
  | cons v r ih =>
    intro k
    obtain ⟨B, hB⟩ := ih (k + 1)
    refine ⟨|v.objective| * (|(range k).1| + |(range k).2|) + B, fun y hy => ?_⟩
    have h1 := hy 0 (by simp)
    have h2 := hB y fun n hn => by
      have := hy (n + 1) (by simpa using hn)
      rwa [show k + (n + 1) = k + 1 + n by omega] at this
    rw [Nat.add_zero] at h1
    have h3 : |y k| ≤ |(range k).1| + |(range k).2| := by
      rw [abs_le]
      constructor
      · linarith [neg_abs_le (range k).1, abs_nonneg (range k).2, h1.1]
      · linarith [le_abs_self (range k).2, abs_nonneg (range k).1, h1.2]
    rw [objectiveFrom]
    refine (abs_add_le _ _).trans (add_le_add ?_ h2)
    rw [abs_mul]
    exact mul_le_mul_of_nonneg_left h3 (abs_nonneg _)

/-- If all variables are integer variables and kept within a range, the objective is bounded. -/
theorem bounded_of_within {p : Problem} {range : Nat → ℚ × ℚ} (hf : IntegersWithin p range)
    (hi : ∀ v ∈ p.vars, v.isInteger = true) : Bounded p := by
  obtain ⟨B, hB⟩ := objective_within range p.vars 0
  refine ⟨if p.isMaximization then B + p.offset else -B + p.offset, fun y hy => ?_⟩
  have h := abs_le.1 (hB y fun n hn => by
    rw [Nat.zero_add]
    exact hf y hy n _ (List.getElem?_eq_getElem hn) (hi _ (List.getElem_mem hn)))
  rw [Problem.userObjective]
  cases p.isMaximization <;> simp <;> linarith [h.1, h.2]

/-- **C105 for the whole program**, with Glop: on such problems, if the constraints imply a finite range for each variable,
with the cut runner switched off, `Create` succeeds, and on LP code that answers rightly `Solve` ends, tells infeasible
problems from feasible ones, and for the latter rounding the solution it returns gives an optimal point. -/
theorem C105_exact (p : Problem) (hp : p.WellFormed) (range : Nat → ℚ × ℚ) (hf : IntegersWithin p range) :
    ∀ (x : Setup.External) (user : Setup.ParamsMsg) (lp : LpParameters),
      Setup.LpWins user.lp lp → Setup.GlopTakes lp →
      (∃ k ≤ 0, user.runner.bind (·.maxIterations) = some k) →
      (∀ s, user.branching.bind (·.rule) ≠ some (.random s)) →
      0 ≤ user.integralityTolerance.getD (1 / 10 ^ 6) → user.integralityTolerance.getD (1 / 10 ^ 6) < 1 / 2 →
      WholeProblem p (user.integralityTolerance.getD (1 / 10 ^ 6)) →
      ∃ c, Setup.create x p user = .ok c ∧ ∀ e : Engine, e.Right → e.GlopReturns →
        ((∀ y, ¬ p.Feasible y) ∧
          (solve e c (rangeBound p range) = some (.error "The problem is infeasible or unbounded") ∨
          ∃ s, solve e c (rangeBound p range) = some (.ok s) ∧ s.result.best = {})) ∨
        ∃ s, solve e c (rangeBound p range) = some (.ok s) ∧ s.result.best ≠ {} ∧
          ∀ z, Rounded p (point s.result.best.values) z → p.Optimal z := by
  intro x user lp h1 h2 h3 h4 h5 h6 hw
  obtain ⟨c, hc, h⟩ := C104_total_correctness p hp range hf (bounded_of_within hf fun v hv => (hw.integers v hv).1) x user lp h1 h2 h3 h4 h5
  exact ⟨c, hc, fun e he hr => rounded_optimal hp h6 hw (h e he hr)⟩

/-- **C105 for the whole program**, with SoPlex. -/
theorem C105_soplex_exact (p : Problem) (hp : p.WellFormed) (range : Nat → ℚ × ℚ) (hf : IntegersWithin p range) :
    ∀ (x : Setup.External) (set : Soplex.Settings) (user : Setup.ParamsMsg) (lp : LpParameters),
      Setup.newSoplex x = .ok set → (∀ r v, x.accepts.real r v = true) → (∀ r v, x.accepts.int r v = true) →
      Setup.LpWins user.lp lp → Setup.SoplexTakes lp →
      (∃ k ≤ 0, user.runner.bind (·.maxIterations) = some k) →
      (∀ s, user.branching.bind (·.rule) ≠ some (.random s)) →
      0 ≤ user.integralityTolerance.getD (1 / 10 ^ 6) → user.integralityTolerance.getD (1 / 10 ^ 6) < 1 / 2 →
      WholeProblem p (user.integralityTolerance.getD (1 / 10 ^ 6)) →
      ∃ c, Setup.create x p user = .ok c ∧ ∀ e : Engine, e.Right → e.SoplexReturns →
        ((∀ y, ¬ p.Feasible y) ∧
          (solve e c (rangeBound p range) = some (.error "The problem is infeasible or unbounded") ∨
          ∃ s, solve e c (rangeBound p range) = some (.ok s) ∧ s.result.best = {})) ∨
        ∃ s, solve e c (rangeBound p range) = some (.ok s) ∧ s.result.best ≠ {} ∧
          ∀ z, Rounded p (point s.result.best.values) z → p.Optimal z := by
  intro x set user lp hs ha hb h1 h2 h3 h4 h5 h6 hw
  obtain ⟨c, hc, h⟩ := C104_soplex_total_correctness_partial p hp range hf hw.bounds
    (bounded_of_within hf fun v hv => (hw.integers v hv).1) x set user lp hs ha hb h1 h2 h3 h4 h5
  exact ⟨c, hc, fun e he hr => rounded_optimal hp h6 hw (h e he hr)⟩

/-! ### A problem on which the answer is far from the optimum -/

/-- `max y - 2 x`, `y ≤ 10^7 x`, `x` in {0, 1}, `0 ≤ y ≤ 1`: pay 2 to be allowed to earn 1.  The optimum is 0, at (0, 0); the
relaxation pays only for a ten-millionth. -/
def charge : Problem :=
  { vars := [{ name := "x", objective := -2, lower := .fin 0, upper := .fin 1, isInteger := true },
      { name := "y", objective := 1, lower := .fin 0, upper := .fin 1 }]
    constraints := [{ name := "c", varIndices := [0, 1], coefficients := [-10000000, 1], lhs := .ninf, rhs := .fin 0 }]
    isMaximization := true }

theorem charge_relaxed (y : Int → ℚ) : charge.RelaxedFeasible y ↔
    0 ≤ y 0 ∧ y 0 ≤ 1 ∧ 0 ≤ y 1 ∧ y 1 ≤ 1 ∧ y 1 ≤ 10000000 * y 0 := by
  constructor
  · rintro ⟨h1, h2⟩
    have hx := h1 0 _ rfl
    have hy := h1 1 _ rfl
    have hc := h2 _ (List.mem_singleton.2 rfl)
    simp [Between, Constraint.activity] at hx hy hc
    exact ⟨hx.1, hx.2, hy.1, hy.2, by linarith⟩
  · rintro ⟨h1, h2, h3, h4, h5⟩
    refine ⟨fun n v hv => ?_, fun k hk => ?_⟩
    · match n with
      | 0 => simp [charge] at hv; subst hv; simpa [Between] using ⟨h1, h2⟩
      | 1 => simp [charge] at hv; subst hv; simpa [Between] using ⟨h3, h4⟩
      | n + 2 => simp [charge] at hv
    · simp [charge] at hk
      subst hk
      simp [Between, Constraint.activity]
      linarith

theorem charge_objective (y : Int → ℚ) : charge.userObjective y = -2 * y 0 + y 1 := by
  simp [charge, Problem.userObjective, objectiveFrom]

theorem charge_optimal {y : Int → ℚ} (h : RelaxedOptimal charge y) : y 0 = 1 / 10000000 ∧ y 1 = 1 := by
  obtain ⟨h1, h2⟩ := h
  have h3 := (charge_relaxed y).1 h1
  have h4 := h2 (fun j => if j = 0 then 1 / 10000000 else 1) ((charge_relaxed _).2 (by norm_num))
  rw [if_pos (by rfl), charge_objective, charge_objective] at h4
  norm_num at h4
  constructor <;> linarith [h3.2.2.2.1, h3.2.2.2.2]

theorem charge_spec : charge.WellFormed ∧ FiniteIntegers charge ∧ IntegralIntegers charge ∧ Bounded charge ∧
    charge.Optimal fun _ => 0 := by
  have hmax : charge.isMaximization = true := rfl
  refine ⟨?_, ?_, ?_, ⟨1, fun y hy => ?_⟩, ⟨⟨fun n v hv => ?_, fun k hk => ?_⟩, fun y hy => ?_⟩⟩
  · simp [Problem.WellFormed, charge, Variable.WellFormed, Constraint.WellFormed, Ordered, Dbl.le]
  · intro v hv hi
    simp [charge] at hv
    rcases hv with rfl | rfl
    · exact ⟨0, 1, rfl, rfl⟩
    · simp at hi
  · intro v hv hi
    simp [charge] at hv
    rcases hv with rfl | rfl
    · exact ⟨.inr ⟨0, by simp⟩, .inr ⟨1, by simp⟩⟩
    · simp at hi
  · have := (charge_relaxed y).1 hy
    rw [hmax, if_pos rfl, charge_objective]
    linarith [this.1, this.2.2.2.1]
  · match n with
    | 0 => simp [charge] at hv; subst hv; exact ⟨by norm_num [Between], fun _ => ⟨0, by simp⟩⟩
    | 1 => simp [charge] at hv; subst hv; exact ⟨by norm_num [Between], fun _ => ⟨0, by simp⟩⟩
    | n + 2 => simp [charge] at hv
  · simp [charge] at hk
    subst hk
    norm_num [Between, Constraint.activity]
  · rw [hmax, if_pos rfl, charge_objective, charge_objective]
    have hr := (charge_relaxed y).1 ⟨fun n v hv => (hy.1 n v hv).1, hy.2⟩
    obtain ⟨k, hk⟩ := (hy.1 0 _ rfl).2 rfl
    have hk : y 0 = k := hk
    have h0 : (0 : ℚ) ≤ k := hk ▸ hr.1
    have h0 : 0 ≤ k := by exact_mod_cast h0
    rcases h0.eq_or_lt with h | h
    · rw [← h] at hk
      simp at hk
      rw [hk] at hr ⊢
      linarith [hr.2.2.2.2]
    · have : (1 : ℚ) ≤ k := by exact_mod_cast h
      rw [hk]
      linarith [hr.2.2.2.1]

/-- What is wrong with an answer to `charge`: it is called optimal, its objective value is above 999/1000 although the optimum
is 0, and rounding it breaks the constraint. -/
def Overcharged (o : Option (Outcome (Solver.State (Runner World)))) : Prop :=
  ∃ s, o = some (.ok s) ∧ s.result.solveStatus = some SolveStatus.optimal ∧
    999 / 1000 < charge.userObjective (point s.result.best.values) ∧
    ∀ z, Rounded charge (point s.result.best.values) z → ¬ charge.Feasible z

theorem overcharged {e : Engine} (he : e.Right) {x : Setup.External} {user : Setup.ParamsMsg}
    (htol : user.integralityTolerance.getD (1 / 10 ^ 6) = 1 / 10 ^ 6) {c : Setup.Created}
    (h : Setup.create x charge user = .ok c)
    (hl : ((∃ s g, c.lpi = .glop s g) ∧ e.GlopReturns) ∨ (∃ g, c.lpi = .soplex g) ∧ e.SoplexReturns ∧
      IntegralIntegers charge ∧ ∃ dir, c.rule = .maxFractional dir) (hn : NoCuts c.runner.params) :
    Overcharged (solve e c 2) := by
  obtain ⟨h1, -, -, h4, h5⟩ := charge_spec
  obtain ⟨s, hs, hst, hopt⟩ := relaxed_accepted (user := user) he h1 h4 ⟨_, fun n v hv => (h5.1.1 n v hv).1, h5.1.2⟩
    (by rw [htol]; norm_num) (fun y hy n v hv hi => by
      rw [htol]
      match n with
      | 0 =>
        refine ⟨0, ?_⟩
        have := (charge_optimal hy).1
        show |y 0 - (0 : Int)| ≤ _
        rw [this, abs_le]; norm_num
      | 1 => simp [charge] at hv; subst hv; simp at hi
      | n + 2 => simp [charge] at hv) h hl hn
  obtain ⟨h6, h7⟩ := charge_optimal hopt
  refine ⟨s, hs, hst, ?_, fun z hz hf => ?_⟩
  · rw [charge_objective, h6, h7]; norm_num
  · have hz0 := hz 0 _ rfl
    have hz1 := hz 1 _ rfl
    simp only [if_true, Bool.false_eq_true, if_false] at hz0 hz1
    obtain ⟨k, hk, hd⟩ := hz0
    have hk : z 0 = k := hk
    have hz1 : z 1 = 1 := hz1.trans h7
    have hd : |point s.result.best.values 0 - k| ≤ 1 / 2 := hd
    have hr := (charge_relaxed z).1 ⟨fun n v hv => (hf.1 n v hv).1, hf.2⟩
    rw [h6, abs_le] at hd
    have : (k : ℚ) < 1 := by linarith [hd.1]
    have : k < 1 := by exact_mod_cast this
    have : (k : ℚ) ≤ 0 := by exact_mod_cast (by omega : k ≤ 0)
    linarith [hr.2.2.2.2]

/-- **C105 fails in general.**  On `max y - 2 x`, `y ≤ 10^7 x`, `x` in {0, 1}, `0 ≤ y ≤ 1`, with the cut runner switched off and all
other parameters at their defaults, or with SoPlex chosen, `Solve` returns OK after at most two iterations, whatever LP code
that answers rightly it runs on, and calls optimal what pays for a ten-millionth of the charge: the objective value is above
999/1000, but the optimum is 0, and rounding `x` makes the solution infeasible. -/
theorem C105_charge_violated :
    (charge.WellFormed ∧ FiniteIntegers charge ∧ Bounded charge ∧ charge.Optimal (fun _ => 0) ∧
      charge.userObjective (fun _ => 0) = 0) ∧
    (∀ x, (∃ c, Setup.create x charge exUser = .ok c) ∧ ∀ c, Setup.create x charge exUser = .ok c →
      ∀ e : Engine, e.Right → e.GlopReturns → Overcharged (solve e c 2)) ∧
    ∀ x set, Setup.newSoplex x = .ok set → (∀ r v, x.accepts.real r v = true) → (∀ r v, x.accepts.int r v = true) →
      (∃ c, Setup.create x charge soplexUser = .ok c) ∧ ∀ c, Setup.create x charge soplexUser = .ok c →
      ∀ e : Engine, e.Right → e.SoplexReturns → Overcharged (solve e c 2) := by
  obtain ⟨h1, h2, h3, h4, h5⟩ := charge_spec
  refine ⟨⟨h1, h2, h4, h5, by rw [charge_objective]; norm_num⟩, fun x => ⟨?_, fun c hc e he hret => ?_⟩,
    fun x set hset hx1 hx2 => ⟨?_, fun c hc e he hret => ?_⟩⟩
  · exact (Setup.C73_glop_partial x charge h1 exUser _ (Setup.lpWins _) rfl).1
      (by refine ⟨⟨?_, ?_, ?_, ?_, ?_, ?_, ?_, ?_⟩, rfl, ?_, ?_, rfl, rfl⟩ <;>
        simp [exUser, Setup.LpMsg.read, ToleranceOk])
  · obtain ⟨hn, -⟩ := rule_of h1 hc ⟨0, le_rfl, rfl⟩ (by simp [exUser])
    exact overcharged (user := exUser) he (by simp [exUser]) hc (.inl ⟨created_glop hc rfl, hret⟩) hn
  · refine (Setup.C73_soplex_partial x (hx1 _ _) set hset charge h1 soplexUser _ (Setup.lpWins _) rfl).2 hx1 hx2
      ⟨⟨?_, ?_, ?_, ?_, ?_, ?_, ?_, ?_⟩, rfl, ?_, ?_, ?_, ?_⟩
    all_goals simp [soplexUser, Setup.LpMsg.read, ToleranceOk]
  · obtain ⟨hn, dir, hrule⟩ := rule_of h1 hc ⟨0, le_rfl, rfl⟩ (by simp [soplexUser])
    exact overcharged (user := soplexUser) he (by simp [soplexUser]) hc
      (.inr ⟨soplex_created hc rfl, hret, h3, dir, hrule⟩) hn

/-! ### The hypotheses are met -/

theorem open_whole : WholeProblem openProblem (1 / 10 ^ 6) := by
  refine ⟨fun v hv => ?_, openProblem_spec.2.2.1, fun k hk => ?_, ?_⟩
  · simp [openProblem] at hv
    rcases hv with rfl | rfl
    · exact ⟨rfl, 3, by simp⟩
    · exact ⟨rfl, 2, by simp⟩
  · simp [openProblem] at hk
    subst hk
    refine ⟨⟨fun j hj => ?_, fun q hq => ?_, fun q hq => ?_⟩, ?_⟩
    · simp at hj
      rcases hj with rfl | rfl <;> rfl
    · simp at hq
      rcases hq with rfl | rfl
      · exact ⟨2, by simp⟩
      · exact ⟨5, by simp⟩
    · simp at hq
      exact ⟨7, by simp [← hq]⟩
    · norm_num [rowMass, integerAt, openProblem]
  · norm_num [objectiveMass, openProblem]

/-- The hypotheses of `rounding_change` are met by a point that is not integral: `max 3 x + 2 y`, `5 x + 2 y ≤ 7` and the
point (10^-7, 3), which is rounded to (0, 3). -/
example : openProblem.WellFormed ∧ openProblem.FeasibleUpTo (1 / 10 ^ 6) (fun j => if j = 0 then 1 / 10 ^ 7 else 3) ∧
    Rounded openProblem (fun j => if j = 0 then 1 / 10 ^ 7 else 3) (fun j => if j = 0 then 0 else 3) := by
  refine ⟨openProblem_spec.1, ⟨fun n v hv => ?_, fun k hk => ?_⟩, fun n v hv => ?_⟩
  · match n with
    | 0 => simp [openProblem] at hv; subst hv; exact ⟨by norm_num [Between], fun _ => ⟨0, by norm_num [abs_le]⟩⟩
    | 1 => simp [openProblem] at hv; subst hv; exact ⟨by norm_num [Between], fun _ => ⟨3, by norm_num⟩⟩
    | n + 2 => simp [openProblem] at hv
  · simp [openProblem] at hk
    subst hk
    norm_num [Between, Constraint.activity]
  · match n with
    | 0 => simp [openProblem] at hv; subst hv; exact ⟨0, by norm_num [abs_le]⟩
    | 1 => simp [openProblem] at hv; subst hv; exact ⟨3, by norm_num⟩
    | n + 2 => simp [openProblem] at hv

/-- The hypotheses of `C105_exact` and of `C105_rounding_partial` are met with the default tolerance: on `max 3 x + 2 y`, `5 x + 2 y ≤ 7`, `x` and `y` non-negative
integers, rounding what `Solve` returns is optimal. -/
example : openProblem.WellFormed ∧ IntegersWithin openProblem (fun _ => (0, 7 / 2)) ∧ Bounded openProblem ∧
    WholeProblem openProblem (1 / 10 ^ 6) ∧ perfect.Right ∧ perfect.GlopReturns ∧
    ∀ x, ∃ c, Setup.create x openProblem exUser = .ok c ∧ ∃ s, solve perfect c 50 = some (.ok s) ∧
      s.result.best ≠ {} ∧ ∀ z, Rounded openProblem (point s.result.best.values) z → openProblem.Optimal z := by
  obtain ⟨h1, -, -, h4, h5, y, hy⟩ := openProblem_spec
  have hb : rangeBound openProblem (fun _ => (0, 7 / 2)) = 50 := by
    have h : ⌈(7 / 2 : ℚ)⌉ = 4 := by norm_num
    simp [rangeBound, openProblem, Finset.prod_range_succ, h]
  refine ⟨h1, h4, h5, open_whole, perfect_spec.1, perfect_spec.2, fun x => ?_⟩
  obtain ⟨c, hc, hs⟩ := C105_exact openProblem h1 _ h4 x exUser _ (Setup.lpWins _)
    (by refine ⟨⟨?_, ?_, ?_, ?_, ?_, ?_, ?_, ?_⟩, rfl, ?_, ?_, rfl, rfl⟩ <;>
        simp [exUser, Setup.LpMsg.read, ToleranceOk])
    ⟨0, le_rfl, rfl⟩ (by simp [exUser]) (by norm_num [exUser]) (by norm_num [exUser])
    (by simpa [exUser] using open_whole)
  rw [hb] at hs
  exact ⟨c, hc, (hs perfect perfect_spec.1 perfect_spec.2).resolve_left fun h => h.1 y hy⟩

end Program
end MiniMip
