import Verif.Model.Problem
import Mathlib.Tactic.NormNum
import Mathlib.Data.List.Induction

/-!
# Properties C08, C12: problem validation and incumbent bookkeeping
-/

namespace MiniMip

/-! ## C08 -/

/-- Neither bound is NaN and they are ordered. -/
def Ordered (a b : Dbl) : Prop := Dbl.le a b = true

/-- A well-formed variable. -/
def Variable.WellFormed (v : Variable) : Prop := v.name ≠ "" ∧ Ordered v.lower v.upper

/-- A well-formed constraint over `n` variables. -/
def Constraint.WellFormed (n : Nat) (c : Constraint) : Prop :=
  c.name ≠ "" ∧ Ordered c.lhs c.rhs ∧ c.varIndices.length = c.coefficients.length ∧
    c.varIndices.Nodup ∧ ∀ i ∈ c.varIndices, 0 ≤ i ∧ i < n

/-- The specification of C08. -/
def Problem.WellFormed (p : Problem) : Prop :=
  (∀ v ∈ p.vars, v.WellFormed) ∧ ∀ c ∈ p.constraints, c.WellFormed p.vars.length

/-- The problem mentions no NaN bound or side. -/
def Problem.NoNaN (p : Problem) : Prop :=
  (∀ v ∈ p.vars, v.lower ≠ .nan ∧ v.upper ≠ .nan) ∧
    ∀ c ∈ p.constraints, c.lhs ≠ .nan ∧ c.rhs ≠ .nan

/-- No constraint uses the index one past the last variable. -/
def Problem.NoIndexAtEnd (p : Problem) : Prop :=
  ∀ c ∈ p.constraints, (p.vars.length : Int) ∉ c.varIndices

namespace Problem

theorem append_ne_empty {a b : String} (h : a ≠ "") : a ++ b ≠ "" := by
  intro hc
  have := congrArg String.toList hc
  simp only [String.toList_append] at this
  have h2 := (List.append_eq_nil_iff.1 this).1
  exact h (String.toList_injective h2)

theorem le_of_not_lt {a b : Dbl} (ha : a ≠ .nan) (hb : b ≠ .nan) :
    Dbl.lt b a = false ↔ Dbl.le a b = true := by
  cases a <;> cases b <;> simp_all [Dbl.lt, Dbl.le]

theorem not_lt_of_le {a b : Dbl} (h : Dbl.le a b = true) : Dbl.lt b a = false := by
  cases a <;> cases b <;> simp_all [Dbl.lt, Dbl.le]

theorem variableError_iff (l : List Variable) :
    variableError l = "" ↔ ∀ v ∈ l, v.name ≠ "" ∧ Dbl.lt v.upper v.lower = false := by
  induction l with
  | nil => simp [variableError]
  | cons v r ih =>
    simp only [variableError, List.mem_cons, forall_eq_or_imp]
    split
    · simp [*]
    · split
      · rename_i h1 h2
        constructor
        · intro h; exact absurd h (append_ne_empty (append_ne_empty (by decide)))
        · intro h; simp [h2] at h
      · rename_i h1 h2
        rw [ih]; simp [h1, h2]

theorem indexError_iff (name : String) (n : Nat) (seen l : List Int) :
    indexError name n seen l = "" ↔
      (∀ i ∈ l, 0 ≤ i ∧ i ≤ n ∧ i ∉ seen) ∧ l.Nodup := by
  induction l generalizing seen with
  | nil => simp [indexError]
  | cons i r ih =>
    simp only [indexError, List.mem_cons, forall_eq_or_imp, List.nodup_cons]
    split
    · constructor
      · intro h; exact absurd h (append_ne_empty (append_ne_empty (by decide)))
      · intro h; omega
    · split
      · constructor
        · intro h; exact absurd h (append_ne_empty (append_ne_empty (by decide)))
        · intro h; omega
      · split
        · rename_i h3
          constructor
          · intro h; exact absurd h (append_ne_empty (append_ne_empty (by decide)))
          · intro h; exact absurd h3 h.1.1.2.2
        · rename_i h1 h2 h3
          rw [ih]
          constructor
          · rintro ⟨ha, hb⟩
            refine ⟨⟨⟨by omega, by omega, h3⟩, fun j hj => ?_⟩, ?_, hb⟩
            · have := ha j hj
              simp only [List.mem_cons, not_or] at this
              exact ⟨this.1, this.2.1, this.2.2.2⟩
            · intro hi; have := ha i hi; simp at this
          · rintro ⟨⟨-, ha⟩, hb, hc⟩
            refine ⟨fun j hj => ?_, hc⟩
            have := ha j hj
            simp only [List.mem_cons, not_or]
            refine ⟨this.1, this.2.1, ?_, this.2.2⟩
            rintro rfl; exact hb hj

theorem constraintError_iff (n : Nat) (c : Constraint) :
    constraintError n c = "" ↔
      c.name ≠ "" ∧ ((∀ i ∈ c.varIndices, 0 ≤ i ∧ i ≤ n) ∧ c.varIndices.Nodup) ∧
      c.varIndices.length = c.coefficients.length ∧ Dbl.lt c.rhs c.lhs = false := by
  have hidx := indexError_iff c.name n [] c.varIndices
  simp only [List.not_mem_nil, not_false_eq_true, and_true] at hidx
  rw [← hidx]
  unfold constraintError
  split
  · simp [*]
  · rename_i h0
    simp only [ne_eq]
    split
    · rename_i h1; simp [h1]
    · rename_i h1
      split
      · rename_i h2
        constructor
        · intro h; exact absurd h (append_ne_empty (append_ne_empty (by decide)))
        · intro h; exact absurd h.2.2.1 h2
      · rename_i h2
        split
        · rename_i h3
          constructor
          · intro h; exact absurd h (append_ne_empty (append_ne_empty (by decide)))
          · intro h; simp [h3] at h
        · rename_i h3
          simp only [not_not] at h1 h2
          simp [h0, h1, h2, h3]

theorem constraintsError_iff (n : Nat) (l : List Constraint) :
    constraintsError n l = "" ↔ ∀ c ∈ l, constraintError n c = "" := by
  induction l with
  | nil => simp [constraintsError]
  | cons c r ih =>
    simp only [constraintsError, List.mem_cons, forall_eq_or_imp]
    split
    · rename_i h; constructor
      · intro h'; exact absurd h' h
      · intro h'; exact absurd h'.1 h
    · rename_i h; simp only [ne_eq, not_not] at h; rw [ih]; simp [h]

/-- What the code accepts, exactly. -/
theorem findError_iff (p : Problem) :
    p.findError = "" ↔
      (∀ v ∈ p.vars, v.name ≠ "" ∧ Dbl.lt v.upper v.lower = false) ∧
      ∀ c ∈ p.constraints, c.name ≠ "" ∧
        ((∀ i ∈ c.varIndices, 0 ≤ i ∧ i ≤ p.vars.length) ∧ c.varIndices.Nodup) ∧
        c.varIndices.length = c.coefficients.length ∧ Dbl.lt c.rhs c.lhs = false := by
  unfold findError
  have h1 := variableError_iff p.vars
  have h2 := constraintsError_iff p.vars.length p.constraints
  simp only [constraintError_iff] at h2
  rw [← h1, ← h2]
  simp only [ne_eq]
  split
  · rename_i h; simp [h]
  · rename_i h; simp only [not_not] at h; simp [h]

/-- C08 fails: a constraint over variable 1 of a problem with the single variable 0 is
accepted (problem.cc:44 compares with `>`). -/
theorem C08_index_at_end_violated :
    ∃ p : Problem, p.NoNaN ∧ p.findError = "" ∧ ¬ p.WellFormed := by
  refine ⟨{ vars := [{ name := "x" }], constraints := [{ name := "c", varIndices := [1], coefficients := [1] }] },
    ?_, ?_, ?_⟩
  · simp [NoNaN]
  · rw [findError_iff]; simp [Dbl.lt]
  · simp [WellFormed, Constraint.WellFormed]

/-- C08 also fails for NaN: a variable without a meaningful lower bound is accepted, since
`upper < NaN` is false (problem.cc:26). -/
theorem C08_nan_bound_violated :
    ∃ p : Problem, p.NoIndexAtEnd ∧ p.findError = "" ∧ ¬ p.WellFormed := by
  refine ⟨{ vars := [{ name := "x", lower := .nan }] }, by simp [NoIndexAtEnd], ?_, ?_⟩
  · rw [findError_iff]; simp [Dbl.lt]
  · simp [WellFormed, Variable.WellFormed, Ordered, Dbl.le]

/-- **C08**, proved part.  Every well-formed problem is accepted; and an accepted problem
without NaNs, none of whose constraints uses the index one past the last variable, is
well-formed.  Missing (and false, see above): the same without the two exclusions. -/
theorem C08_validation_partial (p : Problem) :
    (p.WellFormed → p.findError = "") ∧
    (p.NoNaN → p.NoIndexAtEnd → p.findError = "" → p.WellFormed) := by
  constructor
  · rintro ⟨hv, hc⟩
    rw [findError_iff]
    refine ⟨fun v h => ⟨(hv v h).1, not_lt_of_le (hv v h).2⟩, fun c h => ?_⟩
    obtain ⟨h1, h2, h3, h4, h5⟩ := hc c h
    exact ⟨h1, ⟨fun i hi => ⟨(h5 i hi).1, (h5 i hi).2.le⟩, h4⟩, h3, not_lt_of_le h2⟩
  · rintro ⟨nv, nc⟩ hend h
    rw [findError_iff] at h
    refine ⟨fun v hv => ⟨(h.1 v hv).1, (le_of_not_lt (nv v hv).1 (nv v hv).2).1 (h.1 v hv).2⟩,
      fun c hc => ?_⟩
    obtain ⟨h1, ⟨h2, h3⟩, h4, h5⟩ := h.2 c hc
    refine ⟨h1, (le_of_not_lt (nc c hc).1 (nc c hc).2).1 h5, h4, h3, fun i hi => ⟨(h2 i hi).1, ?_⟩⟩
    have := (h2 i hi).2
    have hne : i ≠ p.vars.length := by rintro rfl; exact hend c hc hi
    omega

/-- The hypotheses are met by a non-trivial problem. -/
def exProblem : Problem :=
  { vars := [{ name := "x", objective := 3, lower := .fin 0, upper := .fin 9, isInteger := true },
      { name := "y", objective := -2, lower := .ninf, upper := .pinf }]
    constraints := [{ name := "c", varIndices := [1, 0], coefficients := [2, 5], lhs := .ninf, rhs := .fin 7 }]
    offset := 4, isMaximization := true }

theorem exProblem_wellFormed : exProblem.WellFormed := by
  simp [WellFormed, exProblem, Variable.WellFormed, Constraint.WellFormed, Ordered, Dbl.le]

example : exProblem.WellFormed ∧ exProblem.NoNaN ∧ exProblem.NoIndexAtEnd ∧ exProblem.findError = "" := by
  refine ⟨exProblem_wellFormed, ?_, ?_, (C08_validation_partial _).1 exProblem_wellFormed⟩
  · simp [exProblem, NoNaN]
  · simp [exProblem, NoIndexAtEnd]

end Problem

/-! ## C12 -/

/-- The result after a history of `AddSolution` calls. -/
def SolveResult.addAll (r : SolveResult) (l : List Solution) : SolveResult :=
  l.foldl SolveResult.addSolution r

namespace SolveResult

theorem addAll_append (r : SolveResult) (l m) : r.addAll (l ++ m) = (r.addAll l).addAll m := by
  simp [addAll]

theorem lt_trans_le {a b c : Dbl} (h : Dbl.lt a b = true) (h2 : Dbl.le b c = true) :
    Dbl.lt a c = true := by
  cases a <;> cases b <;> cases c <;> simp_all [Dbl.lt, Dbl.le]
  linarith

theorem lt_le {a b : Dbl} (h : Dbl.lt a b = true) : Dbl.le a b = true := by
  cases a <;> cases b <;> simp_all [Dbl.lt, Dbl.le]
  linarith

theorem not_lt_le {a b : Dbl} (ha : a ≠ .nan) (hb : b ≠ .nan) (h : Dbl.lt a b = false) :
    Dbl.le b a = true := by
  cases a <;> cases b <;> simp_all [Dbl.lt, Dbl.le]

/-- Neither NaN nor plus infinity. -/
def Proper (s : Solution) : Prop := Dbl.lt s.objective .pinf = true

/-- **C12.**  After any non-empty sequence of `AddSolution` calls (objective values below
infinity, not NaN) on a new result, `best_solution` is the first of the solutions of
minimal objective, and together with `additional_solutions` it is, as a multiset, exactly
what was added. -/
theorem C12_incumbent (l : List Solution) (hl : ∀ s ∈ l, Proper s) (hne : l ≠ []) :
    (((({} : SolveResult).addAll l).best :: (({} : SolveResult).addAll l).additional).Perm l) ∧
    ∃ k, l[k]? = some (({} : SolveResult).addAll l).best ∧
      (∀ s ∈ l, Dbl.le (({} : SolveResult).addAll l).best.objective s.objective = true) ∧
      ∀ (j : Nat) (s : Solution), j < k → l[j]? = some s →
        Dbl.lt (({} : SolveResult).addAll l).best.objective s.objective = true := by
  induction l using List.reverseRecOn with
  | nil => simp at hne
  | append_singleton l s ih =>
    have hs : Proper s := hl s (by simp)
    have hsn : s.objective ≠ .nan := by
      intro h; simp [Proper, h, Dbl.lt] at hs
    have hself : ∀ {a : Dbl}, a ≠ .nan → Dbl.le a a = true := by
      intro a ha; cases a <;> simp_all [Dbl.le]
    rw [addAll_append]
    by_cases hlnil : l = []
    · subst hlnil
      simp only [addAll, List.foldl_nil, List.foldl_cons, addSolution]
      have : Dbl.lt s.objective Dbl.pinf = true := hs
      simp only [this, if_true]
      simp only [Dbl.ne, Dbl.eq, Bool.not_true]
      refine ⟨by simp, 0, by simp, by simpa using hself hsn, by simp⟩
    · obtain ⟨hp, k, hk1, hk2, hk3⟩ := ih (fun x hx => hl x (by simp [hx])) hlnil
      set r := ({} : SolveResult).addAll l with hr
      have hkl : k < l.length := (List.getElem?_eq_some_iff.1 hk1).1
      have hbmem : r.best ∈ l := List.mem_of_getElem? hk1
      have hbp : Proper r.best := hl _ (by simp [hbmem])
      have hbn : r.best.objective ≠ .nan := by
        intro h; simp [Proper, h, Dbl.lt] at hbp
      have hbi : Dbl.ne r.best.objective .pinf = true := by
        unfold Proper at hbp
        cases hq : r.best.objective <;> simp_all [Dbl.lt, Dbl.ne, Dbl.eq]
      show ((r.addSolution s).best :: (r.addSolution s).additional).Perm (l ++ [s]) ∧ _
      show _ ∧ ∃ k, (l ++ [s])[k]? = some (r.addSolution s).best ∧
        (∀ s_1 ∈ l ++ [s], Dbl.le (r.addSolution s).best.objective s_1.objective = true) ∧
        ∀ (j : Nat) (s_1 : Solution), j < k → (l ++ [s])[j]? = some s_1 →
          Dbl.lt (r.addSolution s).best.objective s_1.objective = true
      unfold addSolution
      split
      · rename_i hlt
        simp only
        refine ⟨?_, l.length, by simp, ?_, ?_⟩
        · have : (s :: (r.additional ++ [r.best])).Perm ([s] ++ l) := by
            apply List.Perm.cons
            exact (List.perm_append_comm.trans (by simpa using hp))
          exact this.trans List.perm_append_comm
        · intro x hx
          rcases List.mem_append.1 hx with hx | hx
          · exact lt_le (lt_trans_le hlt (hk2 x hx))
          · simp at hx; subst hx; exact hself hsn
        · intro j x hj hx
          rw [List.getElem?_append_left hj] at hx
          exact lt_trans_le hlt (hk2 x (List.mem_of_getElem? hx))
      · rename_i hlt
        simp only
        refine ⟨?_, k, ?_, ?_, ?_⟩
        · rw [← List.cons_append]
          exact hp.append_right _
        · rw [List.getElem?_append_left hkl]; exact hk1
        · intro x hx
          rcases List.mem_append.1 hx with hx | hx
          · exact hk2 x hx
          · simp at hx; subst hx; exact not_lt_le hsn hbn (by simpa using hlt)
        · intro j x hj hx
          rw [List.getElem?_append_left (by omega)] at hx
          exact hk3 j x hj hx

/-- Without any call the best solution has objective infinity and nothing else is stored. -/
theorem C12_no_solution : (({} : SolveResult).addAll []).best.objective = .pinf ∧
    (({} : SolveResult).addAll []).additional = [] := ⟨rfl, rfl⟩

/-- A history in which the incumbent changes twice and a tie occurs. -/
example : (∀ s ∈ [(⟨[1], .fin 5⟩ : Solution), ⟨[2], .fin 3⟩, ⟨[3], .fin 3⟩, ⟨[4], .ninf⟩], Proper s) ∧
    (({} : SolveResult).addAll [⟨[1], .fin 5⟩, ⟨[2], .fin 3⟩, ⟨[3], .fin 3⟩, ⟨[4], .ninf⟩]).best = ⟨[4], .ninf⟩ := by
  constructor
  · simp [Proper, Dbl.lt]
  · norm_num [addAll, addSolution, Dbl.lt, Dbl.ne, Dbl.eq]

end SolveResult

end MiniMip
