import Verif.Model.Populate
import Verif.Props.MipData
import Verif.Props.GlopStore
import Verif.Props.SoplexStore
import Mathlib.Algebra.BigOperators.Ring.Finset
import Mathlib.Algebra.Order.BigOperators.Group.Finset

/-!
# Loading the LP relaxation (C66)
-/

namespace MiniMip

variable {hash : MipData.HashOrder}

open SparseVector Glop

/-! ### The specification: the LP relaxation of the user's problem -/

/-- The coefficient of a variable in a constraint of the user. -/
def Constraint.coefficientOf (c : Constraint) (j : Nat) : ℚ :=
  ((c.varIndices.zip c.coefficients).map fun t => if t.1 = (j : Int) then t.2 else 0).sum

/-- The LP relaxation of the user's problem, as a minimisation. -/
def Problem.relaxation (p : Problem) : LpSpec where
  numRows := p.constraints.length
  numCols := p.vars.length
  maximize := false
  lower j := (p.vars[j]?.map (·.lower)).getD .nan
  upper j := (p.vars[j]?.map (·.upper)).getD .nan
  objective j := (p.vars[j]?.map fun v => if p.isMaximization then -v.objective else v.objective).getD 0
  lhs r := (p.constraints[r]?.map (·.lhs)).getD .nan
  rhs r := (p.constraints[r]?.map (·.rhs)).getD .nan
  coef r j := (p.constraints[r]?.map (·.coefficientOf j)).getD 0

/-- The points that satisfy the bounds and rows of an LP. -/
def Glop.LpSpec.Feasible (s : LpSpec) (x : Int → ℚ) : Prop :=
  (∀ c < s.numCols, Between (s.lower c) (x c) (s.upper c)) ∧
  ∀ r < s.numRows, Between (s.lhs r) (∑ c ∈ Finset.range s.numCols, s.coef r c * x c) (s.rhs r)

/-- The objective of an LP at a point. -/
def Glop.LpSpec.value (s : LpSpec) (x : Int → ℚ) : ℚ :=
  ∑ c ∈ Finset.range s.numCols, s.objective c * x c

/-- The user's problem without integrality. -/
def Problem.RelaxedFeasible (p : Problem) (x : Int → ℚ) : Prop :=
  (∀ (n : Nat) (v : Variable), p.vars[n]? = some v → Between v.lower (x n) v.upper) ∧
  ∀ c ∈ p.constraints, Between c.lhs (c.activity x) c.rhs

/-! ### Coefficients are values at unit vectors -/

/-- A unit vector. -/
def unit (j : Int) : Int → ℚ := fun i => if i = j then 1 else 0

theorem activity_unit (c : Constraint) (j : Nat) : c.activity (unit j) = c.coefficientOf j := by
  unfold Constraint.activity Constraint.coefficientOf unit
  congr 1
  apply List.map_congr_left
  intro t _
  split <;> simp

theorem eval_unit {v : SparseVector} (h : Clean v.entries) (j : Int) :
    v.eval (unit j) = v.value j := by
  unfold SparseVector.eval evalEntries
  rw [sum_map_eq_finset h.1 (unit j) (insert j (v.entries.map (·.index)).toFinset)
    (fun e he => by simp only [Finset.mem_insert, List.mem_toFinset, List.mem_map]; exact .inr ⟨e, he, rfl⟩)]
  rw [Finset.sum_eq_single j]
  · simp [unit, SparseVector.value]
  · intro b _ hb; simp [unit, hb]
  · intro hj; simp at hj

theorem eval_zero (v : SparseVector) : v.eval (fun _ => 0) = 0 := by
  simp [SparseVector.eval, evalEntries]

theorem objectiveFrom_zero (k : Nat) (l : List Variable) : objectiveFrom k l (fun _ => 0) = 0 := by
  induction l generalizing k with
  | nil => rfl
  | cons v r ih => simp [objectiveFrom, ih]

theorem objectiveFrom_before (k : Nat) (l : List Variable) (j : Int) (h : j < k) :
    objectiveFrom k l (unit j) = 0 := by
  induction l generalizing k with
  | nil => rfl
  | cons v r ih =>
    rw [objectiveFrom, ih (k + 1) (by push_cast; omega)]
    have : ¬ (k : Int) = j := by omega
    simp [unit, this]

theorem objectiveFrom_unit (k : Nat) (l : List Variable) (j : Nat) :
    objectiveFrom k l (unit ((k + j : Nat) : Int)) = (l[j]?.map (·.objective)).getD 0 := by
  induction l generalizing k j with
  | nil => rfl
  | cons v r ih =>
    rw [objectiveFrom]
    cases j with
    | zero => rw [objectiveFrom_before _ _ _ (by push_cast; omega)]; simp [unit]
    | succ j =>
      have : ((k + (j + 1) : Nat) : Int) = ((k + 1 + j : Nat) : Int) := by push_cast; ring
      rw [this, ih (k + 1) j]
      have : ¬ (k : Int) = ((k + 1 + j : Nat) : Int) := by push_cast; omega
      rw [unit, if_neg this, List.getElem?_cons_succ, mul_zero, zero_add]

/-- The objective coefficients of `MipData`. -/
theorem objective_value {d : MipData} {p : Problem} (h : d.Represents p) (j : Nat) :
    d.objective.value j = p.relaxation.objective j := by
  have h1 := h.objective (unit j)
  have h0 := h.objective (fun _ => 0)
  rw [eval_unit h.objectiveClean.1] at h1
  rw [eval_zero] at h0
  have hu := objectiveFrom_unit 0 p.vars j
  rw [Nat.zero_add] at hu
  simp only [Problem.userObjective, hu, objectiveFrom_zero] at h1 h0
  simp only [Problem.relaxation]
  cases hj : p.vars[j]? with
  | none =>
    simp only [hj, Option.map_none, Option.getD_none] at h1 ⊢
    split at h1 <;> simp_all
  | some v =>
    simp only [hj, Option.map_some, Option.getD_some] at h1 ⊢
    by_cases hm : p.isMaximization = true
    · simp only [hm, if_true] at h1 h0 ⊢; linarith
    · simp only [hm] at h1 h0 ⊢; simp at h1 h0 ⊢; linarith

theorem valueAt_mem {l : List Entry} (h : StrictSorted l) {e : Entry} (he : e ∈ l) :
    valueAt l e.index = e.value := by
  induction l with
  | nil => simp at he
  | cons f r ih =>
    have h' := List.pairwise_cons.mp h
    rw [valueAt_cons]
    rcases List.mem_cons.mp he with rfl | he
    · simp
    · rw [if_pos (h'.1 e he), ih h'.2 he]

/-- The objective mentions only variables of the problem. -/
theorem objective_range {d : MipData} {p : Problem} (h : d.Represents p) {e : Entry}
    (he : e ∈ d.objective.entries) : 0 ≤ e.index ∧ e.index < p.vars.length := by
  have hc := h.objectiveClean.1
  have hpos := (hc.2 e he).2
  refine ⟨hpos, ?_⟩
  by_contra hlt
  obtain ⟨n, hn⟩ := Int.eq_ofNat_of_zero_le hpos
  have hv := objective_value h n
  rw [← hn, show d.objective.value e.index = valueAt d.objective.entries e.index from rfl,
    valueAt_mem hc.1 he] at hv
  have : p.vars[n]? = none := by rw [List.getElem?_eq_none_iff]; omega
  simp only [Problem.relaxation, this, Option.map_none, Option.getD_none] at hv
  exact (hc.2 e he).1 hv

/-- The table the matrix shows has the coefficients of the user. -/
theorem table_cell {d : MipData} {p : Problem} (h : d.Represents p) {t : SparseMatrix.Table}
    (ht : SparseMatrix.Rel d.matrix t) {j r : Nat} (hj : j < p.vars.length)
    (hr : r < p.constraints.length) : t.cell j r = p.relaxation.coef r j := by
  obtain ⟨m, v, -, hcl, -, hev, hcoef⟩ := h.rows r _ (List.getElem?_eq_getElem hr)
  obtain ⟨m2, -, -, hg, -⟩ := hcoef j hj
  have h1 : j < t.nc := by rw [← ht.ncols]; exact hj.trans_eq h.numCols.symm
  have h2 : r < t.nr := by rw [← ht.nrows]; exact hr.trans_eq h.numRows.symm
  obtain ⟨m3, hg', -⟩ := ht.get h1 h2
  rw [hg] at hg'
  have := (Prod.mk.inj (Outcome.ok.inj hg')).2
  rw [← this, ← eval_unit hcl, hev, activity_unit]
  simp [Problem.relaxation, hr]

/-! ### The points of the relaxation -/

theorem zip_sum (n : Nat) (l : List (Int × ℚ)) (x : Int → ℚ)
    (h : ∀ t ∈ l, 0 ≤ t.1 ∧ t.1 < (n : Int)) :
    ∑ c ∈ Finset.range n, (l.map fun t => if t.1 = (c : Int) then t.2 else 0).sum * x c =
      (l.map fun t => t.2 * x t.1).sum := by
  induction l with
  | nil => simp
  | cons t r ih =>
    simp only [List.map_cons, List.sum_cons, add_mul, Finset.sum_add_distrib]
    rw [ih (fun s hs => h s (by simp [hs]))]
    congr 1
    obtain ⟨h1, h2⟩ := h t (by simp)
    obtain ⟨k, hk⟩ := Int.eq_ofNat_of_zero_le h1
    rw [Finset.sum_eq_single k]
    · simp [hk]
    · intro b _ hb
      have : ¬ t.1 = (b : Int) := by omega
      simp [this]
    · intro hn
      exact absurd (Finset.mem_range.mpr (by omega)) hn

theorem objectiveFrom_sum (k : Nat) (l : List Variable) (x : Int → ℚ) :
    objectiveFrom k l x =
      ∑ c ∈ Finset.range l.length, (l[c]?.map (·.objective)).getD 0 * x ((k + c : Nat) : Int) := by
  induction l generalizing k with
  | nil => rfl
  | cons v r ih =>
    rw [objectiveFrom, List.length_cons, Finset.sum_range_succ', ih (k + 1)]
    rw [add_comm]
    congr 1
    apply Finset.sum_congr rfl
    intro c _
    rw [List.getElem?_cons_succ]
    congr 2
    push_cast; ring

/-- The relaxation has the points the user means, and its objective is the user's objective
without the offset, negated for maximisation. -/
theorem relaxation_points (p : Problem) (hp : p.WellFormed) (x : Int → ℚ) :
    (p.relaxation.Feasible x ↔ p.RelaxedFeasible x) ∧
    p.relaxation.value x =
      if p.isMaximization then -(p.userObjective x - p.offset) else p.userObjective x - p.offset := by
  have hact : ∀ (r : Nat) (c : Constraint), p.constraints[r]? = some c →
      ∑ j ∈ Finset.range p.vars.length, p.relaxation.coef r j * x j = c.activity x := by
    intro r c hc
    obtain ⟨-, -, -, -, h5⟩ := hp.2 c (List.mem_of_getElem? hc)
    rw [Constraint.activity, ← zip_sum p.vars.length]
    · apply Finset.sum_congr rfl
      intro j _
      simp [Problem.relaxation, hc, Constraint.coefficientOf]
    · intro t ht
      exact h5 t.1 (List.of_mem_zip (a := t.1) (b := t.2) ht).1
  refine ⟨⟨fun h => ⟨fun n v hv => ?_, fun c hc => ?_⟩, fun h => ⟨fun n hn => ?_, fun r hr => ?_⟩⟩, ?_⟩
  · have := h.1 n (List.getElem?_eq_some_iff.mp hv).1
    simpa [Problem.relaxation, hv] using this
  · obtain ⟨r, hr⟩ := List.mem_iff_getElem?.mp hc
    have := h.2 r (List.getElem?_eq_some_iff.mp hr).1
    have ha := hact r c hr
    simp only [show p.relaxation.numCols = p.vars.length from rfl] at this
    rw [ha] at this
    simpa [Problem.relaxation, hr] using this
  · have hn' : n < p.vars.length := hn
    have := h.1 n _ (List.getElem?_eq_getElem hn')
    simpa [Problem.relaxation, hn'] using this
  · have hr' : r < p.constraints.length := hr
    have := h.2 _ (List.getElem_mem hr')
    have ha := hact r _ (List.getElem?_eq_getElem hr')
    simp only [show p.relaxation.numCols = p.vars.length from rfl]
    rw [ha]
    simpa [Problem.relaxation, hr'] using this
  · simp only [LpSpec.value, Problem.relaxation, Problem.userObjective, add_sub_cancel_right]
    have hs := objectiveFrom_sum 0 p.vars x
    simp only [Nat.zero_add] at hs
    rw [hs]
    by_cases hm : p.isMaximization = true
    · simp only [hm, if_true]
      rw [← Finset.sum_neg_distrib]
      apply Finset.sum_congr rfl
      intro c hc
      rw [List.getElem?_eq_getElem (Finset.mem_range.mp hc)]
      simp
    · simp only [hm]
      apply Finset.sum_congr rfl
      intro c hc
      rw [List.getElem?_eq_getElem (Finset.mem_range.mp hc)]
      simp

/-! ### Stored programs -/

theorem item_map {α β : Type} (l : List α) (f : α → β) (i : Nat) (hi : i < l.length) :
    MipData.item (l.map f) i = .ok (f l[i]) := by
  simp [MipData.item, hi]

/-- The rows the loops create. -/
def storedRows (named : Bool) (l : List Constraint) : List Row :=
  l.map fun c => ⟨c.lhs, c.rhs, if named then c.name else ""⟩

/-- A program with the rows of the problem and suitable columns represents the relaxation. -/
theorem refines_relaxation {p : Problem} {lp : LinearProgram} {named : Bool}
    (hrows : lp.rows = storedRows named p.constraints) (hm : lp.maximize = false)
    (hlen : lp.cols.length = p.vars.length)
    (hcols : ∀ c col, lp.cols[c]? = some col → ColumnOk p.relaxation c col) :
    Refines lp p.relaxation := by
  refine ⟨by simp [hrows, storedRows, Problem.relaxation], hlen, hm, hcols, ?_⟩
  intro r row hr
  rw [hrows, storedRows, List.getElem?_map, Option.map_eq_some_iff] at hr
  obtain ⟨c, hc, rfl⟩ := hr
  simp [Problem.relaxation, hc]

/-- The order of the set of integer variables does not matter. -/
theorem Glop.populateFromMipData_order (g : Interface) (d : MipData) (l : List Int) :
    populateFromMipData g { d with integerVariables := l } = populateFromMipData g d := by
  have h1 : ∀ n row (g : Interface), populateRows { d with integerVariables := l } g n row = populateRows d g n row := by
    intro n
    induction n with
    | zero => intro row g; rfl
    | succ n ih => intro row g; simp only [populateRows, ih]
  have h2 : ∀ n col (g : Interface) m, populateColumns { d with integerVariables := l } g m n col =
      populateColumns d g m n col := by
    intro n
    induction n with
    | zero => intro col g m; rfl
    | succ n ih => intro col g m; simp only [populateColumns, ih]
  simp only [populateFromMipData, h1, h2]

/-- A column read from the matrix of `MipData` is the one of the relaxation. -/
theorem columnOk {d : MipData} {p : Problem} (h : d.Represents p) {t : SparseMatrix.Table}
    (ht : SparseMatrix.Rel d.matrix t) {j : Nat} (hj : j < p.vars.length) {v : SparseVector}
    (hv : SparseMatrix.Shows v t.nr (fun r => t.cell j r)) (x : ℚ)
    (hx : x = p.relaxation.objective j) (name : String) :
    ColumnOk p.relaxation j ⟨p.vars[j].lower, p.vars[j].upper, x, name, v.entries⟩ := by
  have hn : t.nr = p.constraints.length := by rw [← ht.nrows]; exact h.numRows
  obtain ⟨h1, -, h3, h4⟩ := hv
  refine ⟨by simp [Problem.relaxation, hj], by simp [Problem.relaxation, hj], hx, h1, ?_, ?_⟩
  · intro e he
    have := h3 e he
    rw [hn] at this
    exact this
  · intro r hr
    rw [← table_cell h ht hj hr]
    exact h4 r

/-! ### Glop -/

namespace Glop

theorem populateRows_ok {d : MipData} {p : Problem} (h : d.Represents p) (n row : Nat)
    (hn : row + n = p.constraints.length) (g : Interface)
    (hg : g.lp.rows = storedRows true (p.constraints.take row)) :
    ∃ g', populateRows d g n row = .ok g' ∧ g'.lp = { g.lp with rows := storedRows true p.constraints } ∧
      g'.statuses = g.statuses ∧ (n ≠ 0 ∨ g.modified = true → g'.modified = true) := by
  induction n generalizing g row with
  | zero =>
    have : row = p.constraints.length := by omega
    rw [this, List.take_length] at hg
    exact ⟨g, rfl, by rw [← hg], rfl, by simp⟩
  | succ n ih =>
    have hr : row < p.constraints.length := by omega
    let g1 : Interface := { g with
      lp := { g.lp with rows := g.lp.rows ++
        [⟨p.constraints[row].lhs, p.constraints[row].rhs, p.constraints[row].name⟩] }
      modified := true }
    obtain ⟨g', h1, h2, h3, h4⟩ := ih (row + 1) (by omega) g1 (by
      simp only [g1, hg, storedRows, List.take_succ_eq_append_getElem hr, List.map_append,
        List.map_cons, List.map_nil, if_true])
    refine ⟨g', ?_, h2, h3, fun _ => h4 (.inr rfl)⟩
    rw [populateRows, h.lhs, h.rhs, h.constraintNames, item_map _ _ _ hr, item_map _ _ _ hr,
      item_map _ _ _ hr]
    simp only [Outcome.bind_ok, addRow, setRow, Outcome.pure_eq]
    exact h1

theorem populateColumns_ok {d : MipData} {p : Problem} (h : d.Represents p) {t : SparseMatrix.Table}
    (ht : SparseMatrix.Rel d.matrix t) (n col : Nat) (hn : col + n = p.vars.length)
    (m : SparseMatrix) (hm : SparseMatrix.Rel m t) (g : Interface) (hl : g.lp.cols.length = col)
    (hg : ∀ c x, g.lp.cols[c]? = some x → ColumnOk p.relaxation c x) :
    ∃ g', populateColumns d g m n col = .ok g' ∧ g'.lp.rows = g.lp.rows ∧
      g'.lp.maximize = g.lp.maximize ∧ g'.statuses = g.statuses ∧ g'.lp.cols.length = p.vars.length ∧
      (∀ c x, g'.lp.cols[c]? = some x → ColumnOk p.relaxation c x) := by
  induction n generalizing g col m with
  | zero => exact ⟨g, rfl, rfl, rfl, rfl, by omega, hg⟩
  | succ n ih =>
    have hc : col < p.vars.length := by omega
    obtain ⟨m', v, hv, hm', hs⟩ := hm.col (c := col) (by rw [← ht.ncols]; exact hc.trans_eq h.numCols.symm)
    have hok := columnOk h ht hc hs _ (objective_value h col) p.vars[col].name
    obtain ⟨g', h1, h2, h3, h4, h5, h6⟩ := ih (col + 1) (by omega) m' hm'
      (addColumn g v p.vars[col].lower p.vars[col].upper (d.objective.value col) p.vars[col].name)
      (by simp [addColumn, hl]) (by
        intro c x hx
        simp only [addColumn] at hx
        rcases Nat.lt_or_ge c col with hlt | hge
        · rw [List.getElem?_append_left (by omega)] at hx
          exact hg c x hx
        · rw [List.getElem?_append_right (by omega), hl] at hx
          have : c - col = 0 := by
            by_contra hne
            rw [List.getElem?_eq_none (by simp; omega)] at hx
            exact absurd hx (by simp)
          rw [this] at hx
          simp only [List.getElem?_cons_zero, Option.some.injEq] at hx
          have hcc : c = col := by omega
          subst hcc
          rw [← hx]
          exact hok)
    refine ⟨g', ?_, h2, h3, h4, h5, h6⟩
    rw [populateColumns, hv]
    simp only [Outcome.bind_ok]
    rw [h.lower, h.upper, h.variableNames, item_map _ _ _ hc, item_map _ _ _ hc, item_map _ _ _ hc]
    exact h1

theorem populate_refines (p : Problem) (hp : p.WellFormed) (d : MipData)
    (hd : MipData.ofProblem hash p = .ok d) (g : Interface) :
    ∃ g', populateFromMipData g d = .ok g' ∧ Refines g'.lp p.relaxation ∧ isSolved g' = false := by
  obtain ⟨d', h1, hrep, -, t, ht⟩ := MipData.ofProblem_spec hash p hp
  rw [h1] at hd
  have hd := Outcome.ok.inj hd
  subst hd
  obtain ⟨g1, a1, a2, a3, -⟩ := populateRows_ok hrep p.constraints.length 0 (by omega) (clear g)
    (by simp [clear, storedRows])
  obtain ⟨g2, b1, b2, b3, -, b5, b6⟩ := populateColumns_ok hrep ht p.vars.length 0 (by omega)
    d'.matrix ht g1 (by simp [a2, clear]) (by simp [a2, clear])
  refine ⟨setObjectiveSense g2 false, ?_, ?_, rfl⟩
  · have e1 : d'.lhs.length = p.constraints.length := by rw [hrep.lhs, List.length_map]
    have e2 : d'.matrix.numCols = p.vars.length := hrep.numCols
    simp only [populateFromMipData, e1, e2, a1, b1, Outcome.bind_ok, Outcome.pure_eq]
  · exact refines_relaxation (named := true) (by simp [setObjectiveSense, b2, a2]) rfl b5 b6

/-- **C66** (Glop).  Loading the `MipData` of a well-formed problem into any interface, whatever LP
it held, succeeds; afterwards the getters return exactly the LP relaxation of the user's problem,
whose points and objective values are those the user means, and the interface asks for a solve. -/
theorem C66_populate (p : Problem) (hp : p.WellFormed) (d : MipData)
    (hd : MipData.ofProblem hash p = .ok d) (g : Interface) :
    ∃ g', populateFromMipData g d = .ok g' ∧ Shows g' p.relaxation ∧ isSolved g' = false ∧
      ∀ x, (p.relaxation.Feasible x ↔ p.RelaxedFeasible x) ∧ p.relaxation.value x =
        if p.isMaximization then -(p.userObjective x - p.offset) else p.userObjective x - p.offset := by
  obtain ⟨g', h1, h2, h3⟩ := populate_refines p hp d hd g
  exact ⟨g', h1, shows_of_refines h2, h3, fun x => relaxation_points p hp x⟩

/-- The hypotheses of `C66_populate` hold for a problem with two variables and one constraint. -/
example : ∃ d, MipData.ofProblem hash Problem.exProblem = .ok d :=
  (MipData.ofProblem_spec hash _ Problem.exProblem_wellFormed).imp fun _ h => h.1

end Glop

/-! ### SoPlex -/

namespace Soplex

theorem emptyRows_ok {d : MipData} {p : Problem} (h : d.Represents p) (n row : Nat)
    (hn : row + n = p.constraints.length) :
    emptyRows d n row =
      .ok ((p.constraints.drop row).map fun c => (⟨{}, c.lhs, c.rhs, ""⟩ : NewRow)) := by
  induction n generalizing row with
  | zero => rw [List.drop_of_length_le (by omega)]; rfl
  | succ n ih =>
    have hr : row < p.constraints.length := by omega
    rw [emptyRows, ih (row + 1) (by omega), h.lhs, h.rhs, item_map _ _ _ hr, item_map _ _ _ hr,
      List.drop_eq_getElem_cons hr]
    rfl

theorem addRowsReal_empty (l : List Constraint) (lp : LinearProgram) :
    addRowsReal lp (l.map fun c => (⟨{}, c.lhs, c.rhs, ""⟩ : NewRow)) =
      .ok { lp with rows := lp.rows ++ storedRows false l } := by
  induction l generalizing lp with
  | nil => simp [addRowsReal, storedRows]
  | cons c r ih =>
    rw [List.map_cons, addRowsReal, addRowReal]
    simp only [setRow, Outcome.bind_ok]
    rw [ih]
    simp [storedRows]

theorem objectiveVector_ok (es : List Entry) (v : List ℚ) (hs : StrictSorted es)
    (hr : ∀ e ∈ es, 0 ≤ e.index ∧ e.index < (v.length : Int)) :
    ∃ w, objectiveVector v es = .ok w ∧ w.length = v.length ∧
      ∀ i : Nat, w[i]? = if (∃ e ∈ es, e.index = (i : Int)) then some (valueAt es i) else v[i]? := by
  induction es generalizing v with
  | nil => exact ⟨v, rfl, rfl, by simp⟩
  | cons e r ih =>
    obtain ⟨h1, h2⟩ := hr e (by simp)
    have hs' := List.pairwise_cons.mp hs
    obtain ⟨w, a1, a2, a3⟩ := ih (v.set e.index.toNat e.value) hs'.2 (by
      intro f hf
      simpa using hr f (by simp [hf]))
    refine ⟨w, by rw [objectiveVector, if_pos ⟨h1, h2⟩, a1], by simpa using a2, ?_⟩
    intro i
    rw [a3 i]
    by_cases hi : e.index = (i : Int)
    · have hno : ¬ ∃ f ∈ r, f.index = (i : Int) := by
        rintro ⟨f, hf, hfi⟩
        have := hs'.1 f hf
        omega
      rw [if_neg hno, if_pos ⟨e, by simp, hi⟩]
      have : e.index.toNat = i := by omega
      rw [this, List.getElem?_set_self (by omega), ← hi, valueAt_mem hs (by simp)]
    · have hset : (v.set e.index.toNat e.value)[i]? = v[i]? :=
        List.getElem?_set_ne (by omega)
      by_cases hx : ∃ f ∈ r, f.index = (i : Int)
      · obtain ⟨f, hf, hfi⟩ := hx
        rw [if_pos ⟨f, hf, hfi⟩, if_pos ⟨f, by simp [hf], hfi⟩]
        rw [valueAt_cons, if_pos (by rw [← hfi]; exact hs'.1 f hf)]
      · rw [if_neg hx, if_neg, hset]
        rintro ⟨f, hf, hfi⟩
        rcases List.mem_cons.mp hf with rfl | hf
        · exact hi hfi
        · exact hx ⟨f, hf, hfi⟩

/-- The objective coefficients handed to `AddColumns`. -/
theorem objectiveVector_value {d : MipData} {p : Problem} (h : d.Represents p) :
    ∃ w, objectiveVector (List.replicate d.lower.length 0) d.objective.entries = .ok w ∧
      ∀ i < p.vars.length, w[i]? = some (p.relaxation.objective i) := by
  have hl : d.lower.length = p.vars.length := by rw [h.lower, List.length_map]
  obtain ⟨w, h1, h2, h3⟩ := objectiveVector_ok d.objective.entries
    (List.replicate d.lower.length 0) h.objectiveClean.1.1 (by
      intro e he
      simpa [hl] using objective_range h he)
  refine ⟨w, h1, fun i hi => ?_⟩
  rw [h3 i, ← objective_value h i]
  by_cases hx : ∃ e ∈ d.objective.entries, e.index = (i : Int)
  · rw [if_pos hx]; rfl
  · rw [if_neg hx, List.getElem?_replicate, if_pos (by omega)]
    congr 1
    symm
    by_contra hne
    exact hx ⟨_, (Glop.mem_iff_valueAt h.objectiveClean.1 hne).mpr rfl, rfl⟩

theorem readColumns_ok {d : MipData} {p : Problem} (h : d.Represents p) {t : SparseMatrix.Table}
    (ht : SparseMatrix.Rel d.matrix t) {w : List ℚ}
    (hw : ∀ i < p.vars.length, w[i]? = some (p.relaxation.objective i)) (n col : Nat)
    (hn : col + n = p.vars.length) (m : SparseMatrix) (hm : SparseMatrix.Rel m t) :
    ∃ cs, readColumns d w m n col = .ok cs ∧ cs.length = n ∧ ∀ k c, cs[k]? = some c →
      ColumnOk p.relaxation (col + k) ⟨c.lower, c.upper, c.objective, "", c.col.entries⟩ := by
  induction n generalizing col m with
  | zero => exact ⟨[], rfl, rfl, by simp⟩
  | succ n ih =>
    have hc : col < p.vars.length := by omega
    have hlt : col < t.nc := by rw [← ht.ncols]; exact hc.trans_eq h.numCols.symm
    obtain ⟨m1, v1, hv1, hm1, -⟩ := hm.col hlt
    obtain ⟨m2, v, hv, hm2, hs⟩ := hm1.col hlt
    have hok := columnOk h ht hc hs _ rfl ""
    obtain ⟨cs, h1, h2, h3⟩ := ih (col + 1) (by omega) m2 hm2
    refine ⟨⟨v, p.vars[col].lower, p.vars[col].upper, p.relaxation.objective col, ""⟩ :: cs, ?_,
      by simp [h2], ?_⟩
    · rw [readColumns, hv1]
      simp only [Outcome.bind_ok, hv]
      rw [MipData.item, hw col hc]
      simp only [Outcome.bind_ok]
      rw [h.lower, h.upper, item_map _ _ _ hc, item_map _ _ _ hc]
      simp only [Outcome.bind_ok, h1, Outcome.pure_eq]
    · intro k c hk
      cases k with
      | zero =>
        simp only [List.getElem?_cons_zero, Option.some.injEq] at hk
        rw [← hk]; exact hok
      | succ k =>
        rw [List.getElem?_cons_succ] at hk
        have := h3 k c hk
        rwa [show col + 1 + k = col + (k + 1) by omega] at this

theorem addColsReal_eq (cs : List NewColumn) (lp : LinearProgram) :
    addColsReal lp cs = { lp with
      cols := lp.cols ++ cs.map fun c => ⟨c.lower, c.upper, c.objective, c.name, c.col.entries⟩ } := by
  induction cs generalizing lp with
  | nil => simp [addColsReal]
  | cons c r ih => rw [addColsReal, ih]; simp [addColReal]

theorem populate_refines (p : Problem) (hp : p.WellFormed) (d : MipData)
    (hd : MipData.ofProblem hash p = .ok d) (g : Interface) (hf : freed g = true) :
    ∃ g', populateFromMipData g d = .ok g' ∧ Refines g'.lp p.relaxation ∧ g'.isSolved = false ∧
      g'.settings = g.settings ∧ freed g' = true ∧ g'.status = g.status := by
  obtain ⟨d', h1, hrep, -, t, ht⟩ := MipData.ofProblem_spec hash p hp
  rw [h1] at hd
  have hd := Outcome.ok.inj hd
  subst hd
  obtain ⟨w, a1, a2⟩ := objectiveVector_value hrep
  obtain ⟨cs, b1, b2, b3⟩ := readColumns_ok hrep ht a2 p.vars.length 0 (by omega) d'.matrix ht
  have e1 : d'.lhs.length = p.constraints.length := by rw [hrep.lhs, List.length_map]
  have e2 : d'.matrix.numCols = p.vars.length := hrep.numCols
  have e3 := emptyRows_ok hrep p.constraints.length 0 (by omega)
  have hf' : g.savedRows.isEmpty = true ∧ g.savedCols.isEmpty = true := by
    simpa [freed] using hf
  refine ⟨_, by
    simp only [populateFromMipData, clear, freed, hf'.1, hf'.2, Bool.and_self, Outcome.check, if_true,
      Outcome.bind_ok, Outcome.pure_eq, e1, e2, e3, List.drop_zero, addRowsReal_empty, a1, b1,
      addColumns]
    rfl, ?_, ?_, ?_, ?_, ?_⟩
  · rw [addColsReal_eq]
    refine refines_relaxation (named := false) (by simp) rfl (by simp [b2]) ?_
    intro c col hc
    simp only [List.nil_append, List.map_map, List.getElem?_map, Option.map_eq_some_iff] at hc
    obtain ⟨nc, hnc, rfl⟩ := hc
    have := b3 c nc hnc
    rw [Nat.zero_add] at this
    exact this
  · rfl
  · rfl
  · exact hf
  · rfl

/-- **C66** (SoPlex).  Outside strong branching, loading the `MipData` of a well-formed problem into
any interface, whatever LP it held, succeeds; afterwards the getters return exactly the LP relaxation
of the user's problem (rows after cleaning, see `C44_row_order_violated`), whose points and objective
values are those the user means, and the interface asks for a solve. -/
theorem C66_populate (order : List Entry → List Entry) (ho : ∀ l, (order l).Perm l) (p : Problem)
    (hp : p.WellFormed) (d : MipData) (hd : MipData.ofProblem hash p = .ok d) (g : Interface)
    (hf : freed g = true) :
    ∃ g', populateFromMipData g d = .ok g' ∧ Shows order g' p.relaxation ∧ g'.isSolved = false ∧
      g'.settings = g.settings ∧
      ∀ x, (p.relaxation.Feasible x ↔ p.RelaxedFeasible x) ∧ p.relaxation.value x =
        if p.isMaximization then -(p.userObjective x - p.offset) else p.userObjective x - p.offset := by
  obtain ⟨g', h1, h2, h3, h4, -⟩ := populate_refines p hp d hd g hf
  exact ⟨g', h1, shows_of_refines ho h2, h3, h4, fun x => relaxation_points p hp x⟩

/-- The hypotheses of `C66_populate` hold for a problem with two variables and one constraint and an
interface that holds another LP. -/
example : (∃ d, MipData.ofProblem hash Problem.exProblem = .ok d) ∧ 
    freed { lp := twoColumns, settings := initialSettings } = true :=
  ⟨(MipData.ofProblem_spec hash _ Problem.exProblem_wellFormed).imp fun _ h => h.1, rfl⟩

end Soplex
end MiniMip
