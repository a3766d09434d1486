import Verif.Model.IeeeProblem
import Verif.Lemmas.Ieee
import Verif.Props.MipData

/-!
# C101: the data of a problem as doubles

The exact models take the coefficients of a problem for exact finite numbers.  For a problem whose numbers are finite
doubles this loses nothing: setting up `MipData` rounds nowhere.  Infinite and NaN coefficients, which the exact models
cannot hold, are accepted by the validation.
-/

namespace MiniMip
namespace Input

/-! ## The exact data as doubles -/

/-- A vector of finite doubles. -/
def vec (v : SparseVector) : Vec := ⟨v.entries.map fun e => ⟨e.index, .fin e.value⟩, v.dirty⟩

/-- A matrix of finite doubles. -/
def matrix (m : SparseMatrix) : Matrix := ⟨m.cols.map vec, m.rows.map vec, m.consistency⟩

/-- A problem with finite coefficients. -/
def problem (p : MiniMip.Problem) : Problem where
  name := p.name
  vars := p.vars.map fun v => ⟨v.name, .fin v.objective, v.lower, v.upper, v.isInteger⟩
  constraints := p.constraints.map fun c => ⟨c.name, c.varIndices, c.coefficients.map .fin, c.lhs, c.rhs⟩
  hints := p.hints.map fun h => ⟨h.varIndices, h.values.map .fin⟩
  isMaximization := p.isMaximization
  offset := .fin p.offset

/-- `MipData` with finite coefficients. -/
def data (d : MipData) : Data where
  name := d.name
  wasMaximization := d.wasMaximization
  offset := .fin d.offset
  objective := vec d.objective
  hints := d.hints.map fun h => ⟨h.varIndices, h.values.map .fin⟩
  variableNames := d.variableNames
  lower := d.lower
  upper := d.upper
  integerVariables := d.integerVariables
  isIntegerType := d.isIntegerType
  constraintNames := d.constraintNames
  lhs := d.lhs
  rhs := d.rhs
  isIntegralConstraint := d.isIntegralConstraint
  matrix := matrix d.matrix

/-- The outcome of a call, with its result translated. -/
def out {α β : Type} (f : α → β) : Outcome α → Outcome β
  | .ok a => .ok (f a)
  | .error m => .error m
  | .abort => .abort
  | .ub => .ub

theorem out_bind {α β γ δ : Type} (f : α → γ) (g : β → δ) (x : Outcome α) (k : α → Outcome β) (k' : γ → Outcome δ)
    (h : ∀ a, k' (f a) = out g (k a)) : out f x >>= k' = out g (x >>= k) := by
  cases x <;> simp [out, h]

@[simp] theorem out_ok {α β : Type} (f : α → β) (a : α) : out f (.ok a) = .ok (f a) := rfl

/-! ## Vectors -/

@[simp] theorem isZero_fin (q : ℚ) : Arith.ieee.isZero (.fin q) = decide (q = 0) := rfl

theorem vec_entries (v : SparseVector) : (vec v).entries = v.entries.map fun e => ⟨e.index, .fin e.value⟩ := rfl

theorem vec_addEntry (v : SparseVector) (i : Int) (q : ℚ) :
    (vec v).addEntry .ieee i (.fin q) = vec (v.addEntry i q) := by
  have hl : (vec v).lastIndex = v.lastIndex := by
    simp only [AVector.lastIndex, SparseVector.lastIndex, vec, List.getLast?_map]
    cases v.entries.getLast? <;> rfl
  simp only [AVector.addEntry, SparseVector.addEntry, hl, isZero_fin, decide_eq_true_eq]
  have hd : (vec v).dirty = v.dirty := rfl
  rw [hd]
  split
  · simp [vec]
  · split
    · simp [vec]
    · split
      · rfl
      · simp [vec]

theorem insertStable_vec (e : Entry) (l : List Entry) :
    AVector.insertStable (⟨e.index, .fin e.value⟩ : AEntry Dbl) (l.map fun e => ⟨e.index, .fin e.value⟩) =
      (SparseVector.insertStable e l).map fun e => ⟨e.index, .fin e.value⟩ := by
  induction l with
  | nil => rfl
  | cons f r ih =>
    simp only [List.map_cons, AVector.insertStable, SparseVector.insertStable]
    split
    · rfl
    · rw [ih]; rfl

theorem stableSort_vec (l : List Entry) :
    AVector.stableSort (l.map fun e => (⟨e.index, .fin e.value⟩ : AEntry Dbl)) =
      (SparseVector.stableSort l).map fun e => ⟨e.index, .fin e.value⟩ := by
  induction l with
  | nil => rfl
  | cons e r ih => simp only [List.map_cons, AVector.stableSort, SparseVector.stableSort, ih, insertStable_vec]

theorem compact_vec (l : List Entry) :
    AVector.compact .ieee (l.map fun e => (⟨e.index, .fin e.value⟩ : AEntry Dbl)) =
      (SparseVector.compact l).map fun e => ⟨e.index, .fin e.value⟩ := by
  fun_induction SparseVector.compact l with
  | case1 => rfl
  | case2 e he => simp [AVector.compact, he]
  | case3 e he => simp [AVector.compact, he]
  | case4 e f r h ih => rw [← ih]; simp [AVector.compact, h]
  | case5 e f r h hz ih => rw [← ih]; simp [AVector.compact, h, hz]
  | case6 e f r h hz ih =>
    rw [List.map_cons (l := SparseVector.compact _), ← ih]; simp [AVector.compact, h, hz]

theorem vec_cleanUp (v : SparseVector) : (vec v).cleanUpIfNeeded .ieee = vec v.cleanUpIfNeeded := by
  simp only [AVector.cleanUpIfNeeded, SparseVector.cleanUpIfNeeded]
  have hd : (vec v).dirty = v.dirty := rfl
  rw [hd]
  split
  · simp only [vec, stableSort_vec, compact_vec]
  · rfl

theorem vec_transform (v : SparseVector) :
    (vec v).transform .ieee (fun _ x => x.neg) = vec (v.transform fun _ x => -x) := by
  simp only [AVector.transform, SparseVector.transform, vec, List.map_map, List.filter_map]
  congr 1
  have hf : ∀ e : Entry, ((fun e : AEntry Dbl => !Arith.ieee.isZero e.value) ∘
      (fun e => ⟨e.index, e.value.neg⟩) ∘ fun e : Entry => (⟨e.index, .fin e.value⟩ : AEntry Dbl)) e =
      ((fun e : Entry => decide (e.value ≠ 0)) ∘ fun e : Entry => (⟨e.index, -e.value⟩ : Entry)) e := by
    intro e; simp [Dbl.neg]
  rw [List.filter_congr fun e _ => hf e]
  rfl

/-- The value at an index. -/
theorem vec_value (v : SparseVector) (i : Int) : (vec v).value .ieee i = .fin (v.value i) := by
  simp only [AVector.value, SparseVector.value, vec, List.find?_map]
  rw [SparseVector.valueAt]
  have hf : ((fun e : AEntry Dbl => decide (i ≤ e.index)) ∘ fun e : Entry => (⟨e.index, .fin e.value⟩ : AEntry Dbl)) =
      fun e : Entry => decide (i ≤ e.index) := rfl
  rw [hf]
  cases v.entries.find? (fun e => decide (i ≤ e.index)) with
  | none => rfl
  | some e =>
    simp only [Option.map_some]
    split <;> rfl

/-! ## The matrix -/

theorem at_vec (l : List SparseVector) (i : Nat) : Matrix.at? (l.map vec) i = out vec (SparseMatrix.at? l i) := by
  simp only [Matrix.at?, SparseMatrix.at?, List.getElem?_map]
  cases l[i]? <;> rfl

theorem addAt_vec (l : List SparseVector) (j : Int) (i : Nat) (q : ℚ) :
    Matrix.addAt (l.map vec) j i (.fin q) = out (List.map vec) (SparseMatrix.addAt l j i q) := by
  simp only [Matrix.addAt, SparseMatrix.addAt, List.length_map]
  split
  · simp only [out_ok, Outcome.ok.injEq]
    apply List.ext_getElem?
    intro k
    simp only [List.getElem?_modify, List.getElem?_map]
    split
    · cases l[k]? <;> simp [vec_addEntry]
    · cases l[k]? <;> simp
  · rfl

theorem fillOne_vec (i : Nat) (es : List Entry) (l : List SparseVector) :
    Matrix.fillOne i (l.map vec) (es.map fun e => ⟨e.index, .fin e.value⟩) =
      out (List.map vec) (SparseMatrix.fillOne i l es) := by
  induction es generalizing l with
  | nil => rfl
  | cons e r ih =>
    simp only [List.map_cons, Matrix.fillOne, SparseMatrix.fillOne, addAt_vec]
    exact out_bind _ _ _ _ _ ih

theorem fill_vec (i : Nat) (vs l : List SparseVector) :
    Matrix.fill i (l.map vec) (vs.map vec) = out (List.map vec) (SparseMatrix.fill i l vs) := by
  induction vs generalizing i l with
  | nil => rfl
  | cons v r ih =>
    simp only [List.map_cons, Matrix.fill, SparseMatrix.fill, vec_entries, fillOne_vec]
    exact out_bind _ _ _ _ _ (ih _)

theorem populateFromTranspose_vec (l t : List SparseVector) :
    Matrix.populateFromTranspose (l.map vec) (t.map vec) =
      out (fun x => (x.1.map vec, x.2.map vec)) (SparseMatrix.populateFromTranspose l t) := by
  simp only [Matrix.populateFromTranspose, SparseMatrix.populateFromTranspose]
  have h1 : ((l.map vec).map fun _ => ({} : Vec)) = (l.map SparseVector.clear).map vec := by
    simp only [List.map_map]; rfl
  have h2 : (t.map vec).map (AVector.cleanUpIfNeeded .ieee) = (t.map SparseVector.cleanUpIfNeeded).map vec := by
    simp only [List.map_map]
    exact List.map_congr_left fun v _ => vec_cleanUp v
  rw [h1, h2, fill_vec]
  exact out_bind _ _ _ _ _ fun a => rfl

theorem recomputeRows_vec (m : SparseMatrix) : (matrix m).recomputeRows = out matrix m.recomputeRows := by
  simp only [Matrix.recomputeRows, SparseMatrix.recomputeRows, SparseMatrix.rowsNeed, beq_iff_eq]
  have hc : (matrix m).consistency = m.consistency := rfl
  rw [hc]
  split
  · rw [show (matrix m).rows = m.rows.map vec from rfl, show (matrix m).cols = m.cols.map vec from rfl,
      populateFromTranspose_vec]
    exact out_bind _ _ _ _ _ fun a => rfl
  · rfl

theorem recomputeCols_vec (m : SparseMatrix) : (matrix m).recomputeCols = out matrix m.recomputeCols := by
  simp only [Matrix.recomputeCols, SparseMatrix.recomputeCols, SparseMatrix.colsNeed, beq_iff_eq]
  have hc : (matrix m).consistency = m.consistency := rfl
  rw [hc]
  split
  · rw [show (matrix m).rows = m.rows.map vec from rfl, show (matrix m).cols = m.cols.map vec from rfl,
      populateFromTranspose_vec]
    exact out_bind _ _ _ _ _ fun a => rfl
  · rfl

theorem row_vec (m : SparseMatrix) (r : Nat) :
    (matrix m).row r = out (fun x => (matrix x.1, vec x.2)) (m.row r) := by
  simp only [Matrix.row, SparseMatrix.row, recomputeRows_vec]
  refine out_bind _ _ _ _ _ fun m' => ?_
  rw [show (matrix m').rows = m'.rows.map vec from rfl, at_vec]
  refine out_bind _ _ _ _ _ fun v => ?_
  simp [vec_cleanUp, matrix, List.map_set]

theorem col_vec (m : SparseMatrix) (c : Nat) :
    (matrix m).col c = out (fun x => (matrix x.1, vec x.2)) (m.col c) := by
  simp only [Matrix.col, SparseMatrix.col, recomputeCols_vec]
  refine out_bind _ _ _ _ _ fun m' => ?_
  rw [show (matrix m').cols = m'.cols.map vec from rfl, at_vec]
  refine out_bind _ _ _ _ _ fun v => ?_
  simp [vec_cleanUp, matrix, List.map_set]

theorem populateRow_vec (m : SparseMatrix) (r : Nat) (v : SparseVector) :
    (matrix m).populateRow r (vec v) = out matrix (m.populateRow r v) := by
  simp only [Matrix.populateRow, SparseMatrix.populateRow, recomputeRows_vec]
  refine out_bind _ _ _ _ _ fun m' => ?_
  rw [show (matrix m').rows = m'.rows.map vec from rfl, at_vec]
  refine out_bind _ _ _ _ _ fun w => ?_
  simp [vec_cleanUp, matrix, List.map_set]

/-! ## The constructor -/

theorem isIntegralCoefficient_fin (q : ℚ) :
    Data.isIntegralCoefficient (.fin q) = MipData.isIntegralCoefficient q := by
  simp [Data.isIntegralCoefficient, MipData.isIntegralCoefficient, Ieee.roundHalfAway, Dbl.eq]

theorem addVariables_data (vs : List MiniMip.Variable) (d : MipData) (k : Nat) :
    (data d).addVariables k (vs.map fun v => ⟨v.name, .fin v.objective, v.lower, v.upper, v.isInteger⟩) =
      out data (d.addVariables k vs) := by
  induction vs generalizing d k with
  | nil => rfl
  | cons v r ih =>
    simp only [List.map_cons, Data.addVariables, MipData.addVariables]
    have h : (data d).addVariable k ⟨v.name, .fin v.objective, v.lower, v.upper, v.isInteger⟩ =
        out data (d.addVariable k v) := by
      simp only [Data.addVariable, MipData.addVariable]
      have ho : (if Dbl.ne (.fin v.objective) (.fin 0) then
          (data d).objective.addEntry .ieee k (.fin v.objective) else (data d).objective) =
          vec (if v.objective ≠ 0 then d.objective.addEntry k v.objective else d.objective) := by
        by_cases hz : v.objective = 0
        · simp [Dbl.ne, Dbl.eq, hz, data]
        · simp [Dbl.ne, Dbl.eq, hz, data, vec_addEntry]
      rw [ho]
      cases hc : Outcome.check (!v.isInteger || Dbl.le v.lower v.upper) <;> simp [out, data]
    rw [h]
    exact out_bind _ _ _ _ _ fun d' => ih d' _

theorem buildRow_data (is : List Int) (as : List ℚ) (v : SparseVector) :
    Data.buildRow (vec v) is (as.map .fin) = out vec (MipData.buildRow v is as) := by
  induction is generalizing as v with
  | nil => cases as <;> rfl
  | cons i is ih =>
    cases as with
    | nil => rfl
    | cons a as => simp only [List.map_cons, Data.buildRow, MipData.buildRow, vec_addEntry, ih]

theorem addConstraints_data (cs : List MiniMip.Constraint) (d : MipData) (k : Nat) :
    (data d).addConstraints k (cs.map fun c => ⟨c.name, c.varIndices, c.coefficients.map .fin, c.lhs, c.rhs⟩) =
      out data (d.addConstraints k cs) := by
  induction cs generalizing d k with
  | nil => rfl
  | cons c r ih =>
    simp only [List.map_cons, Data.addConstraints, MipData.addConstraints]
    have h : (data d).addConstraint k ⟨c.name, c.varIndices, c.coefficients.map .fin, c.lhs, c.rhs⟩ =
        out data (d.addConstraint k c) := by
      simp only [Data.addConstraint, MipData.addConstraint]
      rw [show ({} : Vec) = vec {} from rfl, buildRow_data]
      refine out_bind _ _ _ _ _ fun v => ?_
      rw [show (data d).matrix = matrix d.matrix from rfl, populateRow_vec]
      refine out_bind _ _ _ _ _ fun m => ?_
      simp [data, vec_entries, List.all_map, Function.comp_def, isIntegralCoefficient_fin]
      rfl
    rw [h]
    exact out_bind _ _ _ _ _ fun d' => ih d' _

theorem addVariables_offset (vs : List MiniMip.Variable) (d d' : MipData) (k : Nat)
    (h : d.addVariables k vs = .ok d') : d'.offset = d.offset := by
  induction vs generalizing d k with
  | nil => cases h; rfl
  | cons v r ih =>
    simp only [MipData.addVariables, Outcome.bind_eq_ok] at h
    obtain ⟨a, h1, h2⟩ := h
    simp only [MipData.addVariable, Outcome.bind_eq_ok, Outcome.pure_eq, Outcome.ok.injEq] at h1
    obtain ⟨_, -, rfl⟩ := h1
    rw [ih _ _ h2]

theorem addConstraints_offset (cs : List MiniMip.Constraint) (d d' : MipData) (k : Nat)
    (h : d.addConstraints k cs = .ok d') : d'.offset = d.offset := by
  induction cs generalizing d k with
  | nil => cases h; rfl
  | cons c r ih =>
    simp only [MipData.addConstraints, Outcome.bind_eq_ok] at h
    obtain ⟨a, h1, h2⟩ := h
    simp only [MipData.addConstraint, Outcome.bind_eq_ok, Outcome.pure_eq, Outcome.ok.injEq] at h1
    obtain ⟨_, -, _, -, rfl⟩ := h1
    rw [ih _ _ h2]

theorem variableError_data (vs : List MiniMip.Variable) :
    Problem.variableError (vs.map fun v => ⟨v.name, .fin v.objective, v.lower, v.upper, v.isInteger⟩) =
      MiniMip.Problem.variableError vs := by
  induction vs with
  | nil => rfl
  | cons v r ih => simp only [List.map_cons, Problem.variableError, MiniMip.Problem.variableError, ih]

theorem constraintsError_data (n : Nat) (cs : List MiniMip.Constraint) :
    Problem.constraintsError n (cs.map fun c => ⟨c.name, c.varIndices, c.coefficients.map .fin, c.lhs, c.rhs⟩) =
      MiniMip.Problem.constraintsError n cs := by
  induction cs with
  | nil => rfl
  | cons c r ih =>
    simp only [List.map_cons, Problem.constraintsError, MiniMip.Problem.constraintsError, ih,
      Problem.constraintError, MiniMip.Problem.constraintError, List.length_map]

/-- `MipData` before the first loop of its constructor. -/
def start (p : MiniMip.Problem) : MipData :=
  { name := p.name
    wasMaximization := p.isMaximization
    offset := p.offset
    matrix := SparseMatrix.mk' p.vars.length p.constraints.length }

/-- **C101**, the finite part: if the offset of a problem is a double, then setting up `MipData` from the problem as
doubles ends as the exact model does, and gives the same data as doubles: nothing is rounded.  That goes on for what
the LP interfaces then read: rows and columns of the matrix, and objective coefficients. -/
theorem C101_no_rounding (order : MipData.HashOrder) (p : MiniMip.Problem) (ho : Ieee.IsDouble p.offset) :
    Data.ofProblem order (problem p) = out data (MipData.ofProblem order p) ∧
      (problem p).findError = p.findError ∧
      (∀ (m : SparseMatrix) (c : Nat), (matrix m).col c = out (fun x => (matrix x.1, vec x.2)) (m.col c)) ∧
      (∀ (m : SparseMatrix) (r : Nat), (matrix m).row r = out (fun x => (matrix x.1, vec x.2)) (m.row r)) ∧
      ∀ (v : SparseVector) (i : Int), (vec v).value .ieee i = .fin (v.value i) := by
  refine ⟨?_, ?_, col_vec, row_vec, vec_value⟩
  · simp only [Data.ofProblem, MipData.ofProblem]
    have h0 : (⟨(problem p).name, (problem p).isMaximization, (problem p).offset, {}, [], [], [], [], [], [], [], [], [],
        [], Matrix.mk' (problem p).vars.length (problem p).constraints.length⟩ : Data) =
        data (start p) := by
      simp [start, data, problem, matrix, Matrix.mk', SparseMatrix.mk', vec]
    rw [h0, show (problem p).vars = p.vars.map _ from rfl, addVariables_data]
    rw [show ({ name := p.name, wasMaximization := p.isMaximization, offset := p.offset, matrix := SparseMatrix.mk' p.vars.length p.constraints.length } : MipData) = start p from rfl]
    cases h1 : MipData.addVariables (start p) 0 p.vars with
    | error m => rfl
    | abort => rfl
    | ub => rfl
    | ok d1 =>
      have ho1 : d1.offset = p.offset := addVariables_offset _ _ _ _ h1
      simp only [out_ok, Outcome.bind_ok]
      have h2 : ({ data d1 with objective := (data d1).objective.cleanUpIfNeeded .ieee, hints := (problem p).hints } : Data) =
          data { d1 with objective := d1.objective.cleanUpIfNeeded, hints := p.hints } := by
        simp [data, problem, vec_cleanUp]
      rw [h2, show (problem p).constraints = p.constraints.map _ from rfl, addConstraints_data]
      cases h3 : MipData.addConstraints ({ d1 with objective := d1.objective.cleanUpIfNeeded, hints := p.hints } : MipData)
          0 p.constraints with
      | error m => rfl
      | abort => rfl
      | ub => rfl
      | ok d2 =>
        have ho2 : d2.offset = p.offset := (addConstraints_offset _ _ _ _ h3).trans ho1
        simp only [out_ok, Outcome.bind_ok, Outcome.pure_eq, Outcome.ok.injEq]
        rw [show (problem p).isMaximization = p.isMaximization from rfl]
        split
        · have hm : Ieee.mul (.fin p.offset) (.fin (-1)) = .fin (p.offset * (-1)) := by
            rw [show Ieee.mul (.fin p.offset) (.fin (-1)) = Ieee.round (p.offset * (-1)) from rfl, mul_neg_one]
            exact Ieee.round_rep ho.neg.1 ho.neg.2
          simp [data, ho2, hm, vec_transform]
        · simp [data]
  · simp only [Problem.findError, MiniMip.Problem.findError]
    rw [show (problem p).vars = p.vars.map _ from rfl, variableError_data, List.length_map,
      show (problem p).constraints = p.constraints.map _ from rfl, constraintsError_data]

/-- `max x + 1/2`, `3x ≤ 4`, `x` integer: the hypothesis holds, and the objective and the offset change their sign. -/
def half : MiniMip.Problem where
  vars := [{ name := "x", objective := 1, lower := .fin 0, upper := .fin 9, isInteger := true }]
  constraints := [{ name := "c", varIndices := [0], coefficients := [3], rhs := .fin 4 }]
  isMaximization := true
  offset := 1 / 2

example : Ieee.IsDouble half.offset ∧ ∃ d, Data.ofProblem .id (problem half) = .ok d ∧ d.offset = .fin (-1 / 2) ∧
    d.objective.value .ieee 0 = .fin (-1) ∧ d.isIntegralConstraint = [true] := by
  have h : Ieee.IsDouble half.offset :=
    ⟨⟨1, -1, by norm_num, by norm_num, by norm_num [half]⟩, Ieee.le_maxFinite (by norm_num [half, abs_of_pos])⟩
  obtain ⟨d, hd⟩ : ∃ d, MipData.ofProblem .id half = .ok d := ⟨_, rfl⟩
  refine ⟨h, data d, by rw [(C101_no_rounding .id half h).1, hd]; rfl, ?_⟩
  cases hd
  exact ⟨by decide +kernel, by decide +kernel, by decide +kernel⟩

/-- All coefficients, the objective and the offset are finite. -/
def Problem.Finite (p : Problem) : Prop :=
  (∃ q, p.offset = .fin q) ∧ (∀ v ∈ p.vars, ∃ q, v.objective = .fin q) ∧
    ∀ c ∈ p.constraints, ∀ x ∈ c.coefficients, ∃ q, x = .fin q

/-- A problem with an infinite coefficient in its constraint, a NaN objective coefficient and an infinite offset. -/
def wild : Problem where
  vars := [{ name := "x", objective := .nan, lower := .fin 0, upper := .fin 1, isInteger := true }]
  constraints := [{ name := "c", varIndices := [0], coefficients := [.pinf], rhs := .fin 1 }]
  offset := .pinf

/-- **C101** is violated by the validation: a problem with an infinite and a NaN coefficient is accepted.  The
constructor stores them, and calls the row with the infinite coefficient integral. -/
theorem C101_not_finite_violated (order : MipData.HashOrder) :
    wild.findError = "" ∧ ¬ wild.Finite ∧
      ∃ d, Data.ofProblem order wild = .ok d ∧ d.isIntegralConstraint = [true] ∧
        d.objective.value .ieee 0 = .nan ∧ d.offset = .pinf ∧
        ∃ m v, d.matrix.row 0 = .ok (m, v) ∧ v.value .ieee 0 = .pinf := by
  refine ⟨by decide, fun h => ?_, ?_⟩
  · obtain ⟨q, hq⟩ := h.1
    cases hq
  · have h1 : order.apply [0] = [0] := order.apply_singleton 0
    refine ⟨{ offset := .pinf, objective := ⟨[⟨0, .nan⟩], false⟩, variableNames := ["x"], lower := [.fin 0],
              upper := [.fin 1], integerVariables := order.apply [0], isIntegerType := [true], constraintNames := ["c"],
              lhs := [.ninf], rhs := [.fin 1], isIntegralConstraint := [true],
              matrix := ⟨[{}], [⟨[⟨0, .pinf⟩], false⟩], .colsNeedRecomputation⟩ }, ?_, rfl, rfl, rfl, ?_⟩
    · rfl
    · exact ⟨_, _, rfl, rfl⟩

/-- The problem with other numbers for the offset, the objective coefficients and the matrix coefficients. -/
def Problem.withNumbers (p : Problem) (offset : Dbl) (objective : Variable → Dbl) (coefficient : Constraint → Dbl → Dbl) :
    Problem :=
  { p with
    offset := offset
    vars := p.vars.map fun v => { v with objective := objective v }
    constraints := p.constraints.map fun c => { c with coefficients := c.coefficients.map (coefficient c) } }

/-- **C101** is violated by the validation in general: it reads none of these numbers.  Whatever is put in their place in a
problem that it accepts, infinities and NaN included, it accepts the result. -/
theorem C101_unread_violated (p : Problem) (h : p.findError = "") (offset : Dbl) (objective : Variable → Dbl)
    (coefficient : Constraint → Dbl → Dbl) :
    (p.withNumbers offset objective coefficient).findError = "" ∧
    ∃ q : Problem, q.findError = "" ∧ ¬ q.Finite ∧ q.vars.length = p.vars.length ∧
      q.constraints.length = p.constraints.length ∧ (∀ v ∈ q.vars, v.objective = .nan) ∧
      ∀ c ∈ q.constraints, ∀ x ∈ c.coefficients, x = .nan := by
  have hv : ∀ (objective : Variable → Dbl) (l : List Variable),
      Problem.variableError (l.map fun v => { v with objective := objective v }) = Problem.variableError l := by
    intro objective l
    induction l with
    | nil => rfl
    | cons v r ih => simp only [List.map_cons, Problem.variableError, ih]
  have hc : ∀ (coefficient : Constraint → Dbl → Dbl) (n : Nat) (l : List Constraint),
      Problem.constraintsError n (l.map fun c => { c with coefficients := c.coefficients.map (coefficient c) }) =
        Problem.constraintsError n l := by
    intro coefficient n l
    induction l with
    | nil => rfl
    | cons c r ih => simp only [List.map_cons, Problem.constraintsError, Problem.constraintError, ih, List.length_map]
  have key : ∀ offset objective coefficient, (p.withNumbers offset objective coefficient).findError = "" := by
    intro offset objective coefficient
    rw [← h]
    simp only [Problem.findError, Problem.withNumbers, hv, hc, List.length_map]
  refine ⟨key _ _ _, p.withNumbers .nan (fun _ => .nan) (fun _ _ => .nan), key _ _ _, fun hf => ?_, ?_, ?_, ?_, ?_⟩
  · obtain ⟨q, hq⟩ := hf.1
    cases hq
  · simp [Problem.withNumbers]
  · simp [Problem.withNumbers]
  · intro v hm
    simp only [Problem.withNumbers, List.mem_map] at hm
    obtain ⟨_, -, rfl⟩ := hm
    rfl
  · intro c hm x hx
    simp only [Problem.withNumbers, List.mem_map] at hm
    obtain ⟨_, -, rfl⟩ := hm
    simp only [List.mem_map] at hx
    obtain ⟨_, -, rfl⟩ := hx
    rfl

/-- The hypothesis is met by a problem with a variable and a constraint. -/
example : (problem half).findError = "" ∧ (problem half).vars.length = 1 ∧ (problem half).constraints.length = 1 := by
  decide +kernel

end Input
end MiniMip
