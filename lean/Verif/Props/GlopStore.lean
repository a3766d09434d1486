import Verif.Lemmas.GlopLpi
import Mathlib.Algebra.BigOperators.Fin
import Mathlib.Tactic.Ring

/-!
# Properties C44-C46: the Glop interface as a store of an LP and a basis

The specification is a dense LP (`LpSpec`): dimensions, functions for bounds, sides, objective and
coefficients.  A deletion composes these functions with the positions that are kept.
-/

namespace MiniMip
namespace Glop

open SparseVector

/-- The LP a history of modifications describes.  Only arguments below the dimensions matter. -/
structure LpSpec where
  numRows : Nat
  numCols : Nat
  maximize : Bool
  lower : Nat → Dbl
  upper : Nat → Dbl
  objective : Nat → ℚ
  lhs : Nat → Dbl
  rhs : Nat → Dbl
  /-- `coef row col` -/
  coef : Nat → Nat → ℚ

/-- The empty LP. -/
def LpSpec.empty : LpSpec :=
  ⟨0, 0, false, fun _ => .nan, fun _ => .nan, fun _ => 0, fun _ => .nan, fun _ => .nan,
    fun _ _ => 0⟩

/-- The LP with one more column. -/
def LpSpec.addColumn (s : LpSpec) (c : NewColumn) : LpSpec :=
  { s with
    numCols := s.numCols + 1
    lower := Function.update s.lower s.numCols c.lower
    upper := Function.update s.upper s.numCols c.upper
    objective := Function.update s.objective s.numCols c.objective
    coef := fun i j => if j = s.numCols then c.col.value i else s.coef i j }

/-- The LP with one more row. -/
def LpSpec.addRow (s : LpSpec) (r : NewRow) : LpSpec :=
  { s with
    numRows := s.numRows + 1
    lhs := Function.update s.lhs s.numRows r.lhs
    rhs := Function.update s.rhs s.numRows r.rhs
    coef := fun i j => if i = s.numRows then r.row.value j else s.coef i j }

/-- The LP without the columns in `deleted`. -/
def LpSpec.removeColumns (s : LpSpec) (deleted : Nat → Bool) : LpSpec :=
  let ks := keptPositions s.numCols deleted
  { s with
    numCols := ks.length
    lower := fun j => s.lower (ks.getD j 0)
    upper := fun j => s.upper (ks.getD j 0)
    objective := fun j => s.objective (ks.getD j 0)
    coef := fun i j => s.coef i (ks.getD j 0) }

/-- The LP without the rows in `deleted`. -/
def LpSpec.removeRows (s : LpSpec) (deleted : Nat → Bool) : LpSpec :=
  let ks := keptPositions s.numRows deleted
  { s with
    numRows := ks.length
    lhs := fun j => s.lhs (ks.getD j 0)
    rhs := fun j => s.rhs (ks.getD j 0)
    coef := fun i j => s.coef (ks.getD i 0) j }

/-- The modifications of C44. -/
inductive Modification where
  | addColumn (c : NewColumn)
  | addColumns (cs : List NewColumn)
  | addRow (r : NewRow)
  | addRows (rs : List NewRow)
  | deleteColumns (first last : Int)
  | deleteRows (first last : Int)
  | deleteRowSet (mask : List Bool)
  | setColumnBounds (col : Int) (lower upper : Dbl)
  | setRowSides (row : Int) (lhs rhs : Dbl)
  | setObjectiveSense (isMaximization : Bool)
  | setObjectiveCoefficient (col : Int) (x : ℚ)
  | clear

/-- The call on the interface. -/
def Modification.call (g : Interface) : Modification → Outcome Interface
  | .addColumn c => .ok (Glop.addColumn g c.col c.lower c.upper c.objective c.name)
  | .addColumns cs => .ok (Glop.addColumns g cs)
  | .addRow r => Glop.addRow g r.row r.lhs r.rhs r.name
  | .addRows rs => Glop.addRows g rs
  | .deleteColumns f l => Glop.deleteColumns g f l
  | .deleteRows f l => Glop.deleteRows g f l
  | .deleteRowSet mask => do return (← Glop.deleteRowSet g mask).1
  | .setColumnBounds c lo up => Glop.setColumnBounds g c lo up
  | .setRowSides r lo up => Glop.setRowSides g r lo up
  | .setObjectiveSense b => .ok (Glop.setObjectiveSense g b)
  | .setObjectiveCoefficient c x => Glop.setObjectiveCoefficient g c x
  | .clear => .ok (Glop.clear g)

/-- The effect a caller expects. -/
def Modification.effect (s : LpSpec) : Modification → LpSpec
  | .addColumn c => s.addColumn c
  | .addColumns cs => cs.foldl LpSpec.addColumn s
  | .addRow r => s.addRow r
  | .addRows rs => rs.foldl LpSpec.addRow s
  | .deleteColumns f l => s.removeColumns fun i => decide (f ≤ i ∧ i ≤ l)
  | .deleteRows f l => s.removeRows fun i => decide (f ≤ i ∧ i ≤ l)
  | .deleteRowSet mask => s.removeRows fun i => mask[i]? == some true
  | .setColumnBounds c lo up =>
    { s with lower := Function.update s.lower c.toNat lo, upper := Function.update s.upper c.toNat up }
  | .setRowSides r lo up =>
    { s with lhs := Function.update s.lhs r.toNat lo, rhs := Function.update s.rhs r.toNat up }
  | .setObjectiveSense b => { s with maximize := b }
  | .setObjectiveCoefficient c x => { s with objective := Function.update s.objective c.toNat x }
  | .clear => LpSpec.empty

/-- A clean sparse vector with indices below `n` (the DCHECKs of AddColumn and AddRow). -/
def FitsIn (v : SparseVector) (n : Nat) : Prop := Clean v.entries ∧ ∀ e ∈ v.entries, e.index < n

/-- The documented preconditions of the calls (the DCHECKs). -/
def Modification.Valid (s : LpSpec) : Modification → Prop
  | .addColumn c => FitsIn c.col s.numRows
  | .addColumns cs => ∀ c ∈ cs, FitsIn c.col s.numRows
  | .addRow r => FitsIn r.row s.numCols
  | .addRows rs => ∀ r ∈ rs, FitsIn r.row s.numCols
  | .deleteColumns f l => 0 ≤ f ∧ f ≤ l ∧ l < s.numCols
  | .deleteRows f l => 0 ≤ f ∧ f ≤ l ∧ l < s.numRows
  | .deleteRowSet mask => mask.length = s.numRows
  | .setColumnBounds c _ _ => 0 ≤ c ∧ c < s.numCols
  | .setRowSides r _ _ => 0 ≤ r ∧ r < s.numRows
  | .setObjectiveSense _ => True
  | .setObjectiveCoefficient c _ => 0 ≤ c ∧ c < s.numCols
  | .clear => True

/-- Every modification of the history is valid when it is made. -/
def ValidHistory : LpSpec → List Modification → Prop
  | _, [] => True
  | s, m :: r => m.Valid s ∧ ValidHistory (m.effect s) r

/-- The calls, one after the other. -/
def runHistory : Interface → List Modification → Outcome Interface
  | g, [] => .ok g
  | g, m :: r => do runHistory (← m.call g) r

/-- The getters return exactly the LP `s`. -/
structure Shows (g : Interface) (s : LpSpec) : Prop where
  numRows : getNumberOfRows g = s.numRows
  numCols : getNumberOfColumns g = s.numCols
  sense : isMaximization g = s.maximize
  lower : ∀ c < s.numCols, getLowerBound g c = .ok (s.lower c)
  upper : ∀ c < s.numCols, getUpperBound g c = .ok (s.upper c)
  objective : ∀ c < s.numCols, getObjectiveCoefficient g c = .ok (s.objective c)
  lhs : ∀ r < s.numRows, getLeftHandSide g r = .ok (s.lhs r)
  rhs : ∀ r < s.numRows, getRightHandSide g r = .ok (s.rhs r)
  coef : ∀ r < s.numRows, ∀ c < s.numCols, getMatrixCoefficient g c r = .ok (s.coef r c)
  sparseCol : ∀ c < s.numCols, ∃ v, getSparseColumnCoefficients g c = .ok v ∧
    v.mayNeedCleaning = false ∧ FitsIn v s.numRows ∧ ∀ r < s.numRows, v.value r = s.coef r c
  sparseRow : ∀ r < s.numRows, ∃ v, getSparseRowCoefficients g r = .ok v ∧
    v.mayNeedCleaning = false ∧ FitsIn v s.numCols ∧ ∀ c < s.numCols, v.value c = s.coef r c
  nonZeros : getNumberOfNonZeros g =
    ((Finset.range s.numCols).sum fun c =>
      ((Finset.range s.numRows).filter fun r => s.coef r c ≠ 0).card : Nat)

/-! ### The representation invariant -/

/-- One stored column represents column `c` of the LP. -/
structure ColumnOk (s : LpSpec) (c : Nat) (col : Column) : Prop where
  lower : col.lower = s.lower c
  upper : col.upper = s.upper c
  objective : col.objective = s.objective c
  clean : Clean col.entries
  range : ∀ e ∈ col.entries, e.index < s.numRows
  coef : ∀ r < s.numRows, valueAt col.entries r = s.coef r c

/-- The stored program represents the LP. -/
structure Refines (lp : LinearProgram) (s : LpSpec) : Prop where
  numRows : lp.rows.length = s.numRows
  numCols : lp.cols.length = s.numCols
  sense : lp.maximize = s.maximize
  cols : ∀ c col, lp.cols[c]? = some col → ColumnOk s c col
  rows : ∀ r row, lp.rows[r]? = some row → row.lhs = s.lhs r ∧ row.rhs = s.rhs r

theorem Refines.init : Refines {} LpSpec.empty :=
  ⟨rfl, rfl, rfl, by simp, by simp⟩

theorem refines_addColumn {g : Interface} {s : LpSpec} (h : Refines g.lp s) {c : NewColumn}
    (hc : FitsIn c.col s.numRows) :
    Refines (addColumn g c.col c.lower c.upper c.objective c.name).lp (s.addColumn c) := by
  refine ⟨h.numRows, by simp [addColumn, LpSpec.addColumn, h.numCols], h.sense, ?_, h.rows⟩
  intro k col hk
  simp only [addColumn] at hk
  rcases Nat.lt_trichotomy k s.numCols with hlt | heq | hgt
  · rw [List.getElem?_append_left (by rw [h.numCols]; exact hlt)] at hk
    have hco := h.cols k col hk
    have hne : k ≠ s.numCols := by omega
    exact ⟨by simp [LpSpec.addColumn, hne, hco.lower], by simp [LpSpec.addColumn, hne, hco.upper],
      by simp [LpSpec.addColumn, hne, hco.objective], hco.clean, hco.range,
      fun r hr => by simpa [LpSpec.addColumn, hne] using hco.coef r hr⟩
  · subst heq
    rw [List.getElem?_append_right (by rw [h.numCols]), h.numCols] at hk
    simp at hk
    subst hk
    exact ⟨by simp [LpSpec.addColumn], by simp [LpSpec.addColumn], by simp [LpSpec.addColumn],
      hc.1, hc.2, fun r hr => by simp [LpSpec.addColumn, SparseVector.value]⟩
  · rw [List.getElem?_append_right (by rw [h.numCols]; omega), h.numCols] at hk
    have : k - s.numCols ≠ 0 := by omega
    obtain ⟨m, hm⟩ := Nat.exists_eq_succ_of_ne_zero this
    simp [hm] at hk

theorem refines_addColumns {g : Interface} {s : LpSpec} (h : Refines g.lp s) {cs : List NewColumn}
    (hc : ∀ c ∈ cs, FitsIn c.col s.numRows) :
    Refines (addColumns g cs).lp (cs.foldl LpSpec.addColumn s) := by
  induction cs generalizing g s with
  | nil => exact h
  | cons c r ih =>
    rw [addColumns, List.foldl_cons]
    exact ih (refines_addColumn h (hc c (by simp))) (fun d hd => hc d (by simp [hd]))

theorem filter_index_clean {l : List Entry} (h : Clean l) (i : Int) :
    l.filter (fun e => decide (e.index = i)) =
      if valueAt l i = 0 then [] else [⟨i, valueAt l i⟩] := by
  obtain ⟨hs, hz⟩ := h
  induction l with
  | nil => simp [valueAt_nil]
  | cons e r ih =>
    rw [List.pairwise_cons] at hs
    have ih := ih hs.2 (fun f hf => hz f (by simp [hf]))
    rw [valueAt_cons, List.filter_cons]
    by_cases h1 : e.index < i
    · have : e.index ≠ i := by omega
      simp [h1, this, ih]
    · simp only [if_neg h1]
      have hr : r.filter (fun e => decide (e.index = i)) = [] := by
        rw [List.filter_eq_nil_iff]
        intro x hx
        have := hs.1 x hx
        simp; omega
      by_cases h2 : e.index = i
      · have h3 := (hz e (by simp)).1
        simp [h2, hr, h3]
        cases e; simp_all
      · simp [h2, hr]

/-- The loop of `AddRow` appends, to every column, the entries of the row for that column. -/
theorem setRow_ok (k : Nat) (l : List Entry) (lp : LinearProgram)
    (hl : ∀ e ∈ l, 0 ≤ e.index ∧ e.index < lp.cols.length) :
    ∃ lp', setRow k lp l = .ok lp' ∧ lp'.rows = lp.rows ∧ lp'.maximize = lp.maximize ∧
      lp'.cols.length = lp.cols.length ∧
      ∀ c : Nat, lp'.cols[c]? = lp.cols[c]?.map fun col =>
        { col with
          entries := col.entries ++
            (l.filter fun e => decide (e.index = (c : Int))).map fun e => ⟨(k : Int), e.value⟩ } := by
  induction l generalizing lp with
  | nil => exact ⟨lp, rfl, rfl, rfl, rfl, fun c => by simp⟩
  | cons e r ih =>
    have he := hl e (by simp)
    rw [setRow, LinearProgram.setCoefficient, if_pos he]
    simp only [Outcome.bind_ok]
    obtain ⟨lp', h1, h2, h3, h4, h5⟩ := ih
      { lp with
        cols := lp.cols.modify e.index.toNat fun c =>
          { c with entries := c.entries ++ [⟨k, e.value⟩] } }
      (fun f hf => by simpa using hl f (by simp [hf]))
    refine ⟨lp', h1, h2, h3, by simpa using h4, ?_⟩
    intro c
    rw [h5 c]
    simp only [List.getElem?_modify]
    cases hc : lp.cols[c]? with
    | none => simp
    | some col =>
      by_cases hcc : e.index.toNat = c
      · have : e.index = (c : Int) := by omega
        simp [this]
      · have : e.index ≠ (c : Int) := by omega
        simp [hcc, this]

theorem refines_addRow {g : Interface} {s : LpSpec} (h : Refines g.lp s) {r : NewRow}
    (hr : FitsIn r.row s.numCols) :
    ∃ g', addRow g r.row r.lhs r.rhs r.name = .ok g' ∧ Refines g'.lp (s.addRow r) := by
  obtain ⟨lp', h1, h2, h3, h4, h5⟩ := setRow_ok g.lp.rows.length r.row.entries
    { g.lp with rows := g.lp.rows ++ [⟨r.lhs, r.rhs, r.name⟩] }
    (fun e he => ⟨(hr.1.2 e he).2, by rw [h.numCols]; exact hr.2 e he⟩)
  refine ⟨{ g with lp := lp', modified := true }, by simp [addRow, h1], ?_⟩
  simp only
  have hdrop : ∀ c : Nat, ((r.row.entries.filter fun e => decide (e.index = (c : Int))).map
      fun e => (⟨(g.lp.rows.length : Int), e.value⟩ : Entry)) =
      if valueAt r.row.entries c = 0 then []
      else [⟨s.numRows, valueAt r.row.entries c⟩] := by
    intro c
    rw [filter_index_clean hr.1, h.numRows]
    split <;> simp
  refine ⟨?_, ?_, ?_, ?_, ?_⟩
  · rw [h2]; simp [LpSpec.addRow, h.numRows]
  · rw [h4]; simp [LpSpec.addRow, h.numCols]
  · rw [h3]; exact h.sense
  · intro c col hc
    rw [h5 c] at hc
    simp only [Option.map_eq_some_iff] at hc
    obtain ⟨old, hold, rfl⟩ := hc
    have ho := h.cols c old hold
    rw [hdrop c]
    have hlt : ∀ e ∈ old.entries, e.index < (s.numRows : Int) := ho.range
    refine ⟨ho.lower, ho.upper, ho.objective, ?_, ?_, ?_⟩
    · by_cases hv : valueAt r.row.entries c = 0
      · simpa [hv] using ho.clean
      · simpa [hv] using clean_append_last ho.clean hlt (by simp) hv
    · intro e he
      simp only [LpSpec.addRow]
      push_cast
      by_cases hv : valueAt r.row.entries c = 0
      · simp [hv] at he
        have := hlt e he; omega
      · simp [hv] at he
        rcases he with he | he
        · have := hlt e he; omega
        · subst he; simp
    · intro i hi
      simp only [LpSpec.addRow] at hi ⊢
      by_cases hv : valueAt r.row.entries c = 0
      · simp only [hv, if_true, List.append_nil]
        by_cases hi' : i = s.numRows
        · subst hi'
          rw [valueAt_eq_zero_of_lt ho.clean hlt]
          simp [SparseVector.value, hv]
        · rw [if_neg hi', ho.coef i (by omega)]
      · simp only [hv, if_false]
        rw [valueAt_append_last ho.clean hlt]
        by_cases hi' : i = s.numRows
        · subst hi'; simp [SparseVector.value]
        · rw [if_neg (by omega), if_neg hi', ho.coef i (by omega)]
  · intro i row hi
    rw [h2] at hi
    rcases Nat.lt_trichotomy i s.numRows with hlt | heq | hgt
    · rw [List.getElem?_append_left (by rw [h.numRows]; exact hlt)] at hi
      have hne : i ≠ s.numRows := by omega
      simpa [LpSpec.addRow, hne] using h.rows i row hi
    · subst heq
      rw [List.getElem?_append_right (by rw [h.numRows]), h.numRows] at hi
      simp at hi
      subst hi
      simp [LpSpec.addRow]
    · rw [List.getElem?_append_right (by rw [h.numRows]; omega), h.numRows] at hi
      obtain ⟨m, hm⟩ := Nat.exists_eq_succ_of_ne_zero (show i - s.numRows ≠ 0 by omega)
      simp [hm] at hi

theorem refines_addRows {g : Interface} {s : LpSpec} (h : Refines g.lp s) {rs : List NewRow}
    (hr : ∀ r ∈ rs, FitsIn r.row s.numCols) :
    ∃ g', addRows g rs = .ok g' ∧ Refines g'.lp (rs.foldl LpSpec.addRow s) := by
  induction rs generalizing g s with
  | nil => exact ⟨g, rfl, h⟩
  | cons r rs ih =>
    obtain ⟨g1, h1, h2⟩ := refines_addRow h (hr r (by simp))
    obtain ⟨g2, h3, h4⟩ := ih (s := s.addRow r) h2 (fun d hd => hr d (by simp [hd]))
    exact ⟨g2, by simp [addRows, h1, h3], h4⟩

theorem markFrom_ok (mask : List Bool) (first : Int) (count : Nat) (h0 : 0 ≤ first)
    (hl : first + count ≤ mask.length) :
    ∃ m, markFrom mask first count = .ok m ∧ m.length = mask.length ∧
      ∀ i : Nat, m.getD i false =
        (decide (first ≤ i ∧ (i : Int) < first + count) || mask.getD i false) := by
  induction count generalizing mask first with
  | zero =>
    refine ⟨mask, rfl, rfl, fun i => ?_⟩
    simp
  | succ n ih =>
    push_cast at hl
    rw [markFrom, if_pos (by omega)]
    obtain ⟨m, h1, h2, h3⟩ := ih (mask.set first.toNat true) (first + 1) (by omega)
      (by simp; omega)
    refine ⟨m, h1, by simpa using h2, fun i => ?_⟩
    rw [h3 i]
    simp only [List.getD_eq_getElem?_getD, List.getElem?_set]
    by_cases hi : first.toNat = i
    · subst hi
      have h4 : first.toNat < mask.length := by omega
      have h5 : first ≤ (first.toNat : Int) ∧ (first.toNat : Int) < first + ((n + 1 : Nat) : Int) := by
        push_cast; omega
      simp only [List.getElem?_eq_getElem h4, h4, h5]
      simp
    · have h4 : (first + 1 ≤ (i : Int) ∧ (i : Int) < first + 1 + n) ↔
          (first ≤ i ∧ (i : Int) < first + ((n + 1 : Nat) : Int)) := by push_cast; omega
      simp only [hi, if_false]
      simp only [h4]

theorem markRange_ok (n : Nat) (f l : Int) (h0 : 0 ≤ f) (h1 : f ≤ l) (h2 : l < n) :
    ∃ m, markFrom (List.replicate n false) f (rangeCount f l) = .ok m ∧ m.length = n ∧
      ∀ i < n, m.getD i false = decide (f ≤ (i : Int) ∧ (i : Int) ≤ l) := by
  obtain ⟨m, h3, h4, h5⟩ := markFrom_ok (List.replicate n false) f (rangeCount f l) h0
    (by simp [rangeCount]; omega)
  refine ⟨m, h3, by simpa using h4, fun i hi => ?_⟩
  rw [h5 i]
  have : (f ≤ (i : Int) ∧ (i : Int) < f + (rangeCount f l : Nat)) ↔ (f ≤ (i : Int) ∧ (i : Int) ≤ l) := by
    simp only [rangeCount]; omega
  simp only [this, List.getD_eq_getElem?_getD, List.getElem?_replicate, hi]
  simp

theorem refines_removeColumns {lp : LinearProgram} {s : LpSpec} (h : Refines lp s)
    (mask : List Bool) (d : Nat → Bool) (hd : ∀ i < s.numCols, mask.getD i false = d i) :
    Refines (lp.deleteColumns mask) (s.removeColumns d) := by
  have hks : keptPositions s.numCols (fun i => mask.getD i false) = keptPositions s.numCols d :=
    keptPositions_congr hd
  refine ⟨h.numRows, ?_, h.sense, ?_, h.rows⟩
  · simp only [LinearProgram.deleteColumns, LpSpec.removeColumns]
    rw [length_keepUnmarked, h.numCols, hks]
  · intro j col hj
    simp only [LinearProgram.deleteColumns] at hj
    rw [getElem?_keepUnmarked, h.numCols, hks] at hj
    obtain ⟨i, hi, hcol⟩ := Option.bind_eq_some_iff.mp hj
    have ho := h.cols i col hcol
    have hg : (keptPositions s.numCols d).getD j 0 = i := by
      rw [List.getD_eq_getElem?_getD, hi]; rfl
    refine ⟨?_, ?_, ?_, ho.clean, ho.range, ?_⟩
    · simp only [LpSpec.removeColumns, hg]; exact ho.lower
    · simp only [LpSpec.removeColumns, hg]; exact ho.upper
    · simp only [LpSpec.removeColumns, hg]; exact ho.objective
    · simp only [LpSpec.removeColumns, hg]; exact ho.coef

theorem refines_removeRows {lp : LinearProgram} {s : LpSpec} (h : Refines lp s)
    (mask : List Bool) (d : Nat → Bool) (hd : ∀ i < s.numRows, mask.getD i false = d i) :
    Refines (lp.deleteRows mask) (s.removeRows d) := by
  have hks : keptPositions s.numRows (fun i => mask.getD i false) = keptPositions s.numRows d :=
    keptPositions_congr hd
  refine ⟨?_, by simp [LinearProgram.deleteRows, LpSpec.removeRows, h.numCols], h.sense, ?_, ?_⟩
  · simp only [LinearProgram.deleteRows, LpSpec.removeRows]
    rw [length_keepUnmarked, h.numRows, hks]
  · intro c col hc
    simp only [LinearProgram.deleteRows, List.getElem?_map, Option.map_eq_some_iff] at hc
    obtain ⟨old, hold, rfl⟩ := hc
    have ho := h.cols c old hold
    obtain ⟨h1, h2, h3⟩ := renumber_clean ho.clean ho.range mask
    rw [hks] at h2 h3
    refine ⟨ho.lower, ho.upper, ho.objective, h1, h2, ?_⟩
    intro j hj
    simp only [LpSpec.removeRows] at hj ⊢
    have hji : (keptPositions s.numRows d)[j]? = some (keptPositions s.numRows d)[j] :=
      List.getElem?_eq_getElem hj
    have hlt : (keptPositions s.numRows d)[j] < s.numRows :=
      (mem_keptPositions.mp (List.getElem_mem hj)).1
    rw [h3 _ _ hji, ho.coef _ hlt, List.getD_eq_getElem?_getD, hji]
    rfl
  · intro j row hj
    simp only [LinearProgram.deleteRows] at hj
    rw [getElem?_keepUnmarked, h.numRows, hks] at hj
    obtain ⟨i, hi, hrow⟩ := Option.bind_eq_some_iff.mp hj
    have hg : (keptPositions s.numRows d).getD j 0 = i := by
      rw [List.getD_eq_getElem?_getD, hi]; rfl
    simp only [LpSpec.removeRows, hg]
    exact h.rows i row hrow

/-! ### The basis (C46) -/

/-- The loop over the statuses compacts the statuses of the kept rows. -/
theorem shiftStatuses_ok (nc : Nat) (mask : List Bool) (old : List VarStatus) (n row : Nat)
    (hm : row + n ≤ mask.length) (ho : old.length = nc + (row + n)) (st : List VarStatus)
    (ns : Nat) (hlen : st.length = old.length)
    (hns : ns = nc + (keptPositions row fun i => mask.getD i false).length)
    (hle : ns ≤ nc + row)
    (hpre : ∀ k < nc, st[k]? = old[k]?)
    (hmid : ∀ j i : Nat, (keptPositions row fun i => mask.getD i false)[j]? = some i →
      st[nc + j]? = old[nc + i]?)
    (hpost : ∀ k, nc + row ≤ k → st[k]? = old[k]?) :
    ∃ st' ns', shiftStatuses nc mask n row ns st = .ok (ns', st') ∧ st'.length = old.length ∧
      ns' = nc + (keptPositions (row + n) fun i => mask.getD i false).length ∧
      ns' ≤ nc + (row + n) ∧
      (∀ k < nc, st'[k]? = old[k]?) ∧
      ∀ j i : Nat, (keptPositions (row + n) fun i => mask.getD i false)[j]? = some i →
        st'[nc + j]? = old[nc + i]? := by
  induction n generalizing row st ns with
  | zero => exact ⟨st, ns, rfl, hlen, hns, hle, hpre, hmid⟩
  | succ n ih =>
    have hr : row < mask.length := by omega
    rw [shiftStatuses, List.getElem?_eq_getElem hr]
    have hgd : mask.getD row false = mask[row] := by
      rw [List.getD_eq_getElem?_getD, List.getElem?_eq_getElem hr]; rfl
    have harr : row + (n + 1) = row + 1 + n := by omega
    cases hb : mask[row] with
    | true =>
      have hk : keptPositions (row + 1) (fun i => mask.getD i false) =
          keptPositions row fun i => mask.getD i false := by
        rw [keptPositions_succ]; simp only [hgd, hb]; simp
      simp only
      rw [harr] at ho ⊢
      exact ih (row + 1) (by omega) ho st ns hlen (by rw [hk]; exact hns) (by omega) hpre
        (by rw [hk]; exact hmid) (fun k hk' => hpost k (by omega))
    | false =>
      have hk : keptPositions (row + 1) (fun i => mask.getD i false) =
          (keptPositions row fun i => mask.getD i false) ++ [row] := by
        rw [keptPositions_succ]; simp only [hgd, hb]; simp
      have hst : nc + row < st.length := by omega
      simp only
      rw [List.getElem?_eq_getElem hst]
      have hval : old[nc + row]? = some st[nc + row] := by
        rw [← hpost (nc + row) (by omega), List.getElem?_eq_getElem hst]
      simp only
      rw [harr] at ho ⊢
      refine ih (row + 1) (by omega) ho (st.set ns st[nc + row]) (ns + 1) (by simp [hlen])
        (by rw [hk, List.length_append, List.length_singleton]; omega) (by omega) ?_ ?_ ?_
      · intro k hk'
        rw [List.getElem?_set, if_neg (by omega)]; exact hpre k hk'
      · intro j i hji
        rw [hk] at hji
        set ks := keptPositions row fun i => mask.getD i false with hks
        by_cases hj : j < ks.length
        · rw [List.getElem?_append_left hj] at hji
          rw [List.getElem?_set, if_neg (by omega)]
          exact hmid j i hji
        · have hj2 : j = ks.length := by
            have := (List.getElem?_eq_some_iff.mp hji).1
            simp at this; omega
          subst hj2
          simp at hji
          subst hji
          rw [List.getElem?_set, if_pos (by omega), if_pos (by omega), hval]
      · intro k hk'
        rw [List.getElem?_set, if_neg (by omega)]; exact hpost k (by omega)

/-- `DeleteRowsAndUpdateCurrentBasis` succeeds and, if a basis of the right size is stored,
compacts it. -/
theorem deleteRowsAndUpdate_ok (g : Interface) (mask : List Bool)
    (hm : g.lp.rows.length ≤ mask.length) :
    ∃ g', deleteRowsAndUpdateCurrentBasis g mask = .ok g' ∧ g'.lp = g.lp.deleteRows mask ∧
      g'.modified = true ∧
      (g.statuses.length = g.lp.cols.length + g.lp.rows.length →
        g'.statuses.length = g.lp.cols.length +
          (keptPositions g.lp.rows.length fun i => mask.getD i false).length ∧
        (∀ k < g.lp.cols.length, g'.statuses[k]? = g.statuses[k]?) ∧
        ∀ j i : Nat, (keptPositions g.lp.rows.length fun i => mask.getD i false)[j]? = some i →
          g'.statuses[g.lp.cols.length + j]? = g.statuses[g.lp.cols.length + i]?) := by
  unfold deleteRowsAndUpdateCurrentBasis
  by_cases h : g.statuses.length = g.lp.cols.length + g.lp.rows.length
  · obtain ⟨st, ns, h1, h2, h3, h4, h5, h6⟩ :=
      shiftStatuses_ok g.lp.cols.length mask g.statuses g.lp.rows.length 0 (by omega)
        (by omega) g.statuses g.lp.cols.length rfl (by simp [keptPositions]) (by omega)
        (fun _ _ => rfl) (by simp [keptPositions]) (fun _ _ => rfl)
    simp only [Nat.zero_add] at h3 h4 h6
    simp only [h, if_true, h1, Outcome.bind_ok, Outcome.pure_eq]
    refine ⟨_, rfl, rfl, rfl, fun _ => ?_⟩
    refine ⟨?_, ?_, ?_⟩
    · simp only [List.length_take]; omega
    · intro k hk
      simp only [List.getElem?_take]
      rw [if_pos (by omega)]; exact h5 k hk
    · intro j i hji
      have := (List.getElem?_eq_some_iff.mp hji).1
      simp only [List.getElem?_take]
      rw [if_pos (by omega)]; exact h6 j i hji
  · simp only [h, if_false, Outcome.bind_ok, Outcome.pure_eq]
    exact ⟨_, rfl, rfl, rfl, fun h' => h'.elim⟩

/-! ### C44 -/

theorem refines_step {g : Interface} {s : LpSpec} (h : Refines g.lp s) {m : Modification}
    (hv : m.Valid s) : ∃ g', m.call g = .ok g' ∧ Refines g'.lp (m.effect s) := by
  cases m with
  | addColumn c => exact ⟨_, rfl, refines_addColumn h hv⟩
  | addColumns cs => exact ⟨_, rfl, refines_addColumns h hv⟩
  | addRow r => exact refines_addRow h hv
  | addRows rs => exact refines_addRows h hv
  | deleteColumns f l =>
    obtain ⟨h0, h1, h2⟩ := hv
    obtain ⟨mk, h3, -, h5⟩ := markRange_ok g.lp.cols.length f l h0 h1 (by rw [h.numCols]; exact h2)
    refine ⟨{ g with lp := g.lp.deleteColumns mk, modified := true },
      by simp [Modification.call, deleteColumns, h3], ?_⟩
    rw [h.numCols] at h5
    exact refines_removeColumns h mk _ h5
  | deleteRows f l =>
    obtain ⟨h0, h1, h2⟩ := hv
    obtain ⟨mk, h3, h4, h5⟩ := markRange_ok g.lp.rows.length f l h0 h1 (by rw [h.numRows]; exact h2)
    obtain ⟨g', h6, h7, -⟩ := deleteRowsAndUpdate_ok g mk (by omega)
    refine ⟨g', by simp [Modification.call, deleteRows, h3, h6], ?_⟩
    rw [h7]
    rw [h.numRows] at h5
    exact refines_removeRows h mk _ h5
  | deleteRowSet mask =>
    have hv : mask.length = s.numRows := hv
    obtain ⟨g', h6, h7, -⟩ := deleteRowsAndUpdate_ok g mask (by rw [h.numRows]; omega)
    have hlt : ¬ mask.length < g.lp.rows.length := by rw [h.numRows]; omega
    refine ⟨g', by simp [Modification.call, deleteRowSet, hlt, h6], ?_⟩
    rw [h7]
    refine refines_removeRows h mask _ fun i hi => ?_
    rw [List.getD_eq_getElem?_getD]
    cases hmi : mask[i]? with
    | none => rfl
    | some b => cases b <;> rfl
  | setColumnBounds c lo up =>
    obtain ⟨h0, h1⟩ := hv
    refine ⟨_, by rw [Modification.call, setColumnBounds, if_pos ⟨h0, by rw [h.numCols]; exact h1⟩], ?_⟩
    refine ⟨h.numRows, by simpa [Modification.effect] using h.numCols, h.sense, ?_, h.rows⟩
    intro k col hk
    rw [List.getElem?_modify, Option.map_eq_map, Option.map_eq_some_iff] at hk
    obtain ⟨old, hold, rfl⟩ := hk
    have ho := h.cols k old hold
    by_cases hkc : c.toNat = k
    · subst hkc
      simp only [if_true]
      exact ⟨by simp [Modification.effect], by simp [Modification.effect], ho.objective, ho.clean,
        ho.range, ho.coef⟩
    · simp only [hkc, if_false]
      exact ⟨by simp [Modification.effect, Ne.symm hkc]; exact ho.lower,
        by simp [Modification.effect, Ne.symm hkc]; exact ho.upper, ho.objective, ho.clean,
        ho.range, ho.coef⟩
  | setRowSides r lo up =>
    obtain ⟨h0, h1⟩ := hv
    refine ⟨_, by rw [Modification.call, setRowSides, if_pos ⟨h0, by rw [h.numRows]; exact h1⟩], ?_⟩
    refine ⟨by simpa [Modification.effect] using h.numRows, h.numCols, h.sense, ?_, ?_⟩
    · intro k col hk
      have ho := h.cols k col hk
      exact ⟨ho.lower, ho.upper, ho.objective, ho.clean, ho.range, ho.coef⟩
    · intro k row hk
      rw [List.getElem?_modify, Option.map_eq_map, Option.map_eq_some_iff] at hk
      obtain ⟨old, hold, rfl⟩ := hk
      have ho := h.rows k old hold
      by_cases hkc : r.toNat = k
      · subst hkc; simp [Modification.effect]
      · simpa [hkc, Modification.effect, Ne.symm hkc] using ho
  | setObjectiveSense b =>
    exact ⟨_, rfl, h.numRows, h.numCols, rfl, fun k col hk =>
      let ho := h.cols k col hk
      ⟨ho.lower, ho.upper, ho.objective, ho.clean, ho.range, ho.coef⟩, h.rows⟩
  | setObjectiveCoefficient c x =>
    obtain ⟨h0, h1⟩ := hv
    refine ⟨_, by rw [Modification.call, setObjectiveCoefficient, if_pos ⟨h0, by rw [h.numCols]; exact h1⟩], ?_⟩
    refine ⟨h.numRows, by simpa [Modification.effect] using h.numCols, h.sense, ?_, h.rows⟩
    intro k col hk
    rw [List.getElem?_modify, Option.map_eq_map, Option.map_eq_some_iff] at hk
    obtain ⟨old, hold, rfl⟩ := hk
    have ho := h.cols k old hold
    by_cases hkc : c.toNat = k
    · subst hkc
      simp only [if_true]
      exact ⟨ho.lower, ho.upper, by simp [Modification.effect], ho.clean, ho.range, ho.coef⟩
    · simp only [hkc, if_false]
      exact ⟨ho.lower, ho.upper, by simp [Modification.effect, Ne.symm hkc]; exact ho.objective,
        ho.clean, ho.range, ho.coef⟩
  | clear => exact ⟨_, rfl, Refines.init⟩

theorem length_eq_card {l : List Entry} {n : Nat} (h : Clean l) (hn : ∀ e ∈ l, e.index < n) :
    l.length = ((Finset.range n).filter fun r : Nat => valueAt l (r : Int) ≠ 0).card := by
  have hnd : (l.map fun e => e.index.toNat).Nodup := by
    rw [List.Nodup, List.pairwise_map]
    refine List.Pairwise.imp_of_mem ?_ h.1
    intro a b ha hb hab
    have := (h.2 a ha).2
    omega
  rw [← List.length_map (f := fun e : Entry => e.index.toNat), ← List.toFinset_card_of_nodup hnd]
  congr 1
  ext r
  simp only [List.mem_toFinset, List.mem_map, Finset.mem_filter, Finset.mem_range]
  constructor
  · rintro ⟨e, he, rfl⟩
    have h1 := h.2 e he
    have h2 := hn e he
    refine ⟨by omega, ?_⟩
    have h3 : ((e.index.toNat : Nat) : Int) = e.index := by omega
    rw [h3, (mem_iff_valueAt h h1.1).mp (by cases e; exact he)]
    exact h1.1
  · rintro ⟨-, hr⟩
    exact ⟨_, (mem_iff_valueAt h hr).mpr rfl, by simp⟩

theorem shows_of_refines {g : Interface} {s : LpSpec} (h : Refines g.lp s) : Shows g s := by
  have hcol : ∀ c < s.numCols, ∃ col, g.lp.cols[c]? = some col ∧ ColumnOk s c col := by
    intro c hc
    have : c < g.lp.cols.length := by rw [h.numCols]; exact hc
    exact ⟨_, List.getElem?_eq_getElem this, h.cols _ _ (List.getElem?_eq_getElem this)⟩
  have hrow : ∀ r < s.numRows, ∃ row, g.lp.rows[r]? = some row ∧ row.lhs = s.lhs r ∧
      row.rhs = s.rhs r := by
    intro r hr
    have : r < g.lp.rows.length := by rw [h.numRows]; exact hr
    exact ⟨_, List.getElem?_eq_getElem this, h.rows _ _ (List.getElem?_eq_getElem this)⟩
  have hcc : ∀ c ∈ g.lp.cols, Clean c.entries := by
    intro c hc
    obtain ⟨i, hi⟩ := List.mem_iff_getElem?.mp hc
    exact (h.cols i c hi).clean
  refine ⟨by simp [getNumberOfRows, h.numRows], by simp [getNumberOfColumns, h.numCols], h.sense,
    ?_, ?_, ?_, ?_, ?_, ?_, ?_, ?_, ?_⟩
  · intro c hc
    obtain ⟨col, h1, h2⟩ := hcol c hc
    simp [getLowerBound, column, h1, h2.lower, show ¬ (c : Int) < 0 by omega]
  · intro c hc
    obtain ⟨col, h1, h2⟩ := hcol c hc
    simp [getUpperBound, column, h1, h2.upper, show ¬ (c : Int) < 0 by omega]
  · intro c hc
    obtain ⟨col, h1, h2⟩ := hcol c hc
    simp [getObjectiveCoefficient, column, h1, h2.objective, show ¬ (c : Int) < 0 by omega]
  · intro r hr
    obtain ⟨row, h1, h2, h3⟩ := hrow r hr
    simp [getLeftHandSide, Glop.row, h1, h2, show ¬ (r : Int) < 0 by omega]
  · intro r hr
    obtain ⟨row, h1, h2, h3⟩ := hrow r hr
    simp [getRightHandSide, Glop.row, h1, h3, show ¬ (r : Int) < 0 by omega]
  · intro r hr c hc
    obtain ⟨row, h1, -⟩ := hrow r hr
    obtain ⟨col, h2, h3⟩ := hcol c hc
    simp [getMatrixCoefficient, column, Glop.row, h1, h2, lookUp_eq_valueAt h3.clean,
      h3.coef r hr, show ¬ (r : Int) < 0 by omega, show ¬ (c : Int) < 0 by omega]
  · intro c hc
    obtain ⟨col, h1, h2⟩ := hcol c hc
    refine ⟨⟨col.entries, false⟩, ?_, rfl, ⟨h2.clean, h2.range⟩, fun r hr => h2.coef r hr⟩
    simp [getSparseColumnCoefficients, h1, copyToSparse_clean h2.clean]
  · intro r hr
    obtain ⟨h1, h2, h3⟩ := transposedRow_clean (r : Int) g.lp.cols 0 hcc
    refine ⟨⟨transposedRow r 0 g.lp.cols, false⟩, ?_, rfl, ⟨h1, ?_⟩, ?_⟩
    · have : ¬ ((r : Int) < 0 ∨ (g.lp.rows.length : Int) ≤ r) := by rw [h.numRows]; omega
      simp only [getSparseRowCoefficients, this, if_false, copyToSparse_clean h1]
    · intro e he
      have := (h2 e he).2
      rw [← h.numCols]; simpa using this
    · intro c hc
      obtain ⟨col, h4, h5⟩ := hcol c hc
      have := h3 c col h4
      simp only [Nat.zero_add] at this
      simp only [SparseVector.value]
      rw [this, h5.coef r hr]
  · simp only [getNumberOfNonZeros]
    congr 1
    rw [← h.numCols, Finset.sum_range, ← List.sum_ofFn]
    congr 1
    apply List.ext_getElem
    · simp
    · intro i h1 h2
      simp only [List.getElem_map, List.getElem_ofFn]
      simp at h1
      have ho := h.cols i _ (List.getElem?_eq_getElem h1)
      rw [length_eq_card ho.clean ho.range]
      congr 1
      apply Finset.filter_congr
      intro r hr
      rw [ho.coef r (Finset.mem_range.mp hr)]

theorem runHistory_refines {g : Interface} {s : LpSpec} (h : Refines g.lp s)
    (ms : List Modification) (hv : ValidHistory s ms) :
    ∃ g', runHistory g ms = .ok g' ∧ Refines g'.lp (ms.foldl Modification.effect s) := by
  induction ms generalizing g s with
  | nil => exact ⟨g, rfl, h⟩
  | cons m r ih =>
    obtain ⟨g1, h1, h2⟩ := refines_step h hv.1
    obtain ⟨g2, h3, h4⟩ := ih h2 hv.2
    exact ⟨g2, by simp [runHistory, h1, h3], h4⟩

/-- **C44.**  After every history of valid modifications of a new interface, the getters return
exactly the LP the history describes. -/
theorem C44_faithful_store (ms : List Modification) (hv : ValidHistory LpSpec.empty ms) :
    ∃ g, runHistory {} ms = .ok g ∧ Shows g (ms.foldl Modification.effect LpSpec.empty) := by
  obtain ⟨g, h1, h2⟩ := runHistory_refines (g := {}) Refines.init ms hv
  exact ⟨g, h1, shows_of_refines h2⟩


/-- A history that meets the hypothesis: rows first, columns, a row over existing columns, new
bounds, a deletion. -/
example : ValidHistory LpSpec.empty
    [.addRow ⟨⟨[], false⟩, .fin 0, .pinf, "a"⟩,
     .addRow ⟨⟨[], false⟩, .ninf, .fin 4, "b"⟩,
     .addColumns [⟨⟨[⟨0, 1⟩, ⟨1, 2⟩], false⟩, .fin 0, .fin 3, 1, "x"⟩,
       ⟨⟨[⟨1, -1⟩], false⟩, .fin 0, .pinf, 2, "y"⟩],
     .addRow ⟨⟨[⟨0, 5⟩, ⟨1, 7⟩], false⟩, .fin 1, .fin 1, "c"⟩,
     .setColumnBounds 1 (.fin 2) (.fin 9),
     .deleteRowSet [true, false, false],
     .deleteColumns 0 0] := by
  simp [ValidHistory, Modification.Valid, Modification.effect, LpSpec.empty, LpSpec.addRow,
    LpSpec.addColumn, LpSpec.removeRows, FitsIn, Clean]

/-! ### C45 -/

/-- Every stored column is clean and within the rows.  Every history of valid modifications keeps
this (`lpOk_of_history`). -/
def LpOk (lp : LinearProgram) : Prop :=
  ∀ col ∈ lp.cols, Clean col.entries ∧ ∀ e ∈ col.entries, e.index < lp.rows.length

theorem lpOk_of_history {ms : List Modification} (hv : ValidHistory LpSpec.empty ms)
    {g : Interface} (hg : runHistory {} ms = .ok g) : LpOk g.lp := by
  obtain ⟨g', h1, h2⟩ := runHistory_refines (g := {}) Refines.init ms hv
  rw [hg] at h1
  have := Outcome.ok.inj h1
  subst this
  intro col hc
  obtain ⟨i, hi⟩ := List.mem_iff_getElem?.mp hc
  have ho := h2.cols i col hi
  exact ⟨ho.clean, by rw [h2.numRows]; exact ho.range⟩

/-- The LP a well-formed program stores. -/
def specOf (lp : LinearProgram) : LpSpec where
  numRows := lp.rows.length
  numCols := lp.cols.length
  maximize := lp.maximize
  lower c := (lp.cols[c]?.map Column.lower).getD .nan
  upper c := (lp.cols[c]?.map Column.upper).getD .nan
  objective c := (lp.cols[c]?.map Column.objective).getD 0
  lhs r := (lp.rows[r]?.map Row.lhs).getD .nan
  rhs r := (lp.rows[r]?.map Row.rhs).getD .nan
  coef r c := (lp.cols[c]?.map fun col => valueAt col.entries r).getD 0

theorem refines_specOf {lp : LinearProgram} (h : LpOk lp) : Refines lp (specOf lp) := by
  refine ⟨rfl, rfl, rfl, ?_, ?_⟩
  · intro c col hc
    obtain ⟨h1, h2⟩ := h col (List.mem_of_getElem? hc)
    exact ⟨by simp [specOf, hc], by simp [specOf, hc], by simp [specOf, hc], h1, h2,
      by simp [specOf, hc]⟩
  · intro r row hr
    simp [specOf, hr]

theorem rowMapping_getElem? (mask : List Bool) (next : Int) (i : Nat) :
    (rowMapping mask next)[i]? = mask[i]?.map fun b =>
      if b then -1 else next + (keptPositions i fun i => mask.getD i false).length := by
  induction mask generalizing next i with
  | nil => simp [rowMapping]
  | cons b r ih =>
    rw [rowMapping]
    cases i with
    | zero => cases b <;> simp [keptPositions]
    | succ i =>
      rw [keptPositions_cons]
      have : (fun i => (b :: r).getD (i + 1) false) = fun i => r.getD i false := by
        funext i; simp [List.getD_eq_getElem?_getD]
      rw [this]
      cases b
      · simp only [Bool.false_eq_true, if_false, List.getElem?_cons_succ, ih]
        congr 1
        funext b
        cases b
        · simp; omega
        · simp
      · simp only [if_true, List.getElem?_cons_succ, ih]
        congr 1
        funext b
        cases b <;> simp

theorem count_false_eq (mask : List Bool) :
    mask.count false = (keptPositions mask.length fun i => mask.getD i false).length := by
  have h1 := length_keptPositions_add_count mask.length mask
  have h2 : mask.count false + mask.count true = mask.length := by
    induction mask with
    | nil => rfl
    | cons b r ih => 
      have := ih (by simpa using length_keptPositions_add_count r.length r)
      cases b <;> simp
      all_goals omega
  rw [List.take_length] at h1
  omega

/-- **C45** (Glop).  `DeleteRowSet` succeeds, deletes as many rows as are marked, keeps the columns,
and returns a mapping with -1 for every marked row; the mapping sends every other row to a row with
the same sides and coefficients, in the same order. -/
theorem C45_row_mapping (g : Interface) (hg : LpOk g.lp) (mask : List Bool)
    (hm : (mask.length : Int) = getNumberOfRows g) :
    ∃ g' mapping, deleteRowSet g mask = .ok (g', mapping) ∧
      mapping.length = mask.length ∧
      getNumberOfRows g' = mask.count false ∧
      getNumberOfColumns g' = getNumberOfColumns g ∧
      isMaximization g' = isMaximization g ∧
      (∀ c : Nat, (c : Int) < getNumberOfColumns g →
        getLowerBound g' c = getLowerBound g c ∧ getUpperBound g' c = getUpperBound g c ∧
        getObjectiveCoefficient g' c = getObjectiveCoefficient g c) ∧
      (∀ i : Nat, mask[i]? = some true → mapping[i]? = some (-1)) ∧
      (∀ i : Nat, mask[i]? = some false → ∃ j : Nat, mapping[i]? = some (j : Int) ∧
        (j : Int) < getNumberOfRows g' ∧
        getLeftHandSide g' j = getLeftHandSide g i ∧
        getRightHandSide g' j = getRightHandSide g i ∧
        ∀ c : Nat, (c : Int) < getNumberOfColumns g →
          getMatrixCoefficient g' c j = getMatrixCoefficient g c i) ∧
      (∀ i i' : Nat, i < i' → mask[i]? = some false → mask[i']? = some false →
        ∀ j j' : Int, mapping[i]? = some j → mapping[i']? = some j' → j < j') := by
  have hm : mask.length = g.lp.rows.length := by simpa [getNumberOfRows] using hm
  have hr := refines_specOf hg
  obtain ⟨g', h6, h7, -⟩ := deleteRowsAndUpdate_ok g mask (by omega)
  have hlt : ¬ mask.length < g.lp.rows.length := by omega
  have hr' : Refines g'.lp ((specOf g.lp).removeRows fun i => mask.getD i false) := by
    rw [h7]; exact refines_removeRows hr mask _ fun _ _ => rfl
  have hs := shows_of_refines hr
  have hs' := shows_of_refines hr'
  have hmap : rowMapping (mask.take g.lp.rows.length) 0 ++
      List.replicate (mask.length - g.lp.rows.length) 0 = rowMapping mask 0 := by
    rw [← hm, List.take_length]; simp
  have hlen : ∀ (mask : List Bool) (n : Int), (rowMapping mask n).length = mask.length := by
    intro mask
    induction mask with
    | nil => intro n; rfl
    | cons b r ih => intro n; cases b <;> simp [rowMapping, ih]
  have hks : ∀ i : Nat, mask[i]? = some false →
      (keptPositions g.lp.rows.length fun i => mask.getD i false)[
        (keptPositions i fun i => mask.getD i false).length]? = some i := by
    intro i hi
    refine keptPositions_split _ _ _ ?_ ?_
    · rw [← hm]; exact (List.getElem?_eq_some_iff.mp hi).1
    · rw [List.getD_eq_getElem?_getD, hi]; rfl
  refine ⟨g', rowMapping mask 0, ?_, hlen _ _, ?_, ?_, ?_, ?_, ?_, ?_, ?_⟩
  · simp only [deleteRowSet, hlt, if_false, h6, Outcome.bind_ok, Outcome.pure_eq, hmap]
  · rw [hs'.numRows, count_false_eq, hm]; rfl
  · rw [hs'.numCols, hs.numCols]; rfl
  · rw [hs'.sense, hs.sense]; rfl
  · intro c hc
    rw [hs.numCols] at hc
    have hc : c < (specOf g.lp).numCols := by omega
    rw [hs'.lower c hc, hs.lower c hc, hs'.upper c hc, hs.upper c hc, hs'.objective c hc,
      hs.objective c hc]
    exact ⟨rfl, rfl, rfl⟩
  · intro i hi
    rw [rowMapping_getElem?, hi]; rfl
  · intro i hi
    have hk := hks i hi
    obtain ⟨hj, -⟩ := List.getElem?_eq_some_iff.mp hk
    have hi' : i < (specOf g.lp).numRows := by
      have := (List.getElem?_eq_some_iff.mp hi).1
      simp only [specOf]; omega
    have hj' : (keptPositions i fun i => mask.getD i false).length <
      ((specOf g.lp).removeRows fun i => mask.getD i false).numRows := hj
    have hg : (keptPositions g.lp.rows.length fun i => mask.getD i false).getD
        (keptPositions i fun i => mask.getD i false).length 0 = i := by
      rw [List.getD_eq_getElem?_getD, hk]; rfl
    refine ⟨(keptPositions i fun i => mask.getD i false).length, ?_, ?_, ?_, ?_, ?_⟩
    · rw [rowMapping_getElem?, hi]; simp
    · rw [hs'.numRows]; exact_mod_cast hj'
    · rw [hs'.lhs _ hj', hs.lhs _ hi']
      simp only [LpSpec.removeRows]
      exact congrArg _ (congrArg _ hg)
    · rw [hs'.rhs _ hj', hs.rhs _ hi']
      simp only [LpSpec.removeRows]
      exact congrArg _ (congrArg _ hg)
    · intro c hc
      rw [hs.numCols] at hc
      have hc : c < (specOf g.lp).numCols := by omega
      rw [hs'.coef _ hj' c hc, hs.coef _ hi' c hc]
      simp only [LpSpec.removeRows]
      exact congrArg (fun x => Outcome.ok ((specOf g.lp).coef x c)) hg
  · intro i i' hii hi hi' j j' hj hj'
    rw [rowMapping_getElem?, hi] at hj
    rw [rowMapping_getElem?, hi'] at hj'
    simp at hj hj'
    have := (keptPositions_inj (hks i hi) (hks i' hi')).mpr hii
    simp only [List.getD_eq_getElem?_getD] at this
    omega

/-! ### C46 -/

/-- The stored basis has one status per column, then one per row: the state `GetState` returns
right after a solve of the current LP, or after `SetBasisStatusForColumnsAndRows`. -/
def BasisFits (g : Interface) : Prop :=
  g.statuses.length = g.lp.cols.length + g.lp.rows.length

/-- The status of a column, of a row in the stored basis. -/
def columnStatus (g : Interface) (c : Nat) : Option VarStatus := g.statuses[c]?
def rowStatus (g : Interface) (r : Nat) : Option VarStatus := g.statuses[g.lp.cols.length + r]?

/-- **C46**, partial: what is missing is the case of a basis that does not fit the LP
(`C46_stale_basis_violated`).  If the stored basis fits the LP, it still fits after
`DeleteRowSet`, every column keeps its status, and every kept row has its status at its new
position. -/
theorem C46_delete_row_set_keeps_basis_partial (g : Interface) (mask : List Bool)
    (hm : (mask.length : Int) = getNumberOfRows g) (hb : BasisFits g) :
    ∃ g' mapping, deleteRowSet g mask = .ok (g', mapping) ∧ BasisFits g' ∧
      (∀ c : Nat, (c : Int) < getNumberOfColumns g → columnStatus g' c = columnStatus g c) ∧
      ∀ i j : Nat, mask[i]? = some false → mapping[i]? = some (j : Int) →
        rowStatus g' j = rowStatus g i := by
  have hm : mask.length = g.lp.rows.length := by simpa [getNumberOfRows] using hm
  obtain ⟨g', h1, h2, -, h3⟩ := deleteRowsAndUpdate_ok g mask (by omega)
  obtain ⟨h4, h5, h6⟩ := h3 hb
  have hlt : ¬ mask.length < g.lp.rows.length := by omega
  have hmap : rowMapping (mask.take g.lp.rows.length) 0 ++
      List.replicate (mask.length - g.lp.rows.length) 0 = rowMapping mask 0 := by
    rw [← hm, List.take_length]; simp
  refine ⟨g', rowMapping mask 0, ?_, ?_, ?_, ?_⟩
  · simp only [deleteRowSet, hlt, if_false, h1, Outcome.bind_ok, Outcome.pure_eq, hmap]
  · rw [BasisFits, h4, h2]
    simp [LinearProgram.deleteRows, length_keepUnmarked]
  · intro c hc
    exact h5 c (by simpa [getNumberOfColumns] using hc)
  · intro i j hi hj
    rw [rowMapping_getElem?, hi] at hj
    simp at hj
    have hk := keptPositions_split g.lp.rows.length i (fun i => mask.getD i false)
      (by rw [← hm]; exact (List.getElem?_eq_some_iff.mp hi).1)
      (by rw [List.getD_eq_getElem?_getD, hi]; rfl)
    have hj : (keptPositions i fun i => mask.getD i false).length = j := by
      simpa [List.getD_eq_getElem?_getD] using hj
    rw [hj] at hk
    have := h6 j i hk
    rw [rowStatus, rowStatus, h2]
    simpa [LinearProgram.deleteRows] using this

/-- **C46** for `DeleteRows`, partial as above: rows before the range keep their position, rows after
it move down by its length. -/
theorem C46_delete_rows_keeps_basis_partial (g : Interface) (first last : Int) (h0 : 0 ≤ first)
    (h1 : first ≤ last) (h2 : last < getNumberOfRows g) (hb : BasisFits g) :
    ∃ g', deleteRows g first last = .ok g' ∧ BasisFits g' ∧
      (∀ c : Nat, (c : Int) < getNumberOfColumns g → columnStatus g' c = columnStatus g c) ∧
      (∀ i : Nat, (i : Int) < first → rowStatus g' i = rowStatus g i) ∧
      ∀ i : Nat, last < i → (i : Int) < getNumberOfRows g →
        rowStatus g' (i - (last - first + 1).toNat) = rowStatus g i := by
  have h2 : last < g.lp.rows.length := h2
  obtain ⟨mk, h3, h4, h5⟩ := markRange_ok g.lp.rows.length first last h0 h1 h2
  obtain ⟨g', h6, h7, -, h8⟩ := deleteRowsAndUpdate_ok g mk (by omega)
  obtain ⟨h9, h10, h11⟩ := h8 hb
  have hd : ∀ n ≤ g.lp.rows.length, keptPositions n (fun i => mk.getD i false) =
      keptPositions n fun i => decide (first ≤ (i : Int) ∧ (i : Int) ≤ last) :=
    fun n hn => keptPositions_congr fun i hi => h5 i (by omega)
  have hcount : ∀ n : Nat, (keptPositions n fun i => decide (first ≤ (i : Int) ∧ (i : Int) ≤ last)).length =
      if (n : Int) ≤ first then n else if (n : Int) ≤ last then first.toNat
        else n - (last - first + 1).toNat := by
    intro n
    induction n with
    | zero => simp [keptPositions, h0]
    | succ n ih =>
      rw [keptPositions_succ, List.length_append, ih]
      by_cases hn : first ≤ (n : Int) ∧ (n : Int) ≤ last
      · simp only [hn]; simp; split_ifs <;> omega
      · simp only [hn]; simp; split_ifs <;> omega
  have hpos : ∀ i : Nat, i < g.lp.rows.length → ¬ (first ≤ (i : Int) ∧ (i : Int) ≤ last) →
      (keptPositions g.lp.rows.length fun i => mk.getD i false)[
        (if (i : Int) ≤ first then i else if (i : Int) ≤ last then first.toNat
        else i - (last - first + 1).toNat)]? = some i := by
    intro i hi hni
    rw [← hcount i, ← hd i (by omega)]
    exact keptPositions_split _ _ _ hi (by rw [h5 i hi]; simpa using hni)
  have hcols : g'.lp.cols.length = g.lp.cols.length := by
    rw [h7]; simp [LinearProgram.deleteRows]
  refine ⟨g', by simp [deleteRows, h3, h6], ?_, ?_, ?_, ?_⟩
  · rw [BasisFits, h9, h7]
    simp [LinearProgram.deleteRows, length_keepUnmarked]
  · intro c hc
    exact h10 c (by simpa [getNumberOfColumns] using hc)
  · intro i hi
    have := h11 _ _ (hpos i (by omega) (by omega))
    rw [if_pos (by omega)] at this
    rw [rowStatus, rowStatus, hcols]; exact this
  · intro i hi hi'
    have := h11 _ _ (hpos i (by simpa [getNumberOfRows] using hi') (by omega))
    rw [if_neg (by omega), if_neg (by omega)] at this
    rw [rowStatus, rowStatus, hcols]; exact this

/-- A stored basis with one column and three rows, as used in the next theorem and as an instance
of the hypotheses. -/
def exampleInterface : Interface :=
  { lp := { cols := [⟨.fin 0, .fin 1, 1, "x", [⟨0, 1⟩, ⟨2, 3⟩]⟩]
            rows := [⟨.fin 0, .fin 1, "a"⟩, ⟨.fin 0, .fin 2, "b"⟩, ⟨.fin 0, .fin 3, "c"⟩] }
    statuses := [.atLower, .basic, .atUpper, .basic] }

example : LpOk exampleInterface.lp := by
  simp [LpOk, exampleInterface, Clean]

example : BasisFits exampleInterface := by unfold BasisFits; decide

example : ∃ g', deleteRowSet exampleInterface [true, false, false] = .ok (g', [-1, 0, 1]) ∧
    g'.statuses = [.atLower, .atUpper, .basic] := ⟨_, rfl, rfl⟩

/-- The solved LP of the counterexample: two rows, row 0 basic, row 1 at its upper bound. -/
def staleInterface : Interface :=
  { lp := { cols := [⟨.fin 0, .fin 1, 1, "x", []⟩]
            rows := [⟨.fin 0, .fin 1, "a"⟩, ⟨.fin 0, .fin 2, "b"⟩] }
    statuses := [.atLower, .basic, .atUpper]
    modified := false }

/-- **C46** is violated when the LP was extended after the last solve: the sizes differ, so the
statuses are not compacted, but after the deletion the sizes agree again and every row gets the
status of another row.  Here row `b` is at its upper bound before and basic after `AddRow`,
`DeleteRows(0, 0)`. -/
theorem C46_stale_basis_violated :
    ∃ g1 g2, addRow staleInterface ⟨[], false⟩ (.fin 0) (.fin 3) "c" = .ok g1 ∧
      deleteRows g1 0 0 = .ok g2 ∧
      (g1.lp.rows[1]?.map Row.name = some "b" ∧ rowStatus g1 1 = some .atUpper) ∧
      (g2.lp.rows[0]?.map Row.name = some "b" ∧ rowStatus g2 0 = some .basic) ∧
      BasisFits staleInterface ∧ BasisFits g2 := by
  refine ⟨_, _, rfl, rfl, ?_, ?_, ?_, ?_⟩
  · decide +kernel
  · decide +kernel
  · unfold BasisFits; decide +kernel
  · unfold BasisFits; decide +kernel

end Glop
end MiniMip
