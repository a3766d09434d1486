import Verif.Model.SoplexLpi
import Verif.Props.GlopStore

/-!
# Properties C44 and C45 for the SoPlex interface

The specification is the dense LP of `Verif.Props.GlopStore`.
-/

namespace MiniMip
namespace Soplex

open Glop (LinearProgram Column Row NewColumn NewRow LpSpec Modification FitsIn Refines ColumnOk
  keptPositions)
open SparseVector

/-! ### Specification -/

/-- The call on the interface. -/
def call (g : Interface) : Modification → Outcome Interface
  | .addColumn c => addColumn g c
  | .addColumns cs => addColumns g cs
  | .addRow r => addRow g r
  | .addRows rs => addRows g rs
  | .deleteColumns f l => deleteColumns g f l
  | .deleteRows f l => deleteRows g f l
  | .deleteRowSet mask => do return (← deleteRowSet g mask).1
  | .setColumnBounds c lo up => setColumnBounds g c lo up
  | .setRowSides r lo up => setRowSides g r lo up
  | .setObjectiveSense b => setObjectiveSense g b
  | .setObjectiveCoefficient c x => setObjectiveCoefficient g c x
  | .clear => clear g

/-- The calls, one after the other. -/
def runHistory : Interface → List Modification → Outcome Interface
  | g, [] => .ok g
  | g, m :: r => do runHistory (← call g m) r

/-- The expected effect, except that `Clear` keeps the objective sense. -/
def effect (s : LpSpec) : Modification → LpSpec
  | .clear => { LpSpec.empty with maximize := s.maximize }
  | m => m.effect s

/-- Every modification of the history is valid when it is made. -/
def ValidHistory : LpSpec → List Modification → Prop
  | _, [] => True
  | s, m :: r => m.Valid s ∧ ValidHistory (effect s m) r

/-- The getters return exactly the LP `s`; a row may have to be cleaned before it is used. -/
structure Shows (order : List Entry → List Entry) (g : Interface) (s : LpSpec) : Prop where
  numRows : getNumberOfRows g = s.numRows
  numCols : getNumberOfColumns g = s.numCols
  sense : isMaximization g = s.maximize
  lower : ∀ c < s.numCols, getLowerBound g c = .ok (s.lower c)
  upper : ∀ c < s.numCols, getUpperBound g c = .ok (s.upper c)
  objective : ∀ c < s.numCols, getObjectiveCoefficient g c = .ok (s.objective c)
  lhs : ∀ r < s.numRows, getLeftHandSide g r = .ok (s.lhs r)
  rhs : ∀ r < s.numRows, getRightHandSide g r = .ok (s.rhs r)
  coef : ∀ r < s.numRows, ∀ c < s.numCols, getMatrixCoefficient g c r = .ok (s.coef r c)
  sparseCol : ∀ c < s.numCols, ∃ v, getSparseColumnCoefficients order g c = .ok v ∧
    v.mayNeedCleaning = false ∧ FitsIn v s.numRows ∧ ∀ r < s.numRows, v.value r = s.coef r c
  sparseRow : ∀ r < s.numRows, ∃ v, getSparseRowCoefficients order g r = .ok v ∧
    FitsIn v.cleanUpIfNeeded s.numCols ∧
    ∀ c < s.numCols, v.cleanUpIfNeeded.value c = s.coef r c
  nonZeros : getNumberOfNonZeros g =
    ((Finset.range s.numCols).sum fun c =>
      ((Finset.range s.numRows).filter fun r => s.coef r c ≠ 0).card : Nat)

/-! ### Copying entries in any order -/

theorem copyEntries_spec (v : SparseVector) (hv : Inv v) (l : List Entry)
    (hl : ∀ e ∈ l, 0 ≤ e.index) :
    Inv (Glop.copyEntries v l) ∧
      lastFrom (fun _ => 0) (Glop.copyEntries v l).entries =
        lastFrom (lastFrom (fun _ => 0) v.entries) l := by
  induction l generalizing v with
  | nil => exact ⟨hv, rfl⟩
  | cons e r ih =>
    have he := hl e (by simp)
    obtain ⟨h1, h2⟩ := ih (v.addEntry e.index e.value) (hv.addEntry he _)
      (fun f hf => hl f (by simp [hf]))
    exact ⟨h1, by rw [Glop.copyEntries, h2, lastFrom_addEntry hv he, lastFrom_cons]⟩

/-- For pairwise different indices the last write is the only one. -/
theorem lastFrom_eq_sumAt (l : List Entry) (h : l.Pairwise fun a b => a.index ≠ b.index) (i : Int) :
    lastFrom (fun _ => 0) l i = sumAt l i := by
  suffices H : ∀ f : Int → ℚ, (∀ e ∈ l, f e.index = 0) → lastFrom f l i = f i + sumAt l i by
    simpa using H (fun _ => 0) (by simp)
  induction l with
  | nil => intro f _; simp [sumAt]
  | cons e r ih =>
    intro f hf
    rw [List.pairwise_cons] at h
    rw [lastFrom_cons, ih h.2, sumAt]
    · by_cases hi : e.index = i
      · subst hi
        rw [Function.update_self, hf e (by simp)]; simp
      · rw [Function.update_of_ne (Ne.symm hi), if_neg hi]; simp
    · intro x hx
      rw [Function.update_of_ne (Ne.symm (h.1 x hx))]
      exact hf x (by simp [hx])

theorem copyToSparse_perm {l l' : List Entry} (hl : Clean l) (hp : l'.Perm l) :
    Clean (copyToSparse l').cleanUpIfNeeded.entries ∧
    (copyToSparse l').cleanUpIfNeeded.dirty = false ∧
    ∀ i, (copyToSparse l').cleanUpIfNeeded.value i = valueAt l i := by
  have hmem : ∀ e ∈ l', 0 ≤ e.index := fun e he => (hl.2 e (hp.mem_iff.mp he)).2
  obtain ⟨h1, h2⟩ := copyEntries_spec {} Inv.init l' hmem
  obtain ⟨h3, h4⟩ := cleanUp_clean h1
  refine ⟨h3, h4, fun i => ?_⟩
  have hne : l'.Pairwise fun a b => a.index ≠ b.index := by
    rw [hp.pairwise_iff (fun h => Ne.symm h)]
    exact hl.1.imp fun h => by omega
  unfold copyToSparse
  rw [SparseVector.value, valueAt_eq_lastFrom h3.1, lastFrom_cleanUp, h2, lastFrom_nil, lastFrom_eq_sumAt _ hne, sumAt_perm hp,
    valueAt_eq_sumAt hl.1]

/-- The clean-up of a permuted clean list has the same entries. -/
theorem copyToSparse_fits {l l' : List Entry} {n : Nat} (hl : Clean l) (hp : l'.Perm l)
    (hn : ∀ e ∈ l, e.index < n) : FitsIn (copyToSparse l').cleanUpIfNeeded n := by
  obtain ⟨h1, -, h3⟩ := copyToSparse_perm hl hp
  refine ⟨h1, fun e he => ?_⟩
  have h4 := (h1.2 e he).1
  have h5 : valueAt (copyToSparse l').cleanUpIfNeeded.entries e.index = e.value :=
    (Glop.mem_iff_valueAt h1 h4).mp (by cases e; exact he)
  have h6 := h3 e.index
  rw [SparseVector.value, h5] at h6
  have := (Glop.mem_iff_valueAt hl h4).mpr h6.symm
  exact hn _ this

/-! ### Refinement -/

/-- The glop interface with the same LP, to reuse its lemmas. -/
def twin (lp : LinearProgram) : Glop.Interface := { lp := lp }

theorem refines_addColReal {lp : LinearProgram} {s : LpSpec} (h : Refines lp s) {c : NewColumn}
    (hc : FitsIn c.col s.numRows) : Refines (addColReal lp c) (s.addColumn c) :=
  Glop.refines_addColumn (g := twin lp) h hc

theorem refines_addColsReal {lp : LinearProgram} {s : LpSpec} (h : Refines lp s)
    {cs : List NewColumn} (hc : ∀ c ∈ cs, FitsIn c.col s.numRows) :
    Refines (addColsReal lp (cs.map fun c => { c with name := "" }))
      (cs.foldl LpSpec.addColumn s) := by
  induction cs generalizing lp s with
  | nil => exact h
  | cons c r ih =>
    rw [List.map_cons, addColsReal, List.foldl_cons]
    exact ih (s := s.addColumn c) (refines_addColReal (c := { c with name := "" }) h (hc c (by simp)))
      (fun d hd => hc d (by simp [hd]))

theorem refines_addRowReal {lp : LinearProgram} {s : LpSpec} (h : Refines lp s) {r : NewRow}
    (hr : FitsIn r.row s.numCols) :
    ∃ lp', addRowReal lp r = .ok lp' ∧ Refines lp' (s.addRow r) := by
  obtain ⟨g, h1, h2⟩ := Glop.refines_addRow (g := twin lp) h hr
  obtain ⟨lp', h3, h4⟩ := Outcome.bind_eq_ok.mp h1
  have h4 := Outcome.ok.inj h4
  subst h4
  exact ⟨lp', h3, h2⟩

theorem refines_addRowsReal {lp : LinearProgram} {s : LpSpec} (h : Refines lp s) {rs : List NewRow}
    (hr : ∀ r ∈ rs, FitsIn r.row s.numCols) :
    ∃ lp', addRowsReal lp (rs.map fun r => { r with name := "" }) = .ok lp' ∧
      Refines lp' (rs.foldl LpSpec.addRow s) := by
  induction rs generalizing lp s with
  | nil => exact ⟨lp, rfl, h⟩
  | cons r rs ih =>
    obtain ⟨lp1, h1, h2⟩ := refines_addRowReal (r := { r with name := "" }) h (hr r (by simp))
    obtain ⟨lp2, h3, h4⟩ := ih (s := s.addRow r) h2 (fun d hd => hr d (by simp [hd]))
    exact ⟨lp2, by simp [addRowsReal, h1, h3], h4⟩

theorem rangeMask_getD (n : Nat) (f l : Int) (i : Nat) (hi : i < n) :
    (rangeMask n f l).getD i false = decide (f ≤ (i : Int) ∧ (i : Int) ≤ l) := by
  simp [rangeMask, List.getD_eq_getElem?_getD, List.getElem?_map, List.getElem?_range hi]

/-- What `DeleteRowSet` passes to SoPlex marks the same rows, and the mapping is the one of the
specification. -/
theorem deleteRowSet_eq (g : Interface) (hf : freed g = true) (mask : List Bool)
    (hm : mask.length = g.lp.rows.length) :
    deleteRowSet g mask = .ok ({ g with isSolved := false, lp := g.lp.deleteRows mask },
      Glop.rowMapping mask 0) := by
  have hperm : deletionStatus mask g.lp.rows.length =
      .ok (mask.map fun b => if b then (-1 : Int) else 0) := by
    unfold deletionStatus
    rw [if_neg (by omega)]
    have h1 : (mask.map fun b => if b then (1 : Int) else 0).take g.lp.rows.length =
        mask.map fun b => if b then (1 : Int) else 0 := List.take_of_length_le (by simp [hm])
    have h2 : (mask.map fun b => if b then (1 : Int) else 0).drop g.lp.rows.length = [] :=
      List.drop_of_length_le (by simp [hm])
    dsimp only
    rw [h1, h2, List.append_nil, List.map_map]
    congr 1
    apply List.map_congr_left
    intro b _
    cases b <;> rfl
  have hmask : ((mask.map fun b => if b then (-1 : Int) else 0).map fun p => decide (p < 0)) =
      mask := by
    rw [List.map_map]
    conv_rhs => rw [← List.map_id mask]
    apply List.map_congr_left
    intro b _
    cases b <;> rfl
  have hmap : ∀ (mask : List Bool) (n : Int),
      List.zipWith (fun b p => if b then -1 else p) mask
        (renumberKept (mask.map fun b => if b then (-1 : Int) else 0) n) =
      Glop.rowMapping mask n := by
    intro mask
    induction mask with
    | nil => intro n; rfl
    | cons b r ih => intro n; cases b <;> simp [renumberKept, Glop.rowMapping, ih]
  have htake : (mask.map fun b => if b then (-1 : Int) else 0).take g.lp.rows.length =
        mask.map fun b => if b then (-1 : Int) else 0 := List.take_of_length_le (by simp [hm])
  have hdrop : (mask.map fun b => if b then (-1 : Int) else 0).drop g.lp.rows.length = [] :=
    List.drop_of_length_le (by simp [hm])
  unfold deleteRowSet
  rw [hf, hperm]
  simp only [Outcome.check, if_true, Outcome.bind_ok, removeRowsReal]
  rw [if_neg (by simp [hm]), htake, hdrop, hmask]
  simp only [Outcome.bind_ok, Outcome.pure_eq, List.append_nil, hmap]

theorem refines_step {g : Interface} {s : LpSpec} (hf : freed g = true) (h : Refines g.lp s)
    {m : Modification} (hv : m.Valid s) :
    ∃ g', call g m = .ok g' ∧ freed g' = true ∧ Refines g'.lp (effect s m) := by
  cases m with
  | addColumn c =>
    refine ⟨_, by rw [call, addColumn, hf]; rfl, ?_, ?_⟩
    · exact hf
    · exact refines_addColReal (c := { c with name := "" }) h hv
  | addColumns cs =>
    refine ⟨_, by rw [call, addColumns, hf]; rfl, ?_, ?_⟩
    · exact hf
    · exact refines_addColsReal h hv
  | addRow r =>
    obtain ⟨lp', h1, h2⟩ := refines_addRowReal (r := { r with name := "" }) h hv
    refine ⟨_, by rw [call, addRow, h1]; rfl, ?_, ?_⟩
    · exact hf
    · exact h2
  | addRows rs =>
    obtain ⟨lp', h1, h2⟩ := refines_addRowsReal h hv
    refine ⟨_, by rw [call, addRows, hf, h1]; rfl, ?_, ?_⟩
    · exact hf
    · exact h2
  | deleteColumns f l =>
    obtain ⟨h0, h1, h2⟩ := hv
    rw [← h.numCols] at h2
    refine ⟨_, by rw [call, deleteColumns, hf, removeColRangeReal, if_pos ⟨h0, h1, h2⟩]; rfl, ?_, ?_⟩
    · exact hf
    exact Glop.refines_removeColumns h _ _ fun i hi =>
      rangeMask_getD _ _ _ _ (by rw [h.numCols]; exact hi)
  | deleteRows f l =>
    obtain ⟨h0, h1, h2⟩ := hv
    rw [← h.numRows] at h2
    refine ⟨_, by rw [call, deleteRows, hf, removeRowRangeReal, if_pos ⟨h0, h1, h2⟩]; rfl, ?_, ?_⟩
    · exact hf
    exact Glop.refines_removeRows h _ _ fun i hi =>
      rangeMask_getD _ _ _ _ (by rw [h.numRows]; exact hi)
  | deleteRowSet mask =>
    have hv : mask.length = s.numRows := hv
    rw [← h.numRows] at hv
    refine ⟨_, by rw [call, deleteRowSet_eq g hf mask hv]; rfl, ?_, ?_⟩
    · exact hf
    refine Glop.refines_removeRows h mask _ fun i hi => ?_
    rw [List.getD_eq_getElem?_getD]
    cases hmi : mask[i]? with
    | none => rfl
    | some b => cases b <;> rfl
  | setColumnBounds c lo up =>
    obtain ⟨h0, h1⟩ := hv
    obtain ⟨g', h2, h3⟩ := Glop.refines_step (g := twin g.lp) h (m := .setColumnBounds c lo up) ⟨h0, h1⟩
    rw [← h.numCols] at h1
    rw [Modification.call, Glop.setColumnBounds, if_pos ⟨h0, h1⟩] at h2
    have h2 := Outcome.ok.inj h2
    subst h2
    refine ⟨_, by rw [call, setColumnBounds, hf, decide_eq_true h0, decide_eq_true h1]; rfl, ?_, ?_⟩
    · exact hf
    · exact h3
  | setRowSides r lo up =>
    obtain ⟨h0, h1⟩ := hv
    obtain ⟨g', h2, h3⟩ := Glop.refines_step (g := twin g.lp) h (m := .setRowSides r lo up) ⟨h0, h1⟩
    rw [← h.numRows] at h1
    rw [Modification.call, Glop.setRowSides, if_pos ⟨h0, h1⟩] at h2
    have h2 := Outcome.ok.inj h2
    subst h2
    refine ⟨_, by rw [call, setRowSides, hf, if_pos ⟨h0, h1⟩]; rfl, ?_, ?_⟩
    · exact hf
    · exact h3
  | setObjectiveSense b =>
    obtain ⟨g', h2, h3⟩ := Glop.refines_step (g := twin g.lp) h (m := .setObjectiveSense b) trivial
    have h2 := Outcome.ok.inj h2
    subst h2
    refine ⟨_, by rw [call, setObjectiveSense, hf]; rfl, ?_, ?_⟩
    · exact hf
    · exact h3
  | setObjectiveCoefficient c x =>
    obtain ⟨h0, h1⟩ := hv
    obtain ⟨g', h2, h3⟩ := Glop.refines_step (g := twin g.lp) h
      (m := .setObjectiveCoefficient c x) ⟨h0, h1⟩
    rw [← h.numCols] at h1
    rw [Modification.call, Glop.setObjectiveCoefficient, if_pos ⟨h0, h1⟩] at h2
    have h2 := Outcome.ok.inj h2
    subst h2
    refine ⟨_, by rw [call, setObjectiveCoefficient, hf, if_pos ⟨h0, h1⟩]; rfl, ?_, ?_⟩
    · exact hf
    · exact h3
  | clear =>
    refine ⟨_, by rw [call, clear, hf]; rfl, ?_, ?_⟩
    · exact hf
    · exact ⟨rfl, rfl, h.sense, by simp, by simp⟩

/-- Both interfaces show the same LP through the simple getters. -/
theorem shows_of_refines {order : List Entry → List Entry} (ho : ∀ l, (order l).Perm l)
    {g : Interface} {s : LpSpec} (h : Refines g.lp s) : Shows order g s := by
  have hs := Glop.shows_of_refines (g := twin g.lp) h
  have hcol : ∀ c < s.numCols, ∃ col, g.lp.cols[c]? = some col ∧ ColumnOk s c col := by
    intro c hc
    have : c < g.lp.cols.length := by rw [h.numCols]; exact hc
    exact ⟨_, List.getElem?_eq_getElem this, h.cols _ _ (List.getElem?_eq_getElem this)⟩
  have hrow : ∀ r < s.numRows, ∃ row, g.lp.rows[r]? = some row ∧ row.lhs = s.lhs r ∧
      row.rhs = s.rhs r := by
    intro r hr
    have : r < g.lp.rows.length := by rw [h.numRows]; exact hr
    exact ⟨_, List.getElem?_eq_getElem this, h.rows _ _ (List.getElem?_eq_getElem this)⟩
  have hcc : ∀ c ∈ g.lp.cols, Clean c.entries := by
    intro c hc
    obtain ⟨i, hi⟩ := List.mem_iff_getElem?.mp hc
    exact (h.cols i c hi).clean
  refine ⟨by simp [getNumberOfRows, h.numRows], by simp [getNumberOfColumns, h.numCols], h.sense,
    ?_, ?_, ?_, ?_, ?_, ?_, ?_, ?_, ?_⟩
  · intro c hc
    obtain ⟨col, h1, h2⟩ := hcol c hc
    simp [getLowerBound, column, h1, h2.lower, show ¬ (c : Int) < 0 by omega]
  · intro c hc
    obtain ⟨col, h1, h2⟩ := hcol c hc
    simp [getUpperBound, column, h1, h2.upper, show ¬ (c : Int) < 0 by omega]
  · intro c hc
    obtain ⟨col, h1, h2⟩ := hcol c hc
    simp [getObjectiveCoefficient, column, h1, h2.objective, show ¬ (c : Int) < 0 by omega]
  · intro r hr
    obtain ⟨row, h1, h2, h3⟩ := hrow r hr
    simp [getLeftHandSide, Soplex.row, h1, h2, show ¬ (r : Int) < 0 by omega]
  · intro r hr
    obtain ⟨row, h1, h2, h3⟩ := hrow r hr
    simp [getRightHandSide, Soplex.row, h1, h3, show ¬ (r : Int) < 0 by omega]
  · intro r hr c hc
    obtain ⟨row, h1, -⟩ := hrow r hr
    obtain ⟨col, h2, h3⟩ := hcol c hc
    simp [getMatrixCoefficient, column, Soplex.row, h1, h2, Glop.lookUp_eq_valueAt h3.clean,
      h3.coef r hr, show ¬ (r : Int) < 0 by omega, show ¬ (c : Int) < 0 by omega]
  · intro c hc
    obtain ⟨col, h1, h2⟩ := hcol c hc
    obtain ⟨h3, h4, h5⟩ := copyToSparse_perm h2.clean (ho col.entries)
    refine ⟨(copyToSparse (order col.entries)).cleanUpIfNeeded, ?_, h4,
      copyToSparse_fits h2.clean (ho _) h2.range, fun r hr => ?_⟩
    · simp [getSparseColumnCoefficients, h1]
    · rw [h5, h2.coef r hr]
  · intro r hr
    obtain ⟨h1, h2, h3⟩ := Glop.transposedRow_clean (r : Int) g.lp.cols 0 hcc
    obtain ⟨h4, h5, h6⟩ := copyToSparse_perm h1 (ho (Glop.transposedRow r 0 g.lp.cols))
    refine ⟨copyToSparse (order (Glop.transposedRow r 0 g.lp.cols)), ?_, ?_, ?_⟩
    · have : ¬ ((r : Int) < 0 ∨ (g.lp.rows.length : Int) ≤ r) := by rw [h.numRows]; omega
      simp only [getSparseRowCoefficients, this, if_false]
    · refine copyToSparse_fits h1 (ho _) fun e he => ?_
      have := (h2 e he).2
      rw [← h.numCols]; simpa using this
    · intro c hc
      obtain ⟨col, h7, h8⟩ := hcol c hc
      have := h3 c col h7
      simp only [Nat.zero_add] at this
      rw [h6, this, h8.coef r hr]
  · have hnz := hs.nonZeros
    unfold getNumberOfNonZeros
    split
    · have hrowlen : ∀ r < s.numRows, (Glop.transposedRow (r : Int) 0 g.lp.cols).length =
          ((Finset.range s.numCols).filter fun c => s.coef r c ≠ 0).card := by
        intro r hr
        obtain ⟨h1, h2, h3⟩ := Glop.transposedRow_clean (r : Int) g.lp.cols 0 hcc
        rw [Glop.length_eq_card h1 (n := s.numCols) fun e he => by
          have := (h2 e he).2
          rw [← h.numCols]; simpa using this]
        congr 1
        apply Finset.filter_congr
        intro c hc
        obtain ⟨col, h7, h8⟩ := hcol c (Finset.mem_range.mp hc)
        have := h3 c col h7
        simp only [Nat.zero_add] at this
        rw [this, h8.coef r hr]
      congr 1
      have hsum : ((List.range g.lp.rows.length).map fun i : Nat =>
          (Glop.transposedRow (i : Int) 0 g.lp.cols).length).sum =
          (Finset.range s.numRows).sum fun r =>
            ((Finset.range s.numCols).filter fun c => s.coef r c ≠ 0).card := by
        rw [h.numRows, ← Finset.sum_congr rfl fun r hr => hrowlen r (Finset.mem_range.mp hr)]
        rfl
      rw [hsum]
      simp only [Finset.card_filter]
      exact Finset.sum_comm
    · exact hnz

theorem runHistory_refines {g : Interface} {s : LpSpec} (hf : freed g = true) (h : Refines g.lp s)
    (ms : List Modification) (hv : ValidHistory s ms) :
    ∃ g', runHistory g ms = .ok g' ∧ freed g' = true ∧ Refines g'.lp (ms.foldl effect s) := by
  induction ms generalizing g s with
  | nil => exact ⟨g, rfl, hf, h⟩
  | cons m r ih =>
    obtain ⟨g1, h1, h1f, h2⟩ := refines_step hf h hv.1
    obtain ⟨g2, h3, h3f, h4⟩ := ih h1f h2 hv.2
    exact ⟨g2, by simp [runHistory, h1, h3], h3f, h4⟩

/-- **C44** (SoPlex), partial: what differs from the full statement is that `Clear` keeps the
objective sense (`C44_clear_keeps_sense_violated`) and that rows may have to be cleaned before use
(`C44_row_order_violated`).  For every order in which SoPlex hands out non-zeros and every history of
valid modifications of an empty interface outside strong branching, every call succeeds and the
getters return the LP the history describes. -/
theorem C44_faithful_store_partial (order : List Entry → List Entry) (ho : ∀ l, (order l).Perm l)
    (g : Interface) (hf : freed g = true) (hr : g.lp.rows = []) (hc : g.lp.cols = [])
    (ms : List Modification)
    (hv : ValidHistory { LpSpec.empty with maximize := isMaximization g } ms) :
    ∃ g', runHistory g ms = .ok g' ∧
      Shows order g' (ms.foldl effect { LpSpec.empty with maximize := isMaximization g }) := by
  have h0 : Refines g.lp { LpSpec.empty with maximize := isMaximization g } :=
    ⟨by simp [hr, LpSpec.empty], by simp [hc, LpSpec.empty], rfl, by simp [hc], by simp [hr]⟩
  obtain ⟨g', h1, -, h2⟩ := runHistory_refines hf h0 ms hv
  exact ⟨g', h1, shows_of_refines ho h2⟩

/-- A history that meets the hypothesis. -/
example : ValidHistory { LpSpec.empty with maximize := true }
    [.addRow ⟨⟨[], false⟩, .fin 0, .pinf, "a"⟩,
     .addRow ⟨⟨[], false⟩, .ninf, .fin 4, "b"⟩,
     .addColumns [⟨⟨[⟨0, 1⟩, ⟨1, 2⟩], false⟩, .fin 0, .fin 3, 1, "x"⟩,
       ⟨⟨[⟨1, -1⟩], false⟩, .fin 0, .pinf, 2, "y"⟩],
     .addRow ⟨⟨[⟨0, 5⟩, ⟨1, 7⟩], false⟩, .fin 1, .fin 1, "c"⟩,
     .setColumnBounds 1 (.fin 2) (.fin 9),
     .deleteRowSet [true, false, false],
     .deleteColumns 0 0, .clear] := by
  simp [ValidHistory, Modification.Valid, effect, Modification.effect, LpSpec.empty,
    LpSpec.addRow, LpSpec.addColumn, LpSpec.removeRows, FitsIn, Clean]

example : ∀ l : List Entry, (l.reverse).Perm l := List.reverse_perm

/-- **C44** is violated by `Clear` (SoPlex): whatever the interface, after asking for maximization and
clearing "the whole LP solver", the interface maximizes, unlike the new LP of the specification. -/
theorem C44_clear_keeps_sense_violated (g : Interface) (hf : freed g = true) :
    ∃ g', runHistory g [.setObjectiveSense true, .clear] = .ok g' ∧ isMaximization g' = true ∧
      ([Modification.setObjectiveSense true, .clear].foldl Modification.effect
        LpSpec.empty).maximize = false := by
  refine ⟨{ g with isSolved := false, lp := { maximize := true } }, ?_, rfl, rfl⟩
  · have hf' : freed { g with isSolved := false, lp := { g.lp with maximize := true } } = true := hf
    simp only [runHistory, call, setObjectiveSense, hf, Outcome.check, if_true, Outcome.bind_ok,
      Outcome.pure_eq, clear, hf']

/-- An LP with one row 1 x + 2 y. -/
def twoColumns : LinearProgram where
  rows := [⟨.fin 0, .fin 1, ""⟩]
  cols := [⟨.fin 0, .fin 1, 0, "", [⟨0, 1⟩]⟩, ⟨.fin 0, .fin 1, 0, "", [⟨0, 2⟩]⟩]

/-- **C44** is violated (SoPlex) when SoPlex hands out the non-zeros of a row in another order than
that of the columns: `GetSparseRowCoefficients` returns a vector that is marked for cleaning and in
which the coefficient 1 of column 0 is read as 0. -/
theorem C44_row_order_violated (g : Interface) (hg : g.lp = twoColumns) :
    ∃ v, getSparseRowCoefficients List.reverse g 0 = .ok v ∧ v.mayNeedCleaning = true ∧
      v.value 0 = 0 ∧ getMatrixCoefficient g 0 0 = .ok 1 := by
  refine ⟨⟨[⟨1, 2⟩, ⟨0, 1⟩], true⟩, ?_, rfl, rfl, ?_⟩
  · rw [getSparseRowCoefficients, hg]; rfl
  · simp only [getMatrixCoefficient, column, row, hg]; rfl

/-! ### C45 -/

/-- **C45** (SoPlex).  Outside strong branching, `DeleteRowSet` succeeds, deletes as many rows as are
marked, keeps the columns, and returns a mapping with -1 for every marked row; the mapping sends
every other row to a row with the same sides and coefficients, in the same order. -/
theorem C45_row_mapping (g : Interface) (hf : freed g = true) (hg : Glop.LpOk g.lp)
    (mask : List Bool) (hm : (mask.length : Int) = getNumberOfRows g) :
    ∃ g' mapping, deleteRowSet g mask = .ok (g', mapping) ∧
      mapping.length = mask.length ∧
      getNumberOfRows g' = mask.count false ∧
      getNumberOfColumns g' = getNumberOfColumns g ∧
      isMaximization g' = isMaximization g ∧
      (∀ c : Nat, (c : Int) < getNumberOfColumns g →
        getLowerBound g' c = getLowerBound g c ∧ getUpperBound g' c = getUpperBound g c ∧
        getObjectiveCoefficient g' c = getObjectiveCoefficient g c) ∧
      (∀ i : Nat, mask[i]? = some true → mapping[i]? = some (-1)) ∧
      (∀ i : Nat, mask[i]? = some false → ∃ j : Nat, mapping[i]? = some (j : Int) ∧
        (j : Int) < getNumberOfRows g' ∧
        getLeftHandSide g' j = getLeftHandSide g i ∧
        getRightHandSide g' j = getRightHandSide g i ∧
        ∀ c : Nat, (c : Int) < getNumberOfColumns g →
          getMatrixCoefficient g' c j = getMatrixCoefficient g c i) ∧
      (∀ i i' : Nat, i < i' → mask[i]? = some false → mask[i']? = some false →
        ∀ j j' : Int, mapping[i]? = some j → mapping[i']? = some j' → j < j') := by
  have hm : mask.length = g.lp.rows.length := by simpa [getNumberOfRows] using hm
  have hr := Glop.refines_specOf hg
  have hr' := Glop.refines_removeRows hr mask (fun i => mask.getD i false) fun _ _ => rfl
  have hs := shows_of_refines (order := id) (fun l => List.Perm.refl l) hr
  have hs' := shows_of_refines (order := id) (fun l => List.Perm.refl l)
    (g := { g with isSolved := false, lp := g.lp.deleteRows mask }) hr'
  obtain ⟨gg, mp, h1, h2, h3, h4, h5, -, h7, h8, h9⟩ :=
    Glop.C45_row_mapping (twin g.lp) hg mask (by simp [Glop.getNumberOfRows, twin, hm])
  obtain ⟨gg', h10, h11, -⟩ := Glop.deleteRowsAndUpdate_ok (twin g.lp) mask (by simp [twin, hm])
  have hlt : ¬ mask.length < (twin g.lp).lp.rows.length := by simp [twin, hm]
  have hmp : mp = Glop.rowMapping mask 0 ∧ gg.lp = g.lp.deleteRows mask := by
    simp only [Glop.deleteRowSet, hlt, if_false, h10, Outcome.bind_ok, Outcome.pure_eq] at h1
    have h1 := Outcome.ok.inj h1
    simp only [Prod.mk.injEq] at h1
    obtain ⟨rfl, rfl⟩ := h1
    refine ⟨?_, h11⟩
    have : (twin g.lp).lp.rows.length = mask.length := by simp [twin, hm]
    rw [this, List.take_length]; simp
  obtain ⟨rfl, hlp⟩ := hmp
  have hss := Glop.shows_of_refines (g := gg)
    (s := (Glop.specOf g.lp).removeRows fun i => mask.getD i false) (by rw [hlp]; exact hr')
  have hst := Glop.shows_of_refines (g := twin g.lp) hr
  refine ⟨_, _, deleteRowSet_eq g hf mask hm, h2, ?_, ?_, ?_, ?_, h7, ?_, h9⟩
  · rw [hs'.numRows, ← hss.numRows, h3]
  · rw [hs'.numCols, hs.numCols]; rfl
  · rfl
  · intro c hc
    rw [hs.numCols] at hc
    have hc : c < (Glop.specOf g.lp).numCols := by omega
    rw [hs'.lower c hc, hs.lower c hc, hs'.upper c hc, hs.upper c hc, hs'.objective c hc,
      hs.objective c hc]
    exact ⟨rfl, rfl, rfl⟩
  · intro i hi
    obtain ⟨j, h12, h13, h14, h15, h16⟩ := h8 i hi
    have hj : j < ((Glop.specOf g.lp).removeRows fun i => mask.getD i false).numRows := by
      rw [hss.numRows] at h13; omega
    have hi' : i < (Glop.specOf g.lp).numRows := by
      have := (List.getElem?_eq_some_iff.mp hi).1
      simp only [Glop.specOf]; omega
    refine ⟨j, h12, by rw [hs'.numRows]; omega, ?_, ?_, ?_⟩
    · rw [hs'.lhs _ hj, hs.lhs _ hi', ← hss.lhs _ hj, ← hst.lhs _ hi']; exact h14
    · rw [hs'.rhs _ hj, hs.rhs _ hi', ← hss.rhs _ hj, ← hst.rhs _ hi']; exact h15
    · intro c hc
      rw [hs.numCols] at hc
      have hc' : c < (Glop.specOf g.lp).numCols := by omega
      rw [hs'.coef _ hj c hc', hs.coef _ hi' c hc', ← hss.coef _ hj c hc', ← hst.coef _ hi' c hc']
      exact h16 c (by rw [hst.numCols]; omega)

/-- The LP with two columns and a mask that meet the hypotheses. -/
example : Glop.LpOk twoColumns ∧ (([true] : List Bool).length : Int) = twoColumns.rows.length := by
  refine ⟨?_, rfl⟩
  simp [Glop.LpOk, twoColumns, Clean]

end Soplex
end MiniMip
