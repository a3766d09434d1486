import Verif.Lemmas.SparseMatrix

/-!
# C07: the sparse matrix is one matrix, seen from both sides

Specification: a plain table of numbers with two dimensions.  Every history of legal
calls runs without undefined behaviour, and every read returns the table's content,
whatever mixture of row and column operations came before.
-/

namespace MiniMip
namespace SparseMatrix

open SparseVector (Inv Clean lastFrom)

/-- Specification: a table of numbers; `cell col row`. -/
structure Table where
  nc : Nat
  nr : Nat
  cell : Nat → Nat → ℚ

/-- The calls of the public interface. -/
inductive Op where
  | set (c r : Nat) (x : ℚ)
  | populateCol (c : Nat) (data : SparseVector)
  | populateRow (r : Nat) (data : SparseVector)
  | resize (nc nr : Nat)
  | clear
  | row (r : Nat)
  | col (c : Nat)
  | get (c r : Nat)

/-- What a call returns. -/
inductive Out where
  | none
  | vec (v : SparseVector)
  | num (x : ℚ)

/-- One call on the model. -/
def step (m : SparseMatrix) : Op → Outcome (SparseMatrix × Out)
  | .set c r x => do return (← m.setCoefficient c r x, .none)
  | .populateCol c d => do return (← m.populateCol c d, .none)
  | .populateRow r d => do return (← m.populateRow r d, .none)
  | .resize nc nr => do return (← m.resize nc nr, .none)
  | .clear => .ok (m.clear, .none)
  | .row r => do let (m, v) ← m.row r; return (m, .vec v)
  | .col c => do let (m, v) ← m.col c; return (m, .vec v)
  | .get c r => do let (m, x) ← m.getCoefficient c r; return (m, .num x)

/-- A history of calls, with the list of returned values. -/
def runOps (m : SparseMatrix) : List Op → Outcome (SparseMatrix × List Out)
  | [] => .ok (m, [])
  | o :: os => do
    let (m, out) ← m.step o
    let (m, outs) ← runOps m os
    return (m, out :: outs)

/-- The caller's obligations (the DCHECKs of the code): positions inside the current
dimensions, and data vectors that came out of the vector interface with indices inside
the dimensions. -/
def Table.Legal (t : Table) : Op → Prop
  | .set c r _ => c < t.nc ∧ r < t.nr
  | .populateCol c d => c < t.nc ∧ Inv d ∧ ∀ e ∈ d.entries, e.index < t.nr
  | .populateRow r d => r < t.nr ∧ Inv d ∧ ∀ e ∈ d.entries, e.index < t.nc
  | .resize _ _ => True
  | .clear => True
  | .row r => r < t.nr
  | .col c => c < t.nc
  | .get c r => c < t.nc ∧ r < t.nr

/-- The effect of a call on the table.  `data.cleanUpIfNeeded.value` is what a data
vector reads as (last write per index, C01). -/
def Table.apply (t : Table) : Op → Table
  | .set c r x => { t with cell := fun c' r' => if c' = c ∧ r' = r then x else t.cell c' r' }
  | .populateCol c d =>
    { t with cell := fun c' r' => if c' = c then d.cleanUpIfNeeded.value r' else t.cell c' r' }
  | .populateRow r d =>
    { t with cell := fun c' r' => if r' = r then d.cleanUpIfNeeded.value c' else t.cell c' r' }
  | .resize nc nr => ⟨nc, nr, fun c r => if c < nc ∧ r < nr then t.cell c r else 0⟩
  | .clear => ⟨0, 0, fun _ _ => 0⟩
  | .row _ => t
  | .col _ => t
  | .get _ _ => t

/-- A vector returned by `row`/`col`: clean (sorted by index, no zeros, no duplicates, not
marked dirty), indices in range, and reading as `f`. -/
def Shows (v : SparseVector) (bound : Nat) (f : Nat → ℚ) : Prop :=
  Clean v.entries ∧ v.dirty = false ∧ (∀ e ∈ v.entries, e.index < bound) ∧
    ∀ i : Nat, v.value i = f i

/-- What a call must return, given the table before it. -/
def Table.Returns (t : Table) : Op → Out → Prop
  | .row r, .vec v => Shows v t.nc (fun c => t.cell c r)
  | .col c, .vec v => Shows v t.nr (fun r => t.cell c r)
  | .get c r, .num x => x = t.cell c r
  | .row _, _ => False
  | .col _, _ => False
  | .get _ _, _ => False
  | _, .none => True
  | _, _ => False

/-- All calls of a history are legal. -/
def Table.LegalAll : Table → List Op → Prop
  | _, [] => True
  | t, o :: os => t.Legal o ∧ (t.apply o).LegalAll os

/-- All returned values are the specified ones. -/
def Table.ReturnsAll : Table → List Op → List Out → Prop
  | _, [], [] => True
  | t, o :: os, x :: xs => t.Returns o x ∧ (t.apply o).ReturnsAll os xs
  | _, _, _ => False

def Table.applyAll : Table → List Op → Table
  | t, [] => t
  | t, o :: os => (t.apply o).applyAll os

/-- The refinement relation: every view that is not marked stale shows the table. -/
structure Rel (m : SparseMatrix) (t : Table) : Prop where
  ncols : m.cols.length = t.nc
  nrows : m.rows.length = t.nr
  zero : ∀ c r, ¬ (c < t.nc ∧ r < t.nr) → t.cell c r = 0
  rows : m.consistency ≠ .rowsNeedRecomputation → View m.rows t.nc (fun r c => t.cell c r)
  cols : m.consistency ≠ .colsNeedRecomputation → View m.cols t.nr (fun c r => t.cell c r)

theorem at?_lt {l : List SparseVector} {i : Nat} (h : i < l.length) :
    ∃ v, at? l i = .ok v ∧ l[i]? = some v := by
  refine ⟨l[i], ?_, by simp [h]⟩
  unfold at?; rw [List.getElem?_eq_getElem h]

theorem View.shows {l b f} (h : View l b f) {k : Nat} {v : SparseVector} (hv : l[k]? = some v) :
    Shows v.cleanUpIfNeeded b (f k) := by
  have hm := List.mem_of_getElem? hv
  have hc := SparseVector.cleanUp_clean (h.inv v hm)
  refine ⟨hc.1, hc.2, fun e he => h.lt v hm e (cleanUp_mem he), fun i => ?_⟩
  rw [den_clean hc.1, den_cleanUp]; exact h.den k v hv i

theorem View.cleanAt {l b f} (h : View l b f) {k : Nat} {v : SparseVector} (hv : l[k]? = some v) :
    View (l.set k v.cleanUpIfNeeded) b f := by
  have hm := List.mem_of_getElem? hv
  exact h.set_same hv (Inv.of_clean (SparseVector.cleanUp_clean (h.inv v hm)).1)
    (fun e he => h.lt v hm e (cleanUp_mem he)) (den_cleanUp v)

theorem View.value {l b f} (h : View l b f) {k : Nat} {v : SparseVector} (hv : l[k]? = some v)
    (hd : v.mayNeedCleaning = false) (i : Nat) : v.value i = f k i := by
  have hm := List.mem_of_getElem? hv
  rw [den_clean ((h.inv v hm).2 hd)]; exact h.den k v hv i

theorem Rel.recomputeRows {m t} (h : Rel m t) :
    ∃ m', m.recomputeRows = .ok m' ∧ Rel m' t ∧ m'.consistency ≠ .rowsNeedRecomputation ∧
      (m.consistency = .colsNeedRecomputation → m' = m) ∧
      (m.consistency ≠ .colsNeedRecomputation → m'.consistency = .upToDate) := by
  unfold SparseMatrix.recomputeRows rowsNeed
  by_cases hc : m.consistency = .rowsNeedRecomputation
  · have hv := h.cols (by rw [hc]; simp)
    obtain ⟨t', hr, hlen, hV, -⟩ := populateFromTranspose_spec (tgt := m.rows) (tr := m.cols)
      (by rw [h.nrows]; exact hv)
      (fun i hi j => h.zero i j (by rw [h.ncols] at hi; omega))
    rw [if_pos (by simp [hc]), hr]
    refine ⟨_, rfl, ⟨by simp [h.ncols], by simp [hlen, h.nrows], h.zero, ?_, ?_⟩, by simp, ?_, ?_⟩
    · intro _; simp only; rw [← h.ncols]; exact hV
    · intro _; exact hv.map_cleanUp
    · rw [hc]; simp
    · simp
  · rw [if_neg (by simp [hc])]
    refine ⟨m, rfl, h, hc, fun _ => rfl, ?_⟩
    intro h2
    cases hm : m.consistency <;> simp_all

theorem Rel.recomputeCols {m t} (h : Rel m t) :
    ∃ m', m.recomputeCols = .ok m' ∧ Rel m' t ∧ m'.consistency ≠ .colsNeedRecomputation ∧
      (m.consistency = .rowsNeedRecomputation → m' = m) ∧
      (m.consistency ≠ .rowsNeedRecomputation → m'.consistency = .upToDate) := by
  unfold SparseMatrix.recomputeCols colsNeed
  by_cases hc : m.consistency = .colsNeedRecomputation
  · have hv := h.rows (by rw [hc]; simp)
    obtain ⟨t', hr, hlen, hV, -⟩ := populateFromTranspose_spec (tgt := m.cols) (tr := m.rows)
      (by rw [h.ncols]; exact hv)
      (fun i hi j => h.zero j i (by rw [h.nrows] at hi; omega))
    rw [if_pos (by simp [hc]), hr]
    refine ⟨_, rfl, ⟨by simp [hlen, h.ncols], by simp [h.nrows], h.zero, ?_, ?_⟩, by simp, ?_, ?_⟩
    · intro _; exact hv.map_cleanUp
    · intro _; simp only; rw [← h.nrows]; exact hV
    · rw [hc]; simp
    · simp
  · rw [if_neg (by simp [hc])]
    refine ⟨m, rfl, h, hc, fun _ => rfl, ?_⟩
    intro h2
    cases hm : m.consistency <;> simp_all

theorem Rel.row {m t} (h : Rel m t) {r : Nat} (hr : r < t.nr) :
    ∃ m' v, m.row r = .ok (m', v) ∧ Rel m' t ∧ Shows v t.nc (fun c => t.cell c r) := by
  obtain ⟨m1, h1, hR, hc, -, -⟩ := h.recomputeRows
  obtain ⟨v, hv, hv'⟩ := at?_lt (l := m1.rows) (i := r) (by rw [hR.nrows]; exact hr)
  unfold SparseMatrix.row
  rw [h1]; simp only [Outcome.bind_ok, hv, Outcome.pure_eq]
  refine ⟨_, _, rfl, ⟨hR.ncols, by simp [hR.nrows], hR.zero, ?_, hR.cols⟩, (hR.rows hc).shows hv'⟩
  intro _; exact (hR.rows hc).cleanAt hv'

theorem Rel.col {m t} (h : Rel m t) {c : Nat} (hc : c < t.nc) :
    ∃ m' v, m.col c = .ok (m', v) ∧ Rel m' t ∧ Shows v t.nr (fun r => t.cell c r) := by
  obtain ⟨m1, h1, hR, hcc, -, -⟩ := h.recomputeCols
  obtain ⟨v, hv, hv'⟩ := at?_lt (l := m1.cols) (i := c) (by rw [hR.ncols]; exact hc)
  unfold SparseMatrix.col
  rw [h1]; simp only [Outcome.bind_ok, hv, Outcome.pure_eq]
  refine ⟨_, _, rfl, ⟨by simp [hR.ncols], hR.nrows, hR.zero, hR.rows, ?_⟩, (hR.cols hcc).shows hv'⟩
  intro _; exact (hR.cols hcc).cleanAt hv'

theorem Rel.get {m t} (h : Rel m t) {c r : Nat} (hc : c < t.nc) (hr : r < t.nr) :
    ∃ m', m.getCoefficient c r = .ok (m', t.cell c r) ∧ Rel m' t := by
  obtain ⟨rv, hrv, hrv'⟩ := at?_lt (l := m.rows) (i := r) (by rw [h.nrows]; exact hr)
  obtain ⟨cv, hcv, hcv'⟩ := at?_lt (l := m.cols) (i := c) (by rw [h.ncols]; exact hc)
  have hrowcase : m.consistency ≠ .rowsNeedRecomputation →
      Rel { m with rows := m.rows.set r rv.cleanUpIfNeeded } t := by
    intro hn
    exact ⟨h.ncols, by simp [h.nrows], h.zero, fun _ => (h.rows hn).cleanAt hrv', h.cols⟩
  have hcolcase : m.consistency ≠ .colsNeedRecomputation →
      Rel { m with cols := m.cols.set c cv.cleanUpIfNeeded } t := by
    intro hn
    exact ⟨by simp [h.ncols], h.nrows, h.zero, h.rows, fun _ => (h.cols hn).cleanAt hcv'⟩
  unfold getCoefficient
  simp only [hrv, hcv]
  cases hcons : m.consistency
  · -- up to date
    have hV := h.rows (by simp [hcons])
    have hW := h.cols (by simp [hcons])
    by_cases hd : rv.mayNeedCleaning = true
    · by_cases hd2 : cv.mayNeedCleaning = true
      · refine ⟨_, ?_, hrowcase (by simp [hcons])⟩
        simp [rowsNeed, colsNeed, hcons, hd, hd2]
        exact (hV.shows hrv').2.2.2 c
      · refine ⟨m, ?_, h⟩
        simp [rowsNeed, colsNeed, hcons, hd, hd2]
        exact hW.value hcv' (by simpa using hd2) r
    · refine ⟨m, ?_, h⟩
      simp [rowsNeed, colsNeed, hcons, hd]
      exact hV.value hrv' (by simpa using hd) c
  · have hW := h.cols (by simp [hcons])
    by_cases hd2 : cv.mayNeedCleaning = true
    · refine ⟨_, ?_, hcolcase (by simp [hcons])⟩
      simp [rowsNeed, colsNeed, hcons, hd2]
      exact (hW.shows hcv').2.2.2 r
    · refine ⟨m, ?_, h⟩
      simp [rowsNeed, colsNeed, hcons, hd2]
      exact hW.value hcv' (by simpa using hd2) r
  · have hV := h.rows (by simp [hcons])
    by_cases hd : rv.mayNeedCleaning = true
    · refine ⟨_, ?_, hrowcase (by simp [hcons])⟩
      simp [rowsNeed, colsNeed, hcons, hd]
      exact (hV.shows hrv').2.2.2 c
    · refine ⟨m, ?_, h⟩
      simp [rowsNeed, colsNeed, hcons, hd]
      exact hV.value hrv' (by simpa using hd) c

theorem Rel.set {m t} (h : Rel m t) {c r : Nat} (x : ℚ) (hc : c < t.nc) (hr : r < t.nr) :
    ∃ m', m.setCoefficient c r x = .ok m' ∧ Rel m' (t.apply (.set c r x)) := by
  obtain ⟨rv, hrv, hrv'⟩ := at?_lt (l := m.rows) (i := r) (by rw [h.nrows]; exact hr)
  obtain ⟨cv, hcv, hcv'⟩ := at?_lt (l := m.cols) (i := c) (by rw [h.ncols]; exact hc)
  unfold setCoefficient
  simp only [hrv, hcv, Outcome.bind_ok, Outcome.pure_eq]
  refine ⟨_, rfl, ⟨by simp [h.ncols, Table.apply], by simp [h.nrows, Table.apply], ?_, ?_, ?_⟩⟩
  · intro c' r' hn
    simp only [Table.apply] at hn ⊢
    rw [if_neg (by rintro ⟨rfl, rfl⟩; exact hn ⟨hc, hr⟩)]
    exact h.zero c' r' hn
  · intro hn
    have hV := h.rows hn
    have hm := List.mem_of_getElem? hrv'
    have hI := hV.inv rv hm
    refine (hV.set (k := r) (v := rv.addEntry c x) (hI.addEntry (by omega) x) ?_
      (fun i => if i = c then x else t.cell i r) ?_).congr ?_
    · intro e he
      rcases addEntry_mem he with h1 | h1
      · exact hV.lt rv hm e h1
      · rw [h1]; exact_mod_cast hc
    · intro i
      rw [den_addEntry hI (by omega)]
      by_cases hi : i = c
      · subst hi; simp
      · rw [Function.update_of_ne (by exact_mod_cast hi), if_neg hi]
        exact hV.den r rv hrv' i
    · intro k _ i
      simp only [Table.apply]
      by_cases hk : k = r
      · by_cases hi : i = c <;> simp [hk, hi]
      · simp [hk]
  · intro hn
    have hV := h.cols hn
    have hm := List.mem_of_getElem? hcv'
    have hI := hV.inv cv hm
    refine (hV.set (k := c) (v := cv.addEntry r x) (hI.addEntry (by omega) x) ?_
      (fun i => if i = r then x else t.cell c i) ?_).congr ?_
    · intro e he
      rcases addEntry_mem he with h1 | h1
      · exact hV.lt cv hm e h1
      · rw [h1]; exact_mod_cast hr
    · intro i
      rw [den_addEntry hI (by omega)]
      by_cases hi : i = r
      · subst hi; simp
      · rw [Function.update_of_ne (by exact_mod_cast hi), if_neg hi]
        exact hV.den c cv hcv' i
    · intro k _ i
      simp only [Table.apply]
      by_cases hk : k = c
      · by_cases hi : i = r <;> simp [hk, hi]
      · simp [hk]

theorem cleaned_zero {d : SparseVector} {b : Nat} (hI : Inv d) (hlt : ∀ e ∈ d.entries, e.index < b)
    {i : Nat} (hi : b ≤ i) : d.cleanUpIfNeeded.value i = 0 := by
  rw [den_clean (SparseVector.cleanUp_clean hI).1, den_cleanUp]
  unfold SparseMatrix.den
  rw [SparseVector.lastFrom_of_not_mem]
  intro e he
  have := hlt e he
  omega

theorem Rel.populateCol {m t} (h : Rel m t) {c : Nat} (d : SparseVector) (hc : c < t.nc)
    (hI : Inv d) (hlt : ∀ e ∈ d.entries, e.index < t.nr) :
    ∃ m', m.populateCol c d = .ok m' ∧ Rel m' (t.apply (.populateCol c d)) := by
  obtain ⟨m1, h1, hR, hcc, -, -⟩ := h.recomputeCols
  obtain ⟨v, hv, hv'⟩ := at?_lt (l := m1.cols) (i := c) (by rw [hR.ncols]; exact hc)
  unfold SparseMatrix.populateCol
  rw [h1]; simp only [Outcome.bind_ok, hv, Outcome.pure_eq]
  have hcl := SparseVector.cleanUp_clean hI
  refine ⟨_, rfl, ⟨by simp [hR.ncols, Table.apply], by simp [hR.nrows, Table.apply], ?_, ?_, ?_⟩⟩
  · intro c' r' hn
    simp only [Table.apply] at hn ⊢
    by_cases hcc' : c' = c
    · rw [if_pos hcc']; exact cleaned_zero hI hlt (by omega)
    · rw [if_neg hcc']; exact hR.zero c' r' hn
  · intro hn; simp at hn
  · intro _
    exact (hR.cols hcc).set (Inv.of_clean hcl.1)
      (fun e he => hlt e (cleanUp_mem he)) _ (fun i => (den_clean hcl.1 i).symm)

theorem Rel.populateRow {m t} (h : Rel m t) {r : Nat} (d : SparseVector) (hr : r < t.nr)
    (hI : Inv d) (hlt : ∀ e ∈ d.entries, e.index < t.nc) :
    ∃ m', m.populateRow r d = .ok m' ∧ Rel m' (t.apply (.populateRow r d)) := by
  obtain ⟨m1, h1, hR, hcc, -, -⟩ := h.recomputeRows
  obtain ⟨v, hv, hv'⟩ := at?_lt (l := m1.rows) (i := r) (by rw [hR.nrows]; exact hr)
  unfold SparseMatrix.populateRow
  rw [h1]; simp only [Outcome.bind_ok, hv, Outcome.pure_eq]
  have hcl := SparseVector.cleanUp_clean hI
  refine ⟨_, rfl, ⟨by simp [hR.ncols, Table.apply], by simp [hR.nrows, Table.apply], ?_, ?_, ?_⟩⟩
  · intro c' r' hn
    simp only [Table.apply] at hn ⊢
    by_cases hcc' : r' = r
    · rw [if_pos hcc']; exact cleaned_zero hI hlt (by omega)
    · rw [if_neg hcc']; exact hR.zero c' r' hn
  · intro _
    exact (hR.rows hcc).set (Inv.of_clean hcl.1)
      (fun e he => hlt e (cleanUp_mem he)) _ (fun i => (den_clean hcl.1 i).symm)
  · intro hn; simp at hn

/-- Growing the rows keeps the table, with a new number of rows. -/
theorem Rel.growRows {m t} (h : Rel m t) {nr : Nat} (hle : m.numRows ≤ nr) :
    Rel { m with rows := resizeVec m.rows nr } { t with nr := nr } := by
  have hle' : t.nr ≤ nr := by rw [← h.nrows]; exact hle
  refine ⟨h.ncols, resizeVec_length _ _, ?_, ?_, ?_⟩
  · intro c r hn; exact h.zero c r (by simp only at hn; omega)
  · intro hn
    exact (h.rows hn).resize nr (fun k hk i => h.zero i k (by rw [h.nrows] at hk; omega))
  · intro hn; exact (h.cols hn).mono hle'

theorem Rel.growCols {m t} (h : Rel m t) {nc : Nat} (hle : m.numCols ≤ nc) :
    Rel { m with cols := resizeVec m.cols nc } { t with nc := nc } := by
  have hle' : t.nc ≤ nc := by rw [← h.ncols]; exact hle
  refine ⟨resizeVec_length _ _, h.nrows, ?_, ?_, ?_⟩
  · intro c r hn; exact h.zero c r (by simp only at hn; omega)
  · intro hn; exact (h.rows hn).mono hle'
  · intro hn
    exact (h.cols hn).resize nc (fun k hk i => h.zero k i (by rw [h.ncols] at hk; omega))

/-- Dropping rows when the rows are current. -/
theorem Rel.cutRows {m t} (h : Rel m t) {nr : Nat} (hle : nr ≤ m.numRows)
    (hc : m.consistency ≠ .rowsNeedRecomputation) :
    Rel { m with rows := resizeVec m.rows nr, consistency := .colsNeedRecomputation }
      { t with nr := nr, cell := fun c r => if r < nr then t.cell c r else 0 } := by
  refine ⟨h.ncols, resizeVec_length _ _, ?_, ?_, ?_⟩
  · intro c r hn
    simp only at hn ⊢
    split
    · exact h.zero c r (by omega)
    · rfl
  · intro _
    have hV := (h.rows hc).take nr
    have heq : resizeVec m.rows nr = m.rows.take nr := by
      unfold resizeVec
      rw [Nat.sub_eq_zero_of_le (by exact hle)]; simp
    simp only
    rw [heq]
    refine hV.congr ?_
    intro k hk i
    rw [if_pos (by simp at hk; omega)]
  · intro hn; simp at hn

theorem Rel.cutCols {m t} (h : Rel m t) {nc : Nat} (hle : nc ≤ m.numCols)
    (hc : m.consistency ≠ .colsNeedRecomputation) :
    Rel { m with cols := resizeVec m.cols nc, consistency := .rowsNeedRecomputation }
      { t with nc := nc, cell := fun c r => if c < nc then t.cell c r else 0 } := by
  refine ⟨resizeVec_length _ _, h.nrows, ?_, ?_, ?_⟩
  · intro c r hn
    simp only at hn ⊢
    split
    · exact h.zero c r (by omega)
    · rfl
  · intro hn; simp at hn
  · intro _
    have hV := (h.cols hc).take nc
    have heq : resizeVec m.cols nc = m.cols.take nc := by
      unfold resizeVec
      rw [Nat.sub_eq_zero_of_le (by exact hle)]; simp
    simp only
    rw [heq]
    refine hV.congr ?_
    intro k hk i
    rw [if_pos (by simp at hk; omega)]

theorem Rel.congr {m t t'} (h : Rel m t) (h1 : t.nc = t'.nc) (h2 : t.nr = t'.nr)
    (h3 : ∀ c r, t.cell c r = t'.cell c r) : Rel m t' := by
  have : t = t' := by
    cases t; cases t'; simp only at h1 h2 h3; subst h1 h2
    congr; funext c r; exact h3 c r
  rw [← this]; exact h

theorem Rel.resize {m t} (h : Rel m t) (nc nr : Nat) :
    ∃ m', m.resize nc nr = .ok m' ∧ Rel m' (t.apply (.resize nc nr)) := by
  unfold SparseMatrix.resize
  by_cases h0 : nc = 0 ∧ nr = 0
  · rw [if_pos h0]
    obtain ⟨rfl, rfl⟩ := h0
    exact ⟨_, rfl, ⟨rfl, rfl, by simp [Table.apply], fun _ => View.nil _ _, fun _ => View.nil _ _⟩⟩
  rw [if_neg h0]
  by_cases h1 : nr = 0
  · rw [if_pos h1]; subst h1
    refine ⟨_, rfl, ⟨by simp [Table.apply, resizeVec_length], rfl, by simp [Table.apply],
      fun _ => View.nil _ _, fun _ => ?_⟩⟩
    simpa [Table.apply] using View.all_clear _ _
  rw [if_neg h1]
  by_cases h2 : nc = 0
  · rw [if_pos h2]; subst h2
    refine ⟨_, rfl, ⟨rfl, by simp [Table.apply, resizeVec_length], by simp [Table.apply],
      fun _ => ?_, fun _ => View.nil _ _⟩⟩
    simpa [Table.apply] using View.all_clear _ _
  rw [if_neg h2]
  -- growth of either dimension
  set m1 : SparseMatrix := if nr ≥ m.numRows then { m with rows := resizeVec m.rows nr } else m
    with hm1
  have hR1 : Rel m1 { t with nr := max t.nr nr } := by
    have hn := h.nrows
    by_cases hg : nr ≥ m.numRows
    · rw [hm1, if_pos hg]
      refine (h.growRows hg).congr rfl ?_ (fun _ _ => rfl)
      unfold numRows at hg; simp only; omega
    · rw [hm1, if_neg hg]
      refine h.congr rfl ?_ (fun _ _ => rfl)
      unfold numRows at hg; simp only; omega
  have hc1 : m1.numCols = m.numCols := by rw [hm1]; split <;> rfl
  simp only
  set m2 : SparseMatrix := if nc ≥ m1.numCols then { m1 with cols := resizeVec m1.cols nc } else m1
    with hm2
  have hR2 : Rel m2 { t with nr := max t.nr nr, nc := max t.nc nc } := by
    have hn := hR1.ncols
    simp only at hn
    by_cases hg : nc ≥ m1.numCols
    · rw [hm2, if_pos hg]
      refine (hR1.growCols hg).congr ?_ rfl (fun _ _ => rfl)
      unfold numCols at hg; simp only; omega
    · rw [hm2, if_neg hg]
      refine hR1.congr ?_ rfl (fun _ _ => rfl)
      unfold numCols at hg; simp only; omega
  have hrows : m2.numRows = max t.nr nr := hR2.nrows
  have hcols : m2.numCols = max t.nc nc := hR2.ncols
  have hz : ∀ c r, t.cell c r ≠ 0 → c < t.nc ∧ r < t.nr := by
    intro c r hne
    by_contra hcon
    exact hne (h.zero c r hcon)
  by_cases ha : nr = m2.numRows ∧ nc = m2.numCols
  · rw [if_pos ha]
    refine ⟨m2, rfl, hR2.congr (by simp only [Table.apply]; omega) (by simp only [Table.apply]; omega) ?_⟩
    intro c r
    simp only [Table.apply]
    split
    · rfl
    · exact h.zero c r (by omega)
  rw [if_neg ha]
  by_cases hb : nr < m2.numRows ∧ nc = m2.numCols
  · rw [if_pos hb]
    obtain ⟨m3, h3, hR3, hc3, -, -⟩ := hR2.recomputeRows
    rw [h3]; simp only [Outcome.bind_ok, Outcome.pure_eq]
    have hl3 : m3.numRows = max t.nr nr := hR3.nrows
    refine ⟨_, rfl, (hR3.cutRows (nr := nr) (by omega) hc3).congr
      (by simp only [Table.apply]; omega) rfl ?_⟩
    intro c r
    simp only [Table.apply]
    by_cases hr : r < nr
    · by_cases hcc : c < nc
      · simp [hr, hcc]
      · rw [if_pos hr, if_neg (by omega)]; exact h.zero c r (by omega)
    · simp [hr]
  rw [if_neg hb]
  by_cases hd : nc < m2.numCols ∧ nr = m2.numRows
  · rw [if_pos hd]
    obtain ⟨m3, h3, hR3, hc3, -, -⟩ := hR2.recomputeCols
    rw [h3]; simp only [Outcome.bind_ok, Outcome.pure_eq]
    have hl3 : m3.numCols = max t.nc nc := hR3.ncols
    refine ⟨_, rfl, (hR3.cutCols (nc := nc) (by omega) hc3).congr
      rfl (by simp only [Table.apply]; omega) ?_⟩
    intro c r
    simp only [Table.apply]
    by_cases hcc : c < nc
    · by_cases hr : r < nr
      · simp [hr, hcc]
      · rw [if_pos hcc, if_neg (by omega)]; exact h.zero c r (by omega)
    · simp [hcc]
  rw [if_neg hd]
  have hfin : ∀ c r, (if r < nr then (if c < nc then t.cell c r else 0) else 0) =
      if c < nc ∧ r < nr then t.cell c r else 0 := by
    intro c r
    by_cases hcc : c < nc <;> by_cases hr : r < nr <;> simp [hcc, hr]
  by_cases he : m2.consistency = .colsNeedRecomputation
  · rw [if_neg (by simp [colsNeed, he])]
    have hR3 := hR2.cutRows (nr := nr) (by omega) (by simp [he])
    obtain ⟨m4, h4, hR4, hc4, -, -⟩ := hR3.recomputeCols
    rw [h4]; simp only [Outcome.bind_ok, Outcome.pure_eq]
    have hl4 : m4.numCols = max t.nc nc := hR4.ncols
    refine ⟨_, rfl, (hR4.cutCols (nc := nc) (by omega) hc4).congr rfl rfl ?_⟩
    intro c r
    simp only [Table.apply]
    rw [← hfin]
    by_cases hcc : c < nc <;> by_cases hr : r < nr <;> simp [hcc, hr]
  · rw [if_pos (by simp [colsNeed, he])]
    have hR3 := hR2.cutCols (nc := nc) (by omega) he
    obtain ⟨m4, h4, hR4, hc4, -, -⟩ := hR3.recomputeRows
    rw [h4]; simp only [Outcome.bind_ok, Outcome.pure_eq]
    have hl4 : m4.numRows = max t.nr nr := hR4.nrows
    refine ⟨_, rfl, (hR4.cutRows (nr := nr) (by omega) hc4).congr rfl rfl ?_⟩
    intro c r
    simp only [Table.apply]
    exact hfin c r

theorem Rel.init (nc nr : Nat) : Rel (mk' nc nr) ⟨nc, nr, fun _ _ => 0⟩ := by
  refine ⟨by simp [mk'], by simp [mk'], by simp, fun _ => ?_, fun _ => ?_⟩
  · simpa [mk'] using (View.nil nc (fun _ _ => 0)).append_empty nr (by simp)
  · simpa [mk'] using (View.nil nr (fun _ _ => 0)).append_empty nc (by simp)

theorem Rel.step {m t} (h : Rel m t) {o : Op} (hl : t.Legal o) :
    ∃ m' out, m.step o = .ok (m', out) ∧ Rel m' (t.apply o) ∧ t.Returns o out := by
  cases o with
  | set c r x =>
    obtain ⟨m', h1, h2⟩ := h.set x hl.1 hl.2
    exact ⟨m', .none, by simp [SparseMatrix.step, h1], h2, trivial⟩
  | populateCol c d =>
    obtain ⟨m', h1, h2⟩ := h.populateCol d hl.1 hl.2.1 hl.2.2
    exact ⟨m', .none, by simp [SparseMatrix.step, h1], h2, trivial⟩
  | populateRow r d =>
    obtain ⟨m', h1, h2⟩ := h.populateRow d hl.1 hl.2.1 hl.2.2
    exact ⟨m', .none, by simp [SparseMatrix.step, h1], h2, trivial⟩
  | resize nc nr =>
    obtain ⟨m', h1, h2⟩ := h.resize nc nr
    exact ⟨m', .none, by simp [SparseMatrix.step, h1], h2, trivial⟩
  | clear =>
    exact ⟨_, .none, rfl, ⟨rfl, rfl, by simp [Table.apply], fun _ => View.nil _ _,
      fun _ => View.nil _ _⟩, trivial⟩
  | row r =>
    obtain ⟨m', v, h1, h2, h3⟩ := h.row hl
    exact ⟨m', .vec v, by simp [SparseMatrix.step, h1], h2, h3⟩
  | col c =>
    obtain ⟨m', v, h1, h2, h3⟩ := h.col hl
    exact ⟨m', .vec v, by simp [SparseMatrix.step, h1], h2, h3⟩
  | get c r =>
    obtain ⟨m', h1, h2⟩ := h.get hl.1 hl.2
    exact ⟨m', .num (t.cell c r), by simp [SparseMatrix.step, h1], h2, rfl⟩

theorem Rel.runOps {m t} (h : Rel m t) (os : List Op) (hl : t.LegalAll os) :
    ∃ m' outs, m.runOps os = .ok (m', outs) ∧ Rel m' (t.applyAll os) ∧ t.ReturnsAll os outs := by
  induction os generalizing m t with
  | nil => exact ⟨m, [], rfl, h, trivial⟩
  | cons o os ih =>
    obtain ⟨m1, out, h1, hR1, ho⟩ := h.step hl.1
    obtain ⟨m2, outs, h2, hR2, hos⟩ := ih hR1 hl.2
    refine ⟨m2, out :: outs, ?_, hR2, ho, hos⟩
    simp [SparseMatrix.runOps, h1, h2]

/-- **C07.**  Starting from a matrix of any size, every history of legal calls completes
without undefined behaviour; every row, column and coefficient it reads is the one of the
plain table the same calls build; rows and columns come back clean and in range; and the
reported dimensions are those of the table. -/
theorem C07_matrix_refines_table (nc nr : Nat) (os : List Op)
    (hl : Table.LegalAll ⟨nc, nr, fun _ _ => 0⟩ os) :
    ∃ m outs, (mk' nc nr).runOps os = .ok (m, outs) ∧
      Table.ReturnsAll ⟨nc, nr, fun _ _ => 0⟩ os outs ∧
      m.numCols = (Table.applyAll ⟨nc, nr, fun _ _ => 0⟩ os).nc ∧
      m.numRows = (Table.applyAll ⟨nc, nr, fun _ _ => 0⟩ os).nr := by
  obtain ⟨m, outs, h1, h2, h3⟩ := (Rel.init nc nr).runOps os hl
  exact ⟨m, outs, h1, h3, h2.ncols, h2.nrows⟩

/-- **C07**, both sides at once: after any legal history, for every position in range,
`GetCoefficient`, the row and the column agree. -/
theorem C07_row_col_agree (nc nr : Nat) (os : List Op)
    (hl : Table.LegalAll ⟨nc, nr, fun _ _ => 0⟩ os) {m outs}
    (hrun : (mk' nc nr).runOps os = .ok (m, outs)) {c r : Nat}
    (hc : c < m.numCols) (hr : r < m.numRows) :
    ∃ m1 m2 m3 rv cv x, m.row r = .ok (m1, rv) ∧ m.col c = .ok (m2, cv) ∧
      m.getCoefficient c r = .ok (m3, x) ∧ rv.value c = x ∧ cv.value r = x := by
  obtain ⟨m', outs', h1, h2, -⟩ := (Rel.init nc nr).runOps os hl
  rw [h1] at hrun; obtain ⟨rfl, rfl⟩ := by simpa using hrun
  have hc' : c < (Table.applyAll ⟨nc, nr, fun _ _ => 0⟩ os).nc := by rw [← h2.ncols]; exact hc
  have hr' : r < (Table.applyAll ⟨nc, nr, fun _ _ => 0⟩ os).nr := by rw [← h2.nrows]; exact hr
  obtain ⟨m1, rv, ha, -, hb⟩ := h2.row hr'
  obtain ⟨m2, cv, hd, -, he⟩ := h2.col hc'
  obtain ⟨m3, hf, -⟩ := h2.get hc' hr'
  exact ⟨m1, m2, m3, rv, cv, _, ha, hd, hf, hb.2.2.2 c, he.2.2.2 r⟩

/-- A history that makes each side stale in turn, shrinks both dimensions and then reads. -/
example : Table.LegalAll ⟨3, 2, fun _ _ => 0⟩
    [.set 2 1 5, .populateRow 0 ⟨[⟨1, 4⟩, ⟨0, 3⟩, ⟨1, 0⟩], true⟩, .set 0 0 7,
      .populateCol 1 ⟨[⟨0, 1⟩], false⟩, .get 0 0, .resize 2 1, .row 0, .col 1, .get 0 0] := by
  simp [Table.LegalAll, Table.Legal, Table.apply, SparseVector.Inv, Clean, SparseVector.StrictSorted]

end SparseMatrix
end MiniMip
