import Verif.Model.DebugMatrix
import Verif.Props.DebugCreate

/-!
# C123: the sparse matrix asserts exactly on positions and data out of range
-/

namespace MiniMip

open SparseVector (Inv Clean)

theorem SparseVector.isClean_iff_clean (v : SparseVector) : v.isClean = true ↔ Clean v.entries := by
  refine ⟨fun h => ?_, MipData.isClean_of⟩
  rw [SparseVector.isClean, Bool.and_eq_true, SparseVector.isSortedStrict_iff, List.all_eq_true] at h
  exact ⟨h.1, fun e he => by simpa using h.2 e he⟩

theorem SparseVector.debugMayNeed_eq {v : SparseVector} (h : v.dirty = false → Clean v.entries) :
    v.debugMayNeed = .ok v.dirty := by
  unfold SparseVector.debugMayNeed
  cases hd : v.dirty with
  | true => simp [Outcome.check, Outcome.pure_eq]
  | false => simp [Outcome.check, MipData.isClean_of (h hd), Outcome.pure_eq]

theorem SparseVector.debugCleanUp_eq {v : SparseVector} (h : v.dirty = false → Clean v.entries) :
    v.debugCleanUp = .ok v.cleanUpIfNeeded := by
  unfold SparseVector.debugCleanUp
  rw [SparseVector.debugMayNeed_eq h, Outcome.bind_ok, Outcome.pure_eq]

theorem SparseVector.cleaned_dirty (v : SparseVector) : v.cleanUpIfNeeded.dirty = false := by
  unfold SparseVector.cleanUpIfNeeded
  split
  · rfl
  · rename_i h
    simpa using h

theorem SparseVector.debugEntries_clean {v : SparseVector} (h : Clean v.entries) (hd : v.dirty = false) :
    v.debugEntries = .ok v.entries := by
  rw [MipData.debugEntries_eq (Inv.of_clean (v := v) h), hd]
  rfl

namespace SparseMatrix
namespace Debug

/-! ### Recomputing a view -/

theorem allClean_eq {l : List SparseVector} (h : AllClean l) : allClean l = .ok true := by
  induction l with
  | nil => rfl
  | cons v r ih =>
    obtain ⟨h1, h2⟩ := h v (by simp)
    simp only [allClean, SparseVector.debugMayNeed_eq fun _ => h1, h2, Outcome.bind_ok]
    exact ih fun w hw => h w (by simp [hw])

theorem fillOne_eq (i : Nat) (es : List Entry) : ∀ (t t' : List SparseVector), SparseMatrix.fillOne i t es = .ok t' →
    fillOne i t es = .ok t' := by
  induction es with
  | nil => exact fun _ _ h => h
  | cons e r ih =>
    intro t t' h
    simp only [SparseMatrix.fillOne, Outcome.bind_eq_ok] at h
    obtain ⟨t1, h1, h2⟩ := h
    have hr : 0 ≤ e.index ∧ e.index.toNat < t.length := by
      unfold addAt at h1
      split at h1
      · assumption
      · cases h1
    have hlt : e.index < t.length := by omega
    simp only [fillOne, Outcome.check, hr.1, hlt, decide_true, if_true, Outcome.bind_ok, h1, ih _ _ h2]

theorem fill_eq (vs : List SparseVector) : ∀ (i : Nat) (t t' : List SparseVector), (∀ v ∈ vs, Inv v) →
    SparseMatrix.fill i t (vs.map SparseVector.cleanUpIfNeeded) = .ok t' →
    fill i t vs = .ok (t', vs.map SparseVector.cleanUpIfNeeded) := by
  induction vs with
  | nil =>
    intro i t t' _ h
    cases h
    rfl
  | cons v r ih =>
    intro i t t' hv h
    simp only [List.map_cons, SparseMatrix.fill, Outcome.bind_eq_ok] at h
    obtain ⟨t1, h1, h2⟩ := h
    have hi := hv v (by simp)
    obtain ⟨c1, c2⟩ := SparseVector.cleanUp_clean hi
    simp only [fill, SparseVector.debugCleanUp_eq hi.2, Outcome.bind_ok, SparseVector.debugEntries_clean c1 c2,
      fillOne_eq _ _ _ _ h1, ih _ _ _ (fun w hw => hv w (by simp [hw])) h2, Outcome.pure_eq, List.map_cons]

theorem populateFromTranspose_eq {tgt tr : List SparseVector} {f : Nat → Nat → ℚ}
    (h : View tr tgt.length f) (hz : ∀ i, tr.length ≤ i → ∀ j, f i j = 0) :
    ∃ t', SparseMatrix.populateFromTranspose tgt tr = .ok (t', tr.map SparseVector.cleanUpIfNeeded) ∧
      populateFromTranspose tgt tr = .ok (t', tr.map SparseVector.cleanUpIfNeeded) ∧ allClean t' = .ok true ∧
      allClean (tr.map SparseVector.cleanUpIfNeeded) = .ok true := by
  obtain ⟨t', h1, -, -, h4⟩ := populateFromTranspose_spec h hz
  refine ⟨t', h1, ?_, allClean_eq h4, allClean_eq fun v hv => ?_⟩
  · unfold SparseMatrix.populateFromTranspose at h1
    simp only [Outcome.bind_eq_ok, Outcome.pure_eq] at h1
    obtain ⟨t1, h5, h6⟩ := h1
    cases h6
    exact fill_eq _ _ _ _ h.inv h5
  · obtain ⟨u, hu, rfl⟩ := List.mem_map.1 hv
    exact SparseVector.cleanUp_clean (h.inv u hu)

theorem recomputeRows_eq {m : SparseMatrix} {t : Table} (h : Rel m t) : recomputeRows m = m.recomputeRows := by
  unfold recomputeRows SparseMatrix.recomputeRows
  by_cases hc : m.consistency = .rowsNeedRecomputation
  · obtain ⟨t', h1, h2, h3, h4⟩ := populateFromTranspose_eq (tgt := m.rows) (tr := m.cols)
      (by rw [h.nrows]; exact h.cols (by rw [hc]; simp)) (fun i hi j => h.zero i j (by rw [h.ncols] at hi; omega))
    simp [rowsNeed, colsNeed, hc, h1, h2, h3, h4, Outcome.check]
  · simp [rowsNeed, hc]

theorem recomputeCols_eq {m : SparseMatrix} {t : Table} (h : Rel m t) : recomputeCols m = m.recomputeCols := by
  unfold recomputeCols SparseMatrix.recomputeCols
  by_cases hc : m.consistency = .colsNeedRecomputation
  · obtain ⟨t', h1, h2, h3, h4⟩ := populateFromTranspose_eq (tgt := m.cols) (tr := m.rows)
      (by rw [h.ncols]; exact h.rows (by rw [hc]; simp)) (fun i hi j => h.zero j i (by rw [h.nrows] at hi; omega))
    simp [rowsNeed, colsNeed, hc, h1, h2, h3, h4, Outcome.check]
  · simp [colsNeed, hc]

/-! ### The calls -/

theorem row_eq {m : SparseMatrix} {t : Table} (h : Rel m t) {r : Nat} (hr : r < t.nr) : row m r = m.row r := by
  obtain ⟨m1, h1, hR, hc, -, -⟩ := h.recomputeRows
  obtain ⟨v, hv, hv'⟩ := at?_lt (l := m1.rows) (i := r) (by rw [hR.nrows]; exact hr)
  have hi := (hR.rows hc).inv v (List.mem_of_getElem? hv')
  have hn : r < m.numRows := by unfold numRows; rw [h.nrows]; exact hr
  simp only [row, SparseMatrix.row, Outcome.check, hn, decide_true, if_true, Outcome.bind_ok, recomputeRows_eq h, h1, hv,
    SparseVector.debugCleanUp_eq hi.2]

theorem col_eq {m : SparseMatrix} {t : Table} (h : Rel m t) {c : Nat} (hc : c < t.nc) : col m c = m.col c := by
  obtain ⟨m1, h1, hR, hcc, -, -⟩ := h.recomputeCols
  obtain ⟨v, hv, hv'⟩ := at?_lt (l := m1.cols) (i := c) (by rw [hR.ncols]; exact hc)
  have hi := (hR.cols hcc).inv v (List.mem_of_getElem? hv')
  have hn : c < m.numCols := by unfold numCols; rw [h.ncols]; exact hc
  simp only [col, SparseMatrix.col, Outcome.check, hn, decide_true, if_true, Outcome.bind_ok, recomputeCols_eq h, h1, hv,
    SparseVector.debugCleanUp_eq hi.2]

theorem getCoefficient_eq {m : SparseMatrix} {t : Table} (h : Rel m t) {c r : Nat} (hc : c < t.nc) (hr : r < t.nr) :
    getCoefficient m c r = m.getCoefficient c r := by
  obtain ⟨rv, hrv, hrv'⟩ := at?_lt (l := m.rows) (i := r) (by rw [h.nrows]; exact hr)
  obtain ⟨cv, hcv, hcv'⟩ := at?_lt (l := m.cols) (i := c) (by rw [h.ncols]; exact hc)
  have hn : c < m.numCols := by unfold numCols; rw [h.ncols]; exact hc
  have hn' : r < m.numRows := by unfold numRows; rw [h.nrows]; exact hr
  have e1 := SparseVector.cleaned_dirty rv
  have e2 := SparseVector.cleaned_dirty cv
  have f1 : m.consistency ≠ .rowsNeedRecomputation → Inv rv := fun hn => (h.rows hn).inv rv (List.mem_of_getElem? hrv')
  have f2 : m.consistency ≠ .colsNeedRecomputation → Inv cv := fun hn => (h.cols hn).inv cv (List.mem_of_getElem? hcv')
  simp only [getCoefficient, SparseMatrix.getCoefficient, Outcome.check, hn, hn', decide_true, if_true, Outcome.bind_ok, hrv, hcv]
  cases hcons : m.consistency with
  | upToDate =>
    have g1 := (f1 (by simp [hcons])).2
    have g2 := (f2 (by simp [hcons])).2
    cases hd1 : rv.dirty <;> cases hd2 : cv.dirty <;>
      simp [rowsNeed, colsNeed, hcons, SparseVector.debugMayNeed_eq g1, SparseVector.debugMayNeed_eq g2,
        SparseVector.mayNeedCleaning, hd1, hd2, SparseVector.debugValue, Outcome.check, SparseVector.debugCleanUp_eq g1, e1]
  | rowsNeedRecomputation =>
    have g2 := (f2 (by simp [hcons])).2
    cases hd2 : cv.dirty <;>
      simp [rowsNeed, colsNeed, hcons, SparseVector.debugMayNeed_eq g2,
        SparseVector.mayNeedCleaning, hd2, SparseVector.debugValue, Outcome.check, SparseVector.debugCleanUp_eq g2, e2]
  | colsNeedRecomputation =>
    have g1 := (f1 (by simp [hcons])).2
    cases hd1 : rv.dirty <;>
      simp [rowsNeed, colsNeed, hcons, SparseVector.debugMayNeed_eq g1,
        SparseVector.mayNeedCleaning, hd1, SparseVector.debugValue, Outcome.check, SparseVector.debugCleanUp_eq g1, e1]

theorem setCoefficient_eq {m : SparseMatrix} {t : Table} (h : Rel m t) {c r : Nat} (x : ℚ) (hc : c < t.nc) (hr : r < t.nr) :
    setCoefficient m c r x = m.setCoefficient c r x := by
  have hn : c < m.numCols := by unfold numCols; rw [h.ncols]; exact hc
  have hn' : r < m.numRows := by unfold numRows; rw [h.nrows]; exact hr
  simp only [setCoefficient, Outcome.check, hn, hn', decide_true, if_true, Outcome.bind_ok]

/-- Data that `PopulateRow` and `PopulateCol` accept: once cleaned, it is clean and its indices are below `n`. -/
def Fit (data : SparseVector) (n : Nat) : Prop :=
  (data.dirty = false → Clean data.entries) ∧ Clean data.cleanUpIfNeeded.entries ∧
    ∀ e ∈ data.cleanUpIfNeeded.entries, e.index < n

theorem cleanData_eq {data : SparseVector} {n : Nat} (h : Fit data n) : cleanData data n = .ok data.cleanUpIfNeeded := by
  obtain ⟨h1, h2, h3⟩ := h
  have h4 := (MipData.lastIndex_lt h2 n).2 h3
  simp only [cleanData, SparseVector.debugCleanUp_eq h1, Outcome.bind_ok,
    SparseVector.debugEntries_clean h2 (SparseVector.cleaned_dirty data), Outcome.check, h4, if_true, Outcome.pure_eq]

theorem cleanData_abort {data : SparseVector} {n : Nat} (h : ¬ Fit data n) : cleanData data n = .abort := by
  by_cases h1 : data.dirty = false → Clean data.entries
  · simp only [cleanData, SparseVector.debugCleanUp_eq h1, Outcome.bind_ok]
    by_cases h2 : Clean data.cleanUpIfNeeded.entries
    · have h4 : ¬ _ := fun h4 => h ⟨h1, h2, (MipData.lastIndex_lt h2 n).1 h4⟩
      simp only [SparseVector.debugEntries_clean h2 (SparseVector.cleaned_dirty data), Outcome.bind_ok, Outcome.check, h4,
        Outcome.bind_abort]
      simp
    · have h3 : data.cleanUpIfNeeded.isClean = false := by
        rw [Bool.eq_false_iff]; exact fun h => h2 ((SparseVector.isClean_iff_clean _).1 h)
      simp [SparseVector.debugEntries, h3, SparseVector.cleaned_dirty, Outcome.check]
  · have h2 : data.dirty = false ∧ ¬ Clean data.entries := by simpa using h1
    have h3 : data.isClean = false := by
      rw [Bool.eq_false_iff]; exact fun h => h2.2 ((SparseVector.isClean_iff_clean _).1 h)
    simp [cleanData, SparseVector.debugCleanUp, SparseVector.debugMayNeed, h2.1, h3, Outcome.check]

theorem populateCol_eq {m : SparseMatrix} {t : Table} (h : Rel m t) {c : Nat} (d : SparseVector) (hc : c < t.nc)
    (hd : Fit d t.nr) : populateCol m c d = m.populateCol c d := by
  obtain ⟨m1, h1, hR, -, -, -⟩ := h.recomputeCols
  obtain ⟨v, hv, -⟩ := at?_lt (l := m1.cols) (i := c) (by rw [hR.ncols]; exact hc)
  have hn : c < m1.numCols := by unfold numCols; rw [hR.ncols]; exact hc
  have hn' : m1.numRows = t.nr := hR.nrows
  simp only [populateCol, SparseMatrix.populateCol, recomputeCols_eq h, h1, Outcome.bind_ok, Outcome.check, hn, decide_true,
    if_true, hn', cleanData_eq hd, hv]

theorem populateRow_eq {m : SparseMatrix} {t : Table} (h : Rel m t) {r : Nat} (d : SparseVector) (hr : r < t.nr)
    (hd : Fit d t.nc) : populateRow m r d = m.populateRow r d := by
  obtain ⟨m1, h1, hR, -, -, -⟩ := h.recomputeRows
  obtain ⟨v, hv, -⟩ := at?_lt (l := m1.rows) (i := r) (by rw [hR.nrows]; exact hr)
  have hn : r < m1.numRows := by unfold numRows; rw [hR.nrows]; exact hr
  have hn' : m1.numCols = t.nc := hR.ncols
  simp only [populateRow, SparseMatrix.populateRow, recomputeRows_eq h, h1, Outcome.bind_ok, Outcome.check, hn, decide_true,
    if_true, hn', cleanData_eq hd, hv]

theorem resize_eq {m : SparseMatrix} {t : Table} (h : Rel m t) (nc nr : Nat) : resize m nc nr = m.resize nc nr := by
  unfold resize SparseMatrix.resize
  by_cases h0 : nc = 0 ∧ nr = 0
  · rw [if_pos h0, if_pos h0]
  rw [if_neg h0, if_neg h0]
  by_cases h1 : nr = 0
  · rw [if_pos h1, if_pos h1]
  rw [if_neg h1, if_neg h1]
  by_cases h2 : nc = 0
  · rw [if_pos h2, if_pos h2]
  rw [if_neg h2, if_neg h2]
  set m1 : SparseMatrix := if nr ≥ m.numRows then { m with rows := resizeVec m.rows nr } else m
    with hm1
  have hR1 : Rel m1 { t with nr := max t.nr nr } := by
    have hn := h.nrows
    by_cases hg : nr ≥ m.numRows
    · rw [hm1, if_pos hg]
      refine (h.growRows hg).congr rfl ?_ (fun _ _ => rfl)
      unfold numRows at hg; simp only; omega
    · rw [hm1, if_neg hg]
      refine h.congr rfl ?_ (fun _ _ => rfl)
      unfold numRows at hg; simp only; omega
  simp only
  set m2 : SparseMatrix := if nc ≥ m1.numCols then { m1 with cols := resizeVec m1.cols nc } else m1
    with hm2
  have hR2 : Rel m2 { t with nr := max t.nr nr, nc := max t.nc nc } := by
    have hn := hR1.ncols
    simp only at hn
    by_cases hg : nc ≥ m1.numCols
    · rw [hm2, if_pos hg]
      refine (hR1.growCols hg).congr ?_ rfl (fun _ _ => rfl)
      unfold numCols at hg; simp only; omega
    · rw [hm2, if_neg hg]
      refine hR1.congr ?_ rfl (fun _ _ => rfl)
      unfold numCols at hg; simp only; omega
  have hrows : m2.numRows = max t.nr nr := hR2.nrows
  have hcols : m2.numCols = max t.nc nc := hR2.ncols
  rw [recomputeRows_eq hR2, recomputeCols_eq hR2]
  by_cases he : m2.consistency = .colsNeedRecomputation
  · have hR3 := hR2.cutRows (nr := nr) (by omega) (by simp [he])
    rw [recomputeCols_eq hR3]
    simp [colsNeed, rowsNeed, he, Outcome.check]
  · have hR3 := hR2.cutCols (nc := nc) (by omega) he
    rw [recomputeRows_eq hR3]
    simp [colsNeed, he]

/-! ### Histories -/

/-- One call, with assertions. -/
def step (m : SparseMatrix) : Op → Outcome (SparseMatrix × Out)
  | .set c r x => do return (← setCoefficient m c r x, .none)
  | .populateCol c d => do return (← populateCol m c d, .none)
  | .populateRow r d => do return (← populateRow m r d, .none)
  | .resize nc nr => do return (← resize m nc nr, .none)
  | .clear => .ok (m.clear, .none)
  | .row r => do let (m, v) ← row m r; return (m, .vec v)
  | .col c => do let (m, v) ← col m c; return (m, .vec v)
  | .get c r => do let (m, x) ← getCoefficient m c r; return (m, .num x)

/-- A history of calls, with assertions. -/
def runOps (m : SparseMatrix) : List Op → Outcome (SparseMatrix × List Out)
  | [] => .ok (m, [])
  | o :: os => do
    let (m, out) ← step m o
    let (m, outs) ← runOps m os
    return (m, out :: outs)

/-- The calls on which nothing asserts: positions inside the dimensions, and data that is clean after cleaning, with
indices inside the dimensions. -/
def Admitted (t : Table) : Op → Prop
  | .populateCol c d => c < t.nc ∧ Fit d t.nr
  | .populateRow r d => r < t.nr ∧ Fit d t.nc
  | o => t.Legal o

theorem admitted_of_legal {t : Table} {o : Op} (h : t.Legal o) : Admitted t o := by
  cases o with
  | populateCol c d =>
    exact ⟨h.1, h.2.1.2, (SparseVector.cleanUp_clean h.2.1).1, fun e he => h.2.2 e (cleanUp_mem he)⟩
  | populateRow r d =>
    exact ⟨h.1, h.2.1.2, (SparseVector.cleanUp_clean h.2.1).1, fun e he => h.2.2 e (cleanUp_mem he)⟩
  | _ => exact h

theorem step_eq {m : SparseMatrix} {t : Table} (h : Rel m t) {o : Op} (ho : Admitted t o) : step m o = m.step o := by
  cases o with
  | set c r x => simp only [step, SparseMatrix.step, setCoefficient_eq h x ho.1 ho.2]
  | populateCol c d => simp only [step, SparseMatrix.step, populateCol_eq h d ho.1 ho.2]
  | populateRow r d => simp only [step, SparseMatrix.step, populateRow_eq h d ho.1 ho.2]
  | resize nc nr => simp only [step, SparseMatrix.step, resize_eq h]
  | clear => rfl
  | row r => simp only [step, SparseMatrix.step, row_eq h ho]
  | col c => simp only [step, SparseMatrix.step, col_eq h ho]
  | get c r => simp only [step, SparseMatrix.step, getCoefficient_eq h ho.1 ho.2]

theorem step_abort {m : SparseMatrix} {t : Table} (h : Rel m t) {o : Op} (ho : ¬ Admitted t o) : step m o = .abort := by
  have hc : m.numCols = t.nc := h.ncols
  have hr : m.numRows = t.nr := h.nrows
  cases o with
  | set c r x =>
    by_cases h1 : c < t.nc
    · have h2 : ¬ r < t.nr := fun h2 => ho ⟨h1, h2⟩
      simp [step, setCoefficient, hc, hr, h1, h2, Outcome.check]
    · simp [step, setCoefficient, hc, h1, Outcome.check]
  | get c r =>
    by_cases h1 : c < t.nc
    · have h2 : ¬ r < t.nr := fun h2 => ho ⟨h1, h2⟩
      simp [step, getCoefficient, hc, hr, h1, h2, Outcome.check]
    · simp [step, getCoefficient, hc, h1, Outcome.check]
  | row r => simp [step, row, hr, show ¬ r < t.nr from ho, Outcome.check]
  | col c => simp [step, col, hc, show ¬ c < t.nc from ho, Outcome.check]
  | resize nc nr => exact absurd trivial ho
  | clear => exact absurd trivial ho
  | populateCol c d =>
    obtain ⟨m1, h1, hR, -, -, -⟩ := h.recomputeCols
    have e1 : m1.numCols = t.nc := hR.ncols
    have e2 : m1.numRows = t.nr := hR.nrows
    by_cases h2 : c < t.nc
    · simp [step, populateCol, recomputeCols_eq h, h1, e1, e2, h2, Outcome.check, cleanData_abort fun h3 => ho ⟨h2, h3⟩]
    · simp [step, populateCol, recomputeCols_eq h, h1, e1, h2, Outcome.check]
  | populateRow r d =>
    obtain ⟨m1, h1, hR, -, -, -⟩ := h.recomputeRows
    have e1 : m1.numCols = t.nc := hR.ncols
    have e2 : m1.numRows = t.nr := hR.nrows
    by_cases h2 : r < t.nr
    · simp [step, populateRow, recomputeRows_eq h, h1, e1, e2, h2, Outcome.check, cleanData_abort fun h3 => ho ⟨h2, h3⟩]
    · simp [step, populateRow, recomputeRows_eq h, h1, e2, h2, Outcome.check]

theorem runOps_eq {m : SparseMatrix} {t : Table} (h : Rel m t) (os : List Op) (hl : t.LegalAll os) :
    runOps m os = m.runOps os := by
  induction os generalizing m t with
  | nil => rfl
  | cons o os ih =>
    obtain ⟨m1, out, h1, hR1, -⟩ := h.step hl.1
    simp only [runOps, SparseMatrix.runOps, step_eq h (admitted_of_legal hl.1), h1, Outcome.bind_ok, ih hR1 hl.2]

end Debug

/-- **C123**: every history of calls within the caller's obligations, on a matrix of any size, raises no assertion and ends
as it does in the release build (which gives what the plain table gives, `C07_matrix_refines_table`). -/
theorem C123_histories (nc nr : Nat) (os : List Op) (hl : Table.LegalAll ⟨nc, nr, fun _ _ => 0⟩ os) :
    Debug.runOps (mk' nc nr) os = (mk' nc nr).runOps os ∧ ∃ m outs, (mk' nc nr).runOps os = .ok (m, outs) ∧
      Table.ReturnsAll ⟨nc, nr, fun _ _ => 0⟩ os outs := by
  obtain ⟨m, outs, h1, h2, -⟩ := C07_matrix_refines_table nc nr os hl
  exact ⟨Debug.runOps_eq (Rel.init nc nr) os hl, m, outs, h1, h2⟩

/-- **C123**: after such a history the next call aborts exactly if a position is outside the dimensions, or the data passed
to `PopulateRow` or `PopulateCol` is unclean without being marked, or keeps an index outside the dimensions when cleaned;
otherwise it does what it does in the release build. -/
theorem C123_next_call (nc nr : Nat) (os : List Op) (hl : Table.LegalAll ⟨nc, nr, fun _ _ => 0⟩ os) (o : Op) :
    ∃ m outs, Debug.runOps (mk' nc nr) os = .ok (m, outs) ∧
      (Debug.Admitted (Table.applyAll ⟨nc, nr, fun _ _ => 0⟩ os) o → Debug.step m o = m.step o) ∧
      (¬ Debug.Admitted (Table.applyAll ⟨nc, nr, fun _ _ => 0⟩ os) o → Debug.step m o = .abort) := by
  obtain ⟨m, outs, h1, h2, -⟩ := (Rel.init nc nr).runOps os hl
  exact ⟨m, outs, (Debug.runOps_eq (Rel.init nc nr) os hl).trans h1, Debug.step_eq h2, Debug.step_abort h2⟩

/-- A legal history that mixes both views, with dirty data, reads, and a reduction of both dimensions. -/
example : Table.LegalAll ⟨3, 2, fun _ _ => 0⟩
    [.populateRow 1 ⟨[⟨2, 5⟩, ⟨0, 3⟩, ⟨2, 4⟩], true⟩, .col 2, .set 0 1 7, .populateCol 1 ⟨[⟨0, 2⟩], false⟩, .get 0 1,
      .resize 2 1, .row 0] := by
  simp [Table.LegalAll, Table.Legal, Table.apply, SparseVector.Inv, SparseVector.Clean]

/-- Both cases of `C123_next_call` occur: index 2 of the data is overwritten by zero, or kept. -/
example : Debug.Admitted ⟨2, 1, fun _ _ => 0⟩ (.populateRow 0 ⟨[⟨2, 5⟩, ⟨0, 3⟩, ⟨2, 0⟩], true⟩) ∧
    ¬ Debug.Admitted ⟨2, 1, fun _ _ => 0⟩ (.populateRow 0 ⟨[⟨2, 5⟩, ⟨0, 3⟩], true⟩) := by
  constructor
  · refine ⟨by decide, by simp, ⟨?_, ?_⟩, ?_⟩ <;> decide +kernel
  · rintro ⟨-, -, -, h⟩
    exact absurd (h ⟨2, 5⟩ (by decide +kernel)) (by decide)

end SparseMatrix
end MiniMip
