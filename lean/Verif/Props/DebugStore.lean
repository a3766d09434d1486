import Verif.Model.DebugStore
import Verif.Props.GlopStore
import Verif.Props.DebugPopulate

/-!
# Property C126: modifying the LP of the Glop interface in the build with assertions

`Modification.Allowed` lists for each call, in terms of the LP the caller has described so far, what the build with assertions
accepts.
-/

namespace MiniMip
namespace Glop

open SparseVector

/-- The call in the build with assertions. -/
def Modification.debugCall (g : Interface) : Modification → Outcome Interface
  | .addColumn c => debugAddColumn g c.col c.lower c.upper c.objective c.name
  | .addColumns cs => debugAddColumns g cs
  | .addRow r => debugAddRow g r.row r.lhs r.rhs r.name
  | .addRows rs => debugAddRows g rs
  | .deleteColumns f l => debugDeleteColumns g f l
  | .deleteRows f l => debugDeleteRows g f l
  | .deleteRowSet mask => do return (← debugDeleteRowSet g mask).1
  | .setColumnBounds c lo up => debugSetColumnBounds g c lo up
  | .setRowSides r lo up => debugSetRowSides g r lo up
  | .setObjectiveSense b => .ok (Glop.setObjectiveSense g b)
  | .setObjectiveCoefficient c x => debugSetObjectiveCoefficient g c x
  | .clear => .ok (Glop.clear g)

/-- The calls, one after the other, in the build with assertions. -/
def debugHistory : Interface → List Modification → Outcome Interface
  | g, [] => .ok g
  | g, m :: r => do debugHistory (← m.debugCall g) r

/-- A vector that is not marked as dirty, is clean, and has its indices below `n`. -/
def Ready (v : SparseVector) (n : Nat) : Prop := v.dirty = false ∧ FitsIn v n

/-- What the build with assertions accepts, in terms of the LP described so far. -/
def Modification.Allowed (s : LpSpec) : Modification → Prop
  | .addColumn c => Ready c.col s.numRows
  | .addColumns cs => ∀ c ∈ cs, Ready c.col s.numRows
  | .addRow r => Ready r.row s.numCols
  | .addRows rs => ∀ r ∈ rs, Ready r.row s.numCols
  | .deleteColumns f l => 0 ≤ f ∧ f ≤ l ∧ l < s.numCols
  | .deleteRows f l => 0 ≤ f ∧ f ≤ l ∧ l < s.numRows
  | .deleteRowSet mask => mask.length = s.numRows
  | .setColumnBounds c lo up => (0 ≤ c ∧ c < s.numCols) ∧ lo ≠ .pinf ∧ up ≠ .ninf
  | .setRowSides r lo up => (0 ≤ r ∧ r < s.numRows) ∧ (lo ≠ .pinf ∧ up ≠ .ninf) ∧ Dbl.le lo up = true
  | .setObjectiveSense _ => True
  | .setObjectiveCoefficient c _ => 0 ≤ c ∧ c < s.numCols
  | .clear => True

/-- Every call of the history is allowed when it is made. -/
def AllowedHistory : LpSpec → List Modification → Prop
  | _, [] => True
  | s, m :: r => m.Allowed s ∧ AllowedHistory (m.effect s) r

theorem Modification.Allowed.valid {s : LpSpec} {m : Modification} (h : m.Allowed s) : m.Valid s := by
  cases m with
  | addColumn c => exact h.2
  | addColumns cs => exact fun c hc => (h c hc).2
  | addRow r => exact h.2
  | addRows rs => exact fun r hr => (h r hr).2
  | setColumnBounds c lo up => exact h.1
  | setRowSides r lo up => exact h.1
  | _ => exact h

theorem AllowedHistory.valid {s : LpSpec} {ms : List Modification} (h : AllowedHistory s ms) : ValidHistory s ms := by
  induction ms generalizing s with
  | nil => trivial
  | cons m r ih => exact ⟨h.1.valid, ih h.2⟩

theorem debugAddColumn_iff (g : Interface) (c : NewColumn) :
    (Ready c.col g.lp.rows.length →
      debugAddColumn g c.col c.lower c.upper c.objective c.name =
        .ok (addColumn g c.col c.lower c.upper c.objective c.name)) ∧
    (¬ Ready c.col g.lp.rows.length →
      debugAddColumn g c.col c.lower c.upper c.objective c.name = .abort) := by
  have hclean := SparseVector.isClean_iff_clean c.col
  constructor
  · rintro ⟨h1, h2, h3⟩
    have : indicesBelow g.lp.rows.length c.col.entries = true := by
      simp only [indicesBelow, List.all_eq_true, Bool.and_eq_true, decide_eq_true_eq]
      exact fun e he => ⟨(h2.2 e he).2, h3 e he⟩
    simp [debugAddColumn, SparseVector.debugEntries, SparseVector.mayNeedCleaning, h1, hclean.2 h2, this, Outcome.check,
      Outcome.pure_eq]
  · intro h
    cases hd : c.col.dirty with
    | true => simp [debugAddColumn, SparseVector.debugEntries, SparseVector.mayNeedCleaning, hd, Outcome.check]
    | false =>
      by_cases hc : Clean c.col.entries
      · have hi : indicesBelow g.lp.rows.length c.col.entries = false := by
          rw [Bool.eq_false_iff]
          intro hi
          simp only [indicesBelow, List.all_eq_true, Bool.and_eq_true, decide_eq_true_eq] at hi
          exact h ⟨hd, hc, fun e he => (hi e he).2⟩
        simp [debugAddColumn, SparseVector.debugEntries, SparseVector.mayNeedCleaning, hd, hclean.2 hc, hi, Outcome.check,
          Outcome.pure_eq]
      · have : c.col.isClean = false := by
          rw [Bool.eq_false_iff]
          exact fun h' => hc (hclean.1 h')
        simp [debugAddColumn, SparseVector.debugEntries, SparseVector.mayNeedCleaning, hd, this, Outcome.check]

theorem debugAddColumns_iff (g : Interface) (cs : List NewColumn) :
    ((∀ c ∈ cs, Ready c.col g.lp.rows.length) → debugAddColumns g cs = .ok (addColumns g cs)) ∧
    (¬ (∀ c ∈ cs, Ready c.col g.lp.rows.length) → debugAddColumns g cs = .abort) := by
  induction cs generalizing g with
  | nil => simp [debugAddColumns, addColumns]
  | cons c r ih =>
    have hr : (addColumn g c.col c.lower c.upper c.objective c.name).lp.rows.length = g.lp.rows.length := rfl
    have := ih (addColumn g c.col c.lower c.upper c.objective c.name)
    rw [hr] at this
    by_cases hc : Ready c.col g.lp.rows.length
    · simp only [List.forall_mem_cons, hc, true_and, debugAddColumns, (debugAddColumn_iff g c).1 hc, Outcome.bind_ok,
        addColumns]
      exact this
    · simp [hc, debugAddColumns, (debugAddColumn_iff g c).2 hc]

theorem debugAddRow_iff (g : Interface) (r : NewRow) :
    (Ready r.row g.lp.cols.length → debugAddRow g r.row r.lhs r.rhs r.name = addRow g r.row r.lhs r.rhs r.name) ∧
    (¬ Ready r.row g.lp.cols.length → debugAddRow g r.row r.lhs r.rhs r.name = .abort) := by
  have := C122_add_row g r.row r.lhs r.rhs r.name
  exact ⟨fun h => this.1 ⟨h.1, h.2.1, h.2.2⟩, fun h => this.2 fun h' => h ⟨h'.1, h'.2.1, h'.2.2⟩⟩

theorem debugAddRows_iff {g : Interface} {s : LpSpec} (h : Refines g.lp s) (rs : List NewRow) :
    ((∀ r ∈ rs, Ready r.row s.numCols) → debugAddRows g rs = addRows g rs) ∧
    (¬ (∀ r ∈ rs, Ready r.row s.numCols) → debugAddRows g rs = .abort) := by
  induction rs generalizing g s with
  | nil => simp [debugAddRows, addRows]
  | cons r rs ih =>
    have hrow := debugAddRow_iff g r
    rw [h.numCols] at hrow
    by_cases hc : Ready r.row s.numCols
    · obtain ⟨g1, h1, h2⟩ := refines_addRow h hc.2
      have := ih h2
      simp only [List.forall_mem_cons, hc, true_and, debugAddRows, hrow.1 hc, h1, Outcome.bind_ok, addRows]
      exact this
    · simp [hc, debugAddRows, hrow.2 hc]

theorem checkRange_eq (n : Nat) (f l : Int) :
    checkRange n f l = if 0 ≤ f ∧ f ≤ l ∧ l < n then .ok () else .abort := by
  by_cases h0 : 0 ≤ f <;> by_cases h1 : f ≤ l <;> by_cases h2 : l < n <;>
    simp [checkRange, Outcome.check, h0, h1, h2]

theorem checkPosition_eq (n : Nat) (i : Int) :
    checkPosition n i = if 0 ≤ i ∧ i < n then .ok () else .abort := by
  by_cases h0 : 0 ≤ i <;> by_cases h1 : i < n <;> simp [checkPosition, Outcome.check, h0, h1]

theorem checkInfinite_eq (lo up : Dbl) :
    checkInfinite lo up = if lo ≠ .pinf ∧ up ≠ .ninf then .ok () else .abort := by
  cases lo <;> cases up <;> simp [checkInfinite, Outcome.check, Dbl.neg]

/-- One call: allowed means no assertion fails, and anything else means that one does. -/
theorem debugCall_iff {g : Interface} {s : LpSpec} (h : Refines g.lp s) (m : Modification) :
    (m.Allowed s → m.debugCall g = m.call g) ∧ (¬ m.Allowed s → m.debugCall g = .abort) := by
  cases m with
  | addColumn c =>
    simpa only [Modification.Allowed, Modification.debugCall, Modification.call, h.numRows] using debugAddColumn_iff g c
  | addColumns cs =>
    simpa only [Modification.Allowed, Modification.debugCall, Modification.call, h.numRows] using debugAddColumns_iff g cs
  | addRow r =>
    simpa only [Modification.Allowed, Modification.debugCall, Modification.call, h.numCols] using debugAddRow_iff g r
  | addRows rs => exact debugAddRows_iff h rs
  | deleteColumns f l =>
    simp only [Modification.Allowed, Modification.debugCall, Modification.call, debugDeleteColumns, checkRange_eq, h.numCols]
    exact ⟨fun hc => by rw [if_pos hc]; rfl, fun hc => by rw [if_neg hc]; rfl⟩
  | deleteRows f l =>
    simp only [Modification.Allowed, Modification.debugCall, Modification.call, debugDeleteRows, checkRange_eq, h.numRows]
    exact ⟨fun hc => by rw [if_pos hc]; rfl, fun hc => by rw [if_neg hc]; rfl⟩
  | deleteRowSet mask =>
    simp only [Modification.Allowed, Modification.debugCall, Modification.call, debugDeleteRowSet, h.numRows]
    exact ⟨fun hc => by simp [hc, Outcome.check], fun hc => by simp [hc, Outcome.check]⟩
  | setColumnBounds c lo up =>
    simp only [Modification.Allowed, Modification.debugCall, Modification.call, debugSetColumnBounds, checkPosition_eq,
      checkInfinite_eq, h.numCols]
    by_cases h1 : 0 ≤ c ∧ c < s.numCols <;> by_cases h2 : lo ≠ .pinf ∧ up ≠ .ninf <;>
      simp only [h1, h2, if_true, if_false, Outcome.bind_ok, Outcome.bind_abort, and_self, and_true, and_false, true_implies,
        false_implies, not_true_eq_false, not_false_eq_true, ne_eq]
  | setRowSides r lo up =>
    simp only [Modification.Allowed, Modification.debugCall, Modification.call, debugSetRowSides, checkPosition_eq,
      checkInfinite_eq, h.numRows]
    by_cases h1 : 0 ≤ r ∧ r < s.numRows <;> by_cases h2 : lo ≠ .pinf ∧ up ≠ .ninf <;> cases h3 : Dbl.le lo up <;>
      simp [h1, h2, Outcome.check]
  | setObjectiveSense b => exact ⟨fun _ => rfl, fun hc => absurd trivial hc⟩
  | setObjectiveCoefficient c x =>
    simp only [Modification.Allowed, Modification.debugCall, Modification.call, debugSetObjectiveCoefficient,
      checkPosition_eq, h.numCols]
    exact ⟨fun hc => by rw [if_pos hc]; rfl, fun hc => by rw [if_neg hc]; rfl⟩
  | clear => exact ⟨fun _ => rfl, fun hc => absurd trivial hc⟩

theorem debugHistory_iff {g : Interface} {s : LpSpec} (h : Refines g.lp s) (ms : List Modification) :
    (AllowedHistory s ms → debugHistory g ms = runHistory g ms) ∧
    (¬ AllowedHistory s ms → debugHistory g ms = .abort) := by
  induction ms generalizing g s with
  | nil => exact ⟨fun _ => rfl, fun hc => absurd trivial hc⟩
  | cons m r ih =>
    by_cases hm : m.Allowed s
    · obtain ⟨g1, h1, h2⟩ := refines_step h hm.valid
      simp only [AllowedHistory, hm, true_and, debugHistory, runHistory, (debugCall_iff h m).1 hm, h1, Outcome.bind_ok]
      exact ih h2
    · exact ⟨fun hc => absurd hc.1 hm, fun _ => by simp [debugHistory, (debugCall_iff h m).2 hm]⟩

/-- **C126.**  A history of calls on a new interface raises no assertion exactly if each call is allowed on the LP the calls
before it describe; then the interface holds that LP. -/
theorem C126_history (ms : List Modification) :
    (AllowedHistory LpSpec.empty ms → ∃ g, debugHistory {} ms = .ok g ∧ runHistory {} ms = .ok g ∧
      Shows g (ms.foldl Modification.effect LpSpec.empty)) ∧
    (¬ AllowedHistory LpSpec.empty ms → debugHistory {} ms = .abort) := by
  have h := debugHistory_iff (g := {}) Refines.init ms
  refine ⟨fun ha => ?_, h.2⟩
  obtain ⟨g, h1, h2⟩ := C44_faithful_store ms ha.valid
  exact ⟨g, (h.1 ha).trans h1, h1, h2⟩

/-- After every history of allowed calls, the functions that copy a column or a row raise no assertion at positions of the LP
and return its coefficients; at other positions they raise one. -/
theorem C126_sparse_getters (ms : List Modification) (g : Interface) (hg : debugHistory {} ms = .ok g) (i : Int) :
    (if 0 ≤ i ∧ i < (ms.foldl Modification.effect LpSpec.empty).numCols then
      ∃ v, debugGetSparseColumn g i = .ok v ∧ Ready v (ms.foldl Modification.effect LpSpec.empty).numRows ∧
        ∀ r < (ms.foldl Modification.effect LpSpec.empty).numRows,
          v.value r = (ms.foldl Modification.effect LpSpec.empty).coef r i.toNat
    else debugGetSparseColumn g i = .abort) ∧
    (if 0 ≤ i ∧ i < (ms.foldl Modification.effect LpSpec.empty).numRows then
      ∃ v, debugGetSparseRow g i = .ok v ∧ Ready v (ms.foldl Modification.effect LpSpec.empty).numCols ∧
        ∀ c < (ms.foldl Modification.effect LpSpec.empty).numCols,
          v.value c = (ms.foldl Modification.effect LpSpec.empty).coef i.toNat c
    else debugGetSparseRow g i = .abort) := by
  have ha : AllowedHistory LpSpec.empty ms := by
    by_contra hc
    rw [(C126_history ms).2 hc] at hg
    cases hg
  obtain ⟨g', h1, h2, h3⟩ := (C126_history ms).1 ha
  obtain rfl := Outcome.ok.inj (hg.symm.trans h1)
  generalize ms.foldl Modification.effect LpSpec.empty = s at h3
  have hr : g.lp.rows.length = s.numRows := by simpa [getNumberOfRows] using h3.numRows
  have hc : g.lp.cols.length = s.numCols := by simpa [getNumberOfColumns] using h3.numCols
  constructor
  · split
    · rename_i hi
      obtain ⟨n, rfl⟩ := Int.eq_ofNat_of_zero_le hi.1
      obtain ⟨v, h4, h5, h6, h7⟩ := h3.sparseCol n (by omega)
      exact ⟨v, by simp [debugGetSparseColumn, checkPosition_eq, hc, show n < s.numCols by omega, h4, h5, Outcome.check,
        Outcome.pure_eq], ⟨h5, h6⟩, h7⟩
    · rename_i hi
      simp only [debugGetSparseColumn, checkPosition_eq, hc, if_neg hi, Outcome.bind_abort]
  · split
    · rename_i hi
      obtain ⟨n, rfl⟩ := Int.eq_ofNat_of_zero_le hi.1
      obtain ⟨v, h4, h5, h6, h7⟩ := h3.sparseRow n (by omega)
      exact ⟨v, by simp [debugGetSparseRow, checkPosition_eq, hr, show n < s.numRows by omega, h4, h5, Outcome.check,
        Outcome.pure_eq], ⟨h5, h6⟩, h7⟩
    · rename_i hi
      simp only [debugGetSparseRow, checkPosition_eq, hr, if_neg hi, Outcome.bind_abort]

/-- Writing back the bounds or the sides just read leaves the LP as it is, provided the bounds are not the wrong infinity and
the sides are ordered. -/
theorem C126_write_back_partial (ms : List Modification) (g : Interface) (hg : debugHistory {} ms = .ok g) (lo up : Dbl) :
    (∀ c, getLowerBound g c = .ok lo → getUpperBound g c = .ok up → lo ≠ .pinf → up ≠ .ninf →
      ∃ g', debugSetColumnBounds g c lo up = .ok g' ∧ g'.lp = g.lp) ∧
    (∀ r, getLeftHandSide g r = .ok lo → getRightHandSide g r = .ok up → lo ≠ .pinf → up ≠ .ninf →
      Dbl.le lo up = true → ∃ g', debugSetRowSides g r lo up = .ok g' ∧ g'.lp = g.lp) := by
  constructor
  · intro c h1 h2 h3 h4
    by_cases hc : c < 0
    · simp [getLowerBound, column, hc] at h1
    · cases hx : g.lp.cols[c.toNat]? with
      | none => simp [getLowerBound, column, hc, hx] at h1
      | some x =>
        simp only [getLowerBound, column, hc, hx, if_false, Outcome.bind_ok, Outcome.pure_eq, Outcome.ok.injEq] at h1
        simp only [getUpperBound, column, hc, hx, if_false, Outcome.bind_ok, Outcome.pure_eq, Outcome.ok.injEq] at h2
        have hl : c.toNat < g.lp.cols.length := (List.getElem?_eq_some_iff.1 hx).1
        have hp : 0 ≤ c ∧ c < g.lp.cols.length := by omega
        refine ⟨_, by simp only [debugSetColumnBounds, checkPosition_eq, checkInfinite_eq, hp, h3, h4, ne_eq,
          not_false_eq_true, and_self, if_true, Outcome.bind_ok, setColumnBounds]; rfl, ?_⟩
        have : g.lp.cols.modify c.toNat (fun d => { d with lower := lo, upper := up }) = g.lp.cols := by
          apply List.ext_getElem?
          intro i
          rw [List.getElem?_modify]
          by_cases hi : c.toNat = i
          · subst hi; subst h1; subst h2; simp [hx]
          · simp [hi]
        simp [this]
  · intro c h1 h2 h3 h4 h5
    by_cases hc : c < 0
    · simp [getLeftHandSide, row, hc] at h1
    · cases hx : g.lp.rows[c.toNat]? with
      | none => simp [getLeftHandSide, row, hc, hx] at h1
      | some x =>
        simp only [getLeftHandSide, row, hc, hx, if_false, Outcome.bind_ok, Outcome.pure_eq, Outcome.ok.injEq] at h1
        simp only [getRightHandSide, row, hc, hx, if_false, Outcome.bind_ok, Outcome.pure_eq, Outcome.ok.injEq] at h2
        have hl : c.toNat < g.lp.rows.length := (List.getElem?_eq_some_iff.1 hx).1
        have hp : 0 ≤ c ∧ c < g.lp.rows.length := by omega
        refine ⟨_, by simp only [debugSetRowSides, checkPosition_eq, checkInfinite_eq, hp, h3, h4, h5, ne_eq,
          not_false_eq_true, and_self, if_true, Outcome.bind_ok, setRowSides, Outcome.check]; rfl, ?_⟩
        have : g.lp.rows.modify c.toNat (fun d => { d with lhs := lo, rhs := up }) = g.lp.rows := by
          apply List.ext_getElem?
          intro i
          rw [List.getElem?_modify]
          by_cases hi : c.toNat = i
          · subst hi; subst h1; subst h2; simp [hx]
          · simp [hi]
        simp [this]

/-- A row with crossing sides and a column whose lower bound is infinite. -/
def crossingHistory : List Modification :=
  [.addRow ⟨⟨[], false⟩, .fin 2, .fin 1, "a"⟩, .addColumn ⟨⟨[⟨0, 1⟩], false⟩, .pinf, .pinf, 0, "x"⟩]

/-- `AddRow` and `AddColumn` accept sides and bounds that `SetRowSides` and `SetColumnBounds` refuse: writing back what the
interface holds raises an assertion. -/
theorem C126_write_back_violated :
    ∃ g, debugHistory {} crossingHistory = .ok g ∧
      getLeftHandSide g 0 = .ok (.fin 2) ∧ getRightHandSide g 0 = .ok (.fin 1) ∧
      debugSetRowSides g 0 (.fin 2) (.fin 1) = .abort ∧ (∃ g', setRowSides g 0 (.fin 2) (.fin 1) = .ok g') ∧
      getLowerBound g 0 = .ok .pinf ∧ getUpperBound g 0 = .ok .pinf ∧
      debugSetColumnBounds g 0 .pinf .pinf = .abort ∧ ∃ g', setColumnBounds g 0 .pinf .pinf = .ok g' := by
  refine ⟨_, by rfl, by rfl, by rfl, by rfl, ⟨_, rfl⟩, by rfl, by rfl, by rfl, ⟨_, rfl⟩⟩

/-- A history of allowed calls with rows, columns, new bounds, new sides and deletions. -/
example : AllowedHistory LpSpec.empty
    [.addRow ⟨⟨[], false⟩, .fin 0, .pinf, "a"⟩,
     .addRow ⟨⟨[], false⟩, .ninf, .fin 4, "b"⟩,
     .addColumns [⟨⟨[⟨0, 1⟩, ⟨1, 2⟩], false⟩, .fin 0, .fin 3, 1, "x"⟩,
       ⟨⟨[⟨1, -1⟩], false⟩, .fin 0, .pinf, 2, "y"⟩],
     .addRow ⟨⟨[⟨0, 5⟩, ⟨1, 7⟩], false⟩, .fin 1, .fin 1, "c"⟩,
     .setColumnBounds 1 (.fin 2) (.fin 9),
     .setRowSides 2 (.fin 0) .pinf,
     .deleteRowSet [true, false, false],
     .deleteColumns 0 0] := by
  simp [AllowedHistory, Modification.Allowed, Modification.effect, LpSpec.empty, LpSpec.addRow, LpSpec.addColumn,
    LpSpec.removeRows, Ready, FitsIn, Clean, Dbl.le]

/-- A history that is not allowed: an empty range of rows. -/
example : ¬ AllowedHistory LpSpec.empty [.addRow ⟨⟨[], false⟩, .fin 0, .pinf, "a"⟩, .deleteRows 0 (-1)] := by
  simp [AllowedHistory, Modification.Allowed]

end Glop
end MiniMip
