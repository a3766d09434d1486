import Verif.Model.DebugSoplexStore
import Verif.Props.DebugStore
import Verif.Props.SoplexStore

/-!
# Property C127: modifying and reading the LP of the SoPlex interface in the build with assertions
-/

namespace MiniMip
namespace Soplex

open Glop (LinearProgram NewColumn NewRow LpSpec Modification FitsIn Refines Ready checkRange checkPosition
  checkRange_eq checkPosition_eq)
open SparseVector

/-- The call in the build with assertions. -/
def debugCall (inf eps : ℚ) (g : Interface) : Modification → Outcome Interface
  | .addColumn c => debugAddColumn inf g c
  | .addColumns cs => debugAddColumns inf g cs
  | .addRow r => debugAddRow inf g r
  | .addRows rs => debugAddRows g rs
  | .deleteColumns f l => debugDeleteColumns g f l
  | .deleteRows f l => debugDeleteRows g f l
  | .deleteRowSet mask => do return (← deleteRowSet g mask).1
  | .setColumnBounds c lo up => debugSetColumnBounds inf eps g c lo up
  | .setRowSides r lo up => debugSetRowSides inf eps g r lo up
  | .setObjectiveSense b => setObjectiveSense g b
  | .setObjectiveCoefficient c x => debugSetObjectiveCoefficient inf g c x
  | .clear => clear g

/-- The calls, one after the other, in the build with assertions. -/
def debugHistory (inf eps : ℚ) : Interface → List Modification → Outcome Interface
  | g, [] => .ok g
  | g, m :: r => do debugHistory inf eps (← debugCall inf eps g m) r

/-- All values of the vector are finite for SoPlex. -/
def Finite (inf : ℚ) (v : SparseVector) : Prop := ∀ e ∈ v.entries, |e.value| < inf

/-- A pair of bounds or sides that SoPlex can store: neither is the wrong infinity, and they are ordered up to `eps`. -/
def Ordered (inf eps : ℚ) (lo up : Dbl) : Prop :=
  (Dbl.le (.fin inf) lo = false ∧ Dbl.le (.fin inf) up.neg = false) ∧ Dbl.le lo (up.add (.fin eps)) = true

/-- What the build with assertions should accept, in terms of the LP described so far. -/
def Allowed (inf eps : ℚ) (s : LpSpec) : Modification → Prop
  | .addColumn c => Ready c.col s.numRows ∧ Finite inf c.col
  | .addColumns cs => ∀ c ∈ cs, Ready c.col s.numRows ∧ Finite inf c.col
  | .addRow r => Ready r.row s.numCols ∧ Finite inf r.row
  | .addRows rs => ∀ r ∈ rs, Ready r.row s.numCols
  | .deleteColumns f l => 0 ≤ f ∧ f ≤ l ∧ l < s.numCols
  | .deleteRows f l => 0 ≤ f ∧ f ≤ l ∧ l < s.numRows
  | .deleteRowSet mask => mask.length = s.numRows
  | .setColumnBounds c lo up => (0 ≤ c ∧ c < s.numCols) ∧ Ordered inf eps lo up
  | .setRowSides r lo up => (0 ≤ r ∧ r < s.numRows) ∧ Ordered inf eps lo up
  | .setObjectiveSense _ => True
  | .setObjectiveCoefficient c x => (0 ≤ c ∧ c < s.numCols) ∧ |x| < inf
  | .clear => True

/-- Every call of the history is allowed when it is made. -/
def AllowedHistory (inf eps : ℚ) : LpSpec → List Modification → Prop
  | _, [] => True
  | s, m :: r => Allowed inf eps s m ∧ AllowedHistory inf eps (effect s m) r

/-- The two calls without assertions on their positions are made with positions of the LP. -/
def Careful (s : LpSpec) : Modification → Prop
  | .deleteRowSet mask => mask.length = s.numRows
  | .setObjectiveCoefficient c _ => 0 ≤ c ∧ c < s.numCols
  | _ => True

/-- Every call of the history is careful when it is made. -/
def CarefulHistory : LpSpec → List Modification → Prop
  | _, [] => True
  | s, m :: r => Careful s m ∧ CarefulHistory (effect s m) r

theorem Allowed.valid {inf eps : ℚ} {s : LpSpec} {m : Modification} (h : Allowed inf eps s m) : m.Valid s := by
  cases m with
  | addColumn c => exact h.1.2
  | addColumns cs => exact fun c hc => (h c hc).1.2
  | addRow r => exact h.1.2
  | addRows rs => exact fun r hr => (h r hr).2
  | setColumnBounds c lo up => exact h.1
  | setRowSides r lo up => exact h.1
  | setObjectiveCoefficient c x => exact h.1
  | _ => exact h

theorem AllowedHistory.valid {inf eps : ℚ} {s : LpSpec} {ms : List Modification} (h : AllowedHistory inf eps s ms) :
    ValidHistory s ms := by
  induction ms generalizing s with
  | nil => trivial
  | cons m r ih => exact ⟨h.1.valid, ih h.2⟩

theorem checkEntries_iff (n : Nat) (v : SparseVector) :
    (Ready v n → checkEntries n v = .ok v.entries) ∧ (¬ Ready v n → checkEntries n v = .abort) := by
  have hclean := SparseVector.isClean_iff_clean v
  constructor
  · rintro ⟨h1, h2, h3⟩
    have hi : indicesBelow n v.entries = true := by
      simp only [indicesBelow, List.all_eq_true, Bool.and_eq_true, decide_eq_true_eq]
      exact fun e he => ⟨(h2.2 e he).2, h3 e he⟩
    have hz : (v.entries.all fun e => decide (e.value ≠ 0)) = true := by
      simp only [List.all_eq_true, decide_eq_true_eq]
      exact fun e he => (h2.2 e he).1
    simp only [checkEntries, SparseVector.debugEntries, SparseVector.mayNeedCleaning, h1, hclean.2 h2, hi, hz,
      Outcome.check, Outcome.pure_eq, Outcome.bind_ok, Bool.true_or, Bool.not_false, if_true]
  · intro h
    cases hd : v.dirty with
    | true => simp [checkEntries, SparseVector.debugEntries, SparseVector.mayNeedCleaning, hd, Outcome.check]
    | false =>
      by_cases hc : Clean v.entries
      · have hz : (v.entries.all fun e => decide (e.value ≠ 0)) = true := by
          simp only [List.all_eq_true, decide_eq_true_eq]
          exact fun e he => (hc.2 e he).1
        have hi : indicesBelow n v.entries = false := by
          rw [Bool.eq_false_iff]
          intro hi
          simp only [indicesBelow, List.all_eq_true, Bool.and_eq_true, decide_eq_true_eq] at hi
          exact h ⟨hd, hc, fun e he => (hi e he).2⟩
        simp only [checkEntries, SparseVector.debugEntries, SparseVector.mayNeedCleaning, hd, hclean.2 hc, hz, hi,
          Outcome.check, Outcome.pure_eq, Outcome.bind_ok, Outcome.bind_abort, Bool.true_or, Bool.not_false, if_true,
          Bool.false_eq_true, if_false]
      · have : v.isClean = false := by rw [Bool.eq_false_iff]; exact fun h => hc (hclean.1 h)
        simp [checkEntries, SparseVector.debugEntries, this, hd, Outcome.check]

theorem checkColumn_iff (inf : ℚ) (n : Nat) (v : SparseVector) :
    (Ready v n ∧ Finite inf v → checkColumn inf n v = .ok ()) ∧
    (¬ (Ready v n ∧ Finite inf v) → checkColumn inf n v = .abort) := by
  have hb : valuesBelow inf v.entries = true ↔ Finite inf v := by
    simp only [valuesBelow, List.all_eq_true, decide_eq_true_eq, Finite]
  constructor
  · rintro ⟨h1, h2⟩
    simp [checkColumn, (checkEntries_iff n v).1 h1, hb.2 h2, Outcome.check]
  · intro h
    by_cases h1 : Ready v n
    · have : valuesBelow inf v.entries = false := by
        rw [Bool.eq_false_iff]
        exact fun h2 => h ⟨h1, hb.1 h2⟩
      simp [checkColumn, (checkEntries_iff n v).1 h1, this, Outcome.check]
    · simp [checkColumn, (checkEntries_iff n v).2 h1]

theorem checkNewColumns_iff (inf : ℚ) (n : Nat) (cs : List NewColumn) :
    ((∀ c ∈ cs, Ready c.col n ∧ Finite inf c.col) → checkNewColumns inf n cs = .ok ()) ∧
    (¬ (∀ c ∈ cs, Ready c.col n ∧ Finite inf c.col) → checkNewColumns inf n cs = .abort) := by
  induction cs with
  | nil => simp [checkNewColumns]
  | cons c r ih =>
    by_cases hc : Ready c.col n ∧ Finite inf c.col
    · simp only [List.forall_mem_cons, checkNewColumns, (checkColumn_iff inf n c.col).1 hc, Outcome.bind_ok, hc, true_and]
      simpa using ih
    · simp only [List.forall_mem_cons, checkNewColumns, (checkColumn_iff inf n c.col).2 hc, Outcome.bind_abort]
      exact ⟨fun h => absurd h.1 hc, fun _ => trivial⟩

theorem checkNewRows_iff (n : Nat) (rs : List NewRow) :
    ((∀ r ∈ rs, Ready r.row n) → checkNewRows n rs = .ok ()) ∧
    (¬ (∀ r ∈ rs, Ready r.row n) → checkNewRows n rs = .abort) := by
  induction rs with
  | nil => simp [checkNewRows]
  | cons c r ih =>
    by_cases hc : Ready c.row n
    · simp only [List.forall_mem_cons, checkNewRows, (checkEntries_iff n c.row).1 hc, Outcome.bind_ok, hc, true_and]
      exact ih
    · simp only [List.forall_mem_cons, checkNewRows, (checkEntries_iff n c.row).2 hc, Outcome.bind_abort]
      exact ⟨fun h => absurd h.1 hc, fun _ => trivial⟩

theorem checkInfinite_eq (inf : ℚ) (lo up : Dbl) :
    checkInfinite inf lo up =
      if Dbl.le (.fin inf) lo = false ∧ Dbl.le (.fin inf) up.neg = false then .ok () else .abort := by
  cases h1 : Dbl.le (.fin inf) lo <;> cases h2 : Dbl.le (.fin inf) up.neg <;> simp [checkInfinite, Outcome.check, h1, h2]

/-- One call: allowed means no assertion fails; a careful call that is not allowed raises one. -/
theorem debugCall_iff (inf eps : ℚ) {g : Interface} {s : LpSpec} (hf : freed g = true) (h : Refines g.lp s)
    (m : Modification) :
    (Allowed inf eps s m → debugCall inf eps g m = call g m) ∧
    (Careful s m → ¬ Allowed inf eps s m → debugCall inf eps g m = .abort) := by
  cases m with
  | addColumn c =>
    have := checkColumn_iff inf s.numRows c.col
    refine ⟨fun hc => ?_, fun _ hc => ?_⟩
    · simp only [debugCall, call, debugAddColumn, h.numRows, this.1 hc, Outcome.bind_ok]
    · simp only [debugCall, debugAddColumn, h.numRows, this.2 hc, Outcome.bind_abort]
  | addColumns cs =>
    have := checkNewColumns_iff inf s.numRows cs
    refine ⟨fun hc => ?_, fun _ hc => ?_⟩
    · simp only [debugCall, call, debugAddColumns, h.numRows, this.1 hc, hf, Outcome.check, if_true, Outcome.bind_ok]
    · simp only [debugCall, debugAddColumns, h.numRows, this.2 hc, hf, Outcome.check, if_true, Outcome.bind_ok,
        Outcome.bind_abort]
  | addRow r =>
    have := C122_add_row inf g r
    rw [h.numCols] at this
    refine ⟨fun hc => this.1 ⟨hc.1.1, hc.1.2.1, fun e he => ⟨hc.1.2.2 e he, hc.2 e he⟩⟩, fun _ hc => this.2 fun hc' =>
      hc ⟨⟨hc'.1, hc'.2.1, fun e he => (hc'.2.2 e he).1⟩, fun e he => (hc'.2.2 e he).2⟩⟩
  | addRows rs =>
    have := checkNewRows_iff s.numCols rs
    refine ⟨fun hc => ?_, fun _ hc => ?_⟩
    · simp only [debugCall, call, debugAddRows, h.numCols, this.1 hc, hf, Outcome.check, if_true, Outcome.bind_ok]
    · simp only [debugCall, debugAddRows, h.numCols, this.2 hc, hf, Outcome.check, if_true, Outcome.bind_ok,
        Outcome.bind_abort]
  | deleteColumns f l =>
    simp only [Allowed, debugCall, call, debugDeleteColumns, checkRange_eq, h.numCols]
    exact ⟨fun hc => by rw [if_pos hc]; rfl, fun _ hc => by rw [if_neg hc]; rfl⟩
  | deleteRows f l =>
    simp only [Allowed, debugCall, call, debugDeleteRows, checkRange_eq, h.numRows]
    exact ⟨fun hc => by rw [if_pos hc]; rfl, fun _ hc => by rw [if_neg hc]; rfl⟩
  | deleteRowSet mask => exact ⟨fun _ => rfl, fun h1 h2 => absurd h1 h2⟩
  | setColumnBounds c lo up =>
    simp only [Allowed, Ordered, debugCall, call, debugSetColumnBounds, checkInfinite_eq, setColumnBounds, hf, h.numCols]
    by_cases h1 : 0 ≤ c <;> by_cases h2 : c < s.numCols <;>
      by_cases h3 : Dbl.le (.fin inf) lo = false ∧ Dbl.le (.fin inf) up.neg = false <;>
      cases h4 : Dbl.le lo (up.add (.fin eps)) <;> simp [h1, h2, h3, Outcome.check]
  | setRowSides r lo up =>
    simp only [Allowed, Ordered, debugCall, call, debugSetRowSides, checkPosition_eq, checkInfinite_eq, setRowSides, hf,
      h.numRows]
    by_cases h1 : 0 ≤ r ∧ r < s.numRows <;>
      by_cases h3 : Dbl.le (.fin inf) lo = false ∧ Dbl.le (.fin inf) up.neg = false <;>
      cases h4 : Dbl.le lo (up.add (.fin eps)) <;> simp [h1, h3, Outcome.check]
  | setObjectiveSense b => exact ⟨fun _ => rfl, fun _ hc => absurd trivial hc⟩
  | setObjectiveCoefficient c x =>
    simp only [Allowed, Careful, debugCall, call, debugSetObjectiveCoefficient]
    refine ⟨fun hc => by simp [hc.2, Outcome.check], fun h1 h2 => ?_⟩
    have : ¬ |x| < inf := fun h3 => h2 ⟨h1, h3⟩
    simp [this, Outcome.check]
  | clear => exact ⟨fun _ => rfl, fun _ hc => absurd trivial hc⟩

theorem debugHistory_iff (inf eps : ℚ) {g : Interface} {s : LpSpec} (hf : freed g = true) (h : Refines g.lp s)
    (ms : List Modification) :
    (AllowedHistory inf eps s ms → debugHistory inf eps g ms = runHistory g ms) ∧
    (CarefulHistory s ms → ¬ AllowedHistory inf eps s ms → debugHistory inf eps g ms = .abort) := by
  induction ms generalizing g s with
  | nil => exact ⟨fun _ => rfl, fun _ hc => absurd trivial hc⟩
  | cons m r ih =>
    by_cases hm : Allowed inf eps s m
    · obtain ⟨g1, h1, h1f, h2⟩ := refines_step hf h hm.valid
      have := ih h1f h2
      simp only [AllowedHistory, CarefulHistory, hm, true_and, debugHistory, runHistory,
        (debugCall_iff inf eps hf h m).1 hm, h1, Outcome.bind_ok]
      exact ⟨this.1, fun hc => this.2 hc.2⟩
    · exact ⟨fun hc => absurd hc.1 hm,
        fun hc _ => by simp [debugHistory, (debugCall_iff inf eps hf h m).2 hc.1 hm]⟩

/-- **C127**, partial: `DeleteRowSet` with a mask of the number of rows, `SetObjectiveCoefficient` with a column of the LP
(`CarefulHistory`).  For every order in which SoPlex hands out non-zeros, a history of calls on an empty interface outside strong
branching raises no assertion exactly if each call is allowed on the LP the calls before it describe; then the interface
holds that LP. -/
theorem C127_history_partial (inf eps : ℚ) (order : List Entry → List Entry) (ho : ∀ l, (order l).Perm l)
    (g : Interface) (hf : freed g = true) (hr : g.lp.rows = []) (hc : g.lp.cols = []) (ms : List Modification) :
    (AllowedHistory inf eps { LpSpec.empty with maximize := isMaximization g } ms →
      ∃ g', debugHistory inf eps g ms = .ok g' ∧ runHistory g ms = .ok g' ∧
        Shows order g' (ms.foldl effect { LpSpec.empty with maximize := isMaximization g })) ∧
    (CarefulHistory { LpSpec.empty with maximize := isMaximization g } ms →
      ¬ AllowedHistory inf eps { LpSpec.empty with maximize := isMaximization g } ms →
      debugHistory inf eps g ms = .abort) := by
  have h0 : Refines g.lp { LpSpec.empty with maximize := isMaximization g } :=
    ⟨by simp [hr, LpSpec.empty], by simp [hc, LpSpec.empty], rfl, by simp [hc], by simp [hr]⟩
  have h := debugHistory_iff inf eps hf h0 ms
  refine ⟨fun ha => ?_, h.2⟩
  obtain ⟨g', h1, h2⟩ := C44_faithful_store_partial order ho g hf hr hc ms ha.valid
  exact ⟨g', (h.1 ha).trans h1, h1, h2⟩

/-- On an interface that holds the LP `s`, the functions that read bounds, sides, objective and coefficients return them at
positions of the LP and raise an assertion at all others. -/
theorem C127_getters (order : List Entry → List Entry) (g : Interface) (s : LpSpec) (hs : Shows order g s) (c r : Int) :
    (debugGetLowerBound g c = if 0 ≤ c ∧ c < s.numCols then .ok (s.lower c.toNat) else .abort) ∧
    (debugGetUpperBound g c = if 0 ≤ c ∧ c < s.numCols then .ok (s.upper c.toNat) else .abort) ∧
    (debugGetObjectiveCoefficient g c = if 0 ≤ c ∧ c < s.numCols then .ok (s.objective c.toNat) else .abort) ∧
    (debugGetLeftHandSide g r = if 0 ≤ r ∧ r < s.numRows then .ok (s.lhs r.toNat) else .abort) ∧
    (debugGetRightHandSide g r = if 0 ≤ r ∧ r < s.numRows then .ok (s.rhs r.toNat) else .abort) ∧
    (debugGetMatrixCoefficient g c r = if (0 ≤ c ∧ c < s.numCols) ∧ 0 ≤ r ∧ r < s.numRows then
      .ok (s.coef r.toNat c.toNat) else .abort) := by
  have hr : g.lp.rows.length = s.numRows := by simpa [getNumberOfRows] using hs.numRows
  have hc : g.lp.cols.length = s.numCols := by simpa [getNumberOfColumns] using hs.numCols
  simp only [debugGetLowerBound, debugGetUpperBound, debugGetObjectiveCoefficient, debugGetLeftHandSide,
    debugGetRightHandSide, debugGetMatrixCoefficient, checkPosition_eq, hr, hc]
  by_cases h1 : 0 ≤ c ∧ c < s.numCols <;> by_cases h2 : 0 ≤ r ∧ r < s.numRows <;>
    simp only [h1, h2, if_true, if_false, Outcome.bind_ok, Outcome.bind_abort, and_self, and_true, true_and, and_false, false_and]
  · obtain ⟨n, rfl⟩ := Int.eq_ofNat_of_zero_le h1.1
    obtain ⟨k, rfl⟩ := Int.eq_ofNat_of_zero_le h2.1
    exact ⟨hs.lower n (by omega), hs.upper n (by omega), hs.objective n (by omega), hs.lhs k (by omega),
      hs.rhs k (by omega), hs.coef k (by omega) n (by omega)⟩
  · obtain ⟨n, rfl⟩ := Int.eq_ofNat_of_zero_le h1.1
    exact ⟨hs.lower n (by omega), hs.upper n (by omega), hs.objective n (by omega)⟩
  · obtain ⟨k, rfl⟩ := Int.eq_ofNat_of_zero_le h2.1
    exact ⟨hs.lhs k (by omega), hs.rhs k (by omega)⟩

/-- On such an interface, copying a column or a row raises an assertion exactly at other positions; a column is returned clean,
a row may have to be cleaned. -/
theorem C127_sparse_getters_partial (order : List Entry → List Entry) (g : Interface) (s : LpSpec) (hs : Shows order g s)
    (i : Int) :
    (if 0 ≤ i ∧ i < s.numCols then ∃ v, debugGetSparseColumn order g i = .ok v ∧ Ready v s.numRows ∧
        ∀ r < s.numRows, v.value r = s.coef r i.toNat
      else debugGetSparseColumn order g i = .abort) ∧
    (if 0 ≤ i ∧ i < s.numRows then ∃ v, debugGetSparseRow order g i = .ok v ∧ FitsIn v.cleanUpIfNeeded s.numCols ∧
        ∀ c < s.numCols, v.cleanUpIfNeeded.value c = s.coef i.toNat c
      else debugGetSparseRow order g i = .abort) := by
  have hr : g.lp.rows.length = s.numRows := by simpa [getNumberOfRows] using hs.numRows
  have hc : g.lp.cols.length = s.numCols := by simpa [getNumberOfColumns] using hs.numCols
  simp only [debugGetSparseColumn, debugGetSparseRow, checkPosition_eq, hr, hc]
  constructor
  · split
    · rename_i hi
      obtain ⟨n, rfl⟩ := Int.eq_ofNat_of_zero_le hi.1
      obtain ⟨v, h4, h5, h6, h7⟩ := hs.sparseCol n (by omega)
      exact ⟨v, by rw [Outcome.bind_ok]; exact h4, ⟨h5, h6⟩, h7⟩
    · rfl
  · split
    · rename_i hi
      obtain ⟨n, rfl⟩ := Int.eq_ofNat_of_zero_le hi.1
      obtain ⟨v, h4, h5, h6⟩ := hs.sparseRow n (by omega)
      exact ⟨v, by rw [Outcome.bind_ok]; exact h4, h5, h6⟩
    · rfl

/-- `DeleteRowSet` has no assertion on its mask: with fewer marks than rows the behaviour is undefined in the build with
assertions as well, on every interface. -/
theorem C127_delete_row_set_violated (inf eps : ℚ) (g : Interface) (hf : freed g = true) (mask : List Bool)
    (hm : mask.length < g.lp.rows.length) : debugCall inf eps g (.deleteRowSet mask) = .ub := by
  simp [debugCall, deleteRowSet, hf, Outcome.check, deletionStatus, hm]

/-- `SetObjectiveCoefficient` has no assertion on its column: at every other column the behaviour is undefined in the build
with assertions as well. -/
theorem C127_objective_violated (inf eps : ℚ) (g : Interface) (hf : freed g = true) (c : Int) (x : ℚ) (hx : |x| < inf)
    (hc : ¬ (0 ≤ c ∧ c < g.lp.cols.length)) : debugCall inf eps g (.setObjectiveCoefficient c x) = .ub := by
  simp only [debugCall, debugSetObjectiveCoefficient, setObjectiveCoefficient, hx, hf, Outcome.check, decide_true, if_true,
    Outcome.bind_ok, if_neg hc]

/-- `AddRows` accepts a coefficient that is infinite for SoPlex, which `AddRow` refuses. -/
theorem C127_infinite_row_violated (inf eps : ℚ) (hi : 0 < inf) (g : Interface) (hf : freed g = true) (c : Glop.Column)
    (hc : g.lp.cols = [c]) :
    debugCall inf eps g (.addRow ⟨⟨[⟨0, inf⟩], false⟩, .ninf, .fin 1, ""⟩) = .abort ∧
    ∃ g', debugCall inf eps g (.addRows [⟨⟨[⟨0, inf⟩], false⟩, .ninf, .fin 1, ""⟩]) = .ok g' := by
  have hR : Ready ⟨[⟨0, inf⟩], false⟩ g.lp.cols.length := by
    rw [hc]
    refine ⟨rfl, ⟨by simp, ?_⟩, ?_⟩
    · simpa using hi.ne'
    · simp
  constructor
  · refine (C122_add_row inf g _).2 fun h => ?_
    have := (h.2.2 ⟨0, inf⟩ (by simp)).2
    rw [abs_of_pos hi] at this
    exact lt_irrefl _ this
  · refine ⟨{ g with isSolved := false, lp := { g.lp with
      rows := g.lp.rows ++ [⟨.ninf, .fin 1, ""⟩]
      cols := [{ c with entries := c.entries ++ [⟨g.lp.rows.length, inf⟩] }] } }, ?_⟩
    simp only [debugCall, debugAddRows, hf, Outcome.check, if_true, Outcome.bind_ok,
      (checkNewRows_iff g.lp.cols.length [⟨⟨[⟨0, inf⟩], false⟩, .ninf, .fin 1, ""⟩]).1 (by simpa using hR), addRows]
    simp [addRowsReal, addRowReal, Glop.setRow, Glop.LinearProgram.setCoefficient, hc]

/-- A history of allowed calls on an interface that meets the hypotheses. -/
example : AllowedHistory (10 ^ 100) (1 / 10 ^ 16) { LpSpec.empty with maximize := false }
    [.addRow ⟨⟨[], false⟩, .fin 0, .pinf, "a"⟩,
     .addRow ⟨⟨[], false⟩, .ninf, .fin 4, "b"⟩,
     .addColumns [⟨⟨[⟨0, 1⟩, ⟨1, 2⟩], false⟩, .fin 0, .fin 3, 1, "x"⟩,
       ⟨⟨[⟨1, -1⟩], false⟩, .fin 0, .pinf, 2, "y"⟩],
     .addRow ⟨⟨[⟨0, 5⟩, ⟨1, 7⟩], false⟩, .fin 1, .fin 1, "c"⟩,
     .setColumnBounds 1 (.fin 2) (.fin 9),
     .setRowSides 2 (.fin 0) .pinf,
     .deleteRowSet [true, false, false],
     .deleteColumns 0 0] := by
  simp [AllowedHistory, Allowed, effect, Modification.effect, LpSpec.empty, LpSpec.addRow, LpSpec.addColumn,
    LpSpec.removeRows, Ready, FitsIn, Clean, Dbl.le, Dbl.neg, Dbl.add, Ordered, Finite]
  norm_num

example : freed { settings := initialSettings } = true := rfl

/-- An interface with one row and one column meets the hypotheses of the three violations. -/
example : ∃ g : Interface, freed g = true ∧ ([] : List Bool).length < g.lp.rows.length ∧
    ¬ ((0 : Int) ≤ 1 ∧ (1 : Int) < g.lp.cols.length) ∧ ∃ c, g.lp.cols = [c] :=
  ⟨{ settings := initialSettings, lp := { rows := [⟨.fin 0, .fin 1, ""⟩], cols := [⟨.fin 0, .fin 1, 0, "", []⟩] } }, rfl,
    by simp, by simp, _, rfl⟩

/-- A careful history that is not allowed: crossing bounds. -/
example : CarefulHistory LpSpec.empty [.addColumn ⟨⟨[], false⟩, .fin 0, .fin 3, 1, "x"⟩, .setColumnBounds 0 (.fin 2) (.fin 1)] ∧
    ¬ AllowedHistory (10 ^ 100) (1 / 10 ^ 16) LpSpec.empty
      [.addColumn ⟨⟨[], false⟩, .fin 0, .fin 3, 1, "x"⟩, .setColumnBounds 0 (.fin 2) (.fin 1)] := by
  refine ⟨by simp [CarefulHistory, Careful], ?_⟩
  simp [AllowedHistory, Allowed, Ordered, Dbl.le, Dbl.add]
  norm_num

end Soplex
end MiniMip
