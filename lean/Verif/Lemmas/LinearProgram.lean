import Verif.Props.Populate

/-!
# The meaning of a stored linear program
-/

namespace MiniMip
namespace Glop

open SparseVector

/-- The coefficient of row `r` in a stored column: the sum of the entries with that index. -/
def LinearProgram.coefficient (lp : LinearProgram) (r c : Nat) : ℚ :=
  sumAt ((lp.cols[c]?.map (·.entries)).getD []) r

/-- The activity of a row. -/
def LinearProgram.activity (lp : LinearProgram) (r : Nat) (x : Int → ℚ) : ℚ :=
  ∑ c ∈ Finset.range lp.cols.length, lp.coefficient r c * x c

/-- The points that satisfy the bounds and the rows. -/
def LinearProgram.Feasible (lp : LinearProgram) (x : Int → ℚ) : Prop :=
  (∀ (c : Nat) (col : Column), lp.cols[c]? = some col → Between col.lower (x c) col.upper) ∧
  ∀ (r : Nat) (row : Row), lp.rows[r]? = some row → Between row.lhs (lp.activity r x) row.rhs

/-- The objective. -/
def LinearProgram.value (lp : LinearProgram) (x : Int → ℚ) : ℚ :=
  ∑ c ∈ Finset.range lp.cols.length, ((lp.cols[c]?.map (·.objective)).getD 0) * x c

theorem Refines.coefficient {lp : LinearProgram} {s : LpSpec} (h : Refines lp s) {r c : Nat}
    (hr : r < s.numRows) (hc : c < s.numCols) : lp.coefficient r c = s.coef r c := by
  have hc' : c < lp.cols.length := by rw [h.numCols]; exact hc
  have hcol := h.cols c _ (List.getElem?_eq_getElem hc')
  rw [LinearProgram.coefficient, List.getElem?_eq_getElem hc', Option.map_some, Option.getD_some,
    ← valueAt_eq_sumAt hcol.clean.1, hcol.coef r hr]

theorem Refines.activity {lp : LinearProgram} {s : LpSpec} (h : Refines lp s) {r : Nat}
    (hr : r < s.numRows) (x : Int → ℚ) :
    lp.activity r x = ∑ c ∈ Finset.range s.numCols, s.coef r c * x c := by
  rw [LinearProgram.activity, h.numCols]
  exact Finset.sum_congr rfl fun c hc => by rw [h.coefficient hr (Finset.mem_range.mp hc)]

theorem Refines.feasible {lp : LinearProgram} {s : LpSpec} (h : Refines lp s) (x : Int → ℚ) :
    lp.Feasible x ↔ s.Feasible x := by
  constructor
  · rintro ⟨h1, h2⟩
    constructor
    · intro c hc
      have hc' : c < lp.cols.length := by rw [h.numCols]; exact hc
      have hcol := h.cols c _ (List.getElem?_eq_getElem hc')
      rw [← hcol.lower, ← hcol.upper]
      exact h1 c _ (List.getElem?_eq_getElem hc')
    · intro r hr
      have hr' : r < lp.rows.length := by rw [h.numRows]; exact hr
      have hrow := h.rows r _ (List.getElem?_eq_getElem hr')
      rw [← hrow.1, ← hrow.2, ← h.activity hr]
      exact h2 r _ (List.getElem?_eq_getElem hr')
  · rintro ⟨h1, h2⟩
    constructor
    · intro c col hc
      have hc' : c < s.numCols := by rw [← h.numCols]; exact (List.getElem?_eq_some_iff.mp hc).1
      have hcol := h.cols c col hc
      rw [hcol.lower, hcol.upper]
      exact h1 c hc'
    · intro r row hr
      have hr' : r < s.numRows := by rw [← h.numRows]; exact (List.getElem?_eq_some_iff.mp hr).1
      have hrow := h.rows r row hr
      rw [hrow.1, hrow.2, h.activity hr']
      exact h2 r hr'

theorem Refines.value {lp : LinearProgram} {s : LpSpec} (h : Refines lp s) (x : Int → ℚ) :
    lp.value x = s.value x := by
  rw [LinearProgram.value, LpSpec.value, h.numCols]
  refine Finset.sum_congr rfl fun c hc => ?_
  have hc' : c < lp.cols.length := by rw [h.numCols]; exact Finset.mem_range.mp hc
  have hcol := h.cols c _ (List.getElem?_eq_getElem hc')
  rw [List.getElem?_eq_getElem hc', Option.map_some, Option.getD_some, hcol.objective]

/-- Only the values of the columns matter. -/
theorem LinearProgram.congr (lp : LinearProgram) {x y : Int → ℚ}
    (h : ∀ c < lp.cols.length, x c = y c) :
    (lp.Feasible x ↔ lp.Feasible y) ∧ lp.value x = lp.value y ∧ ∀ r, lp.activity r x = lp.activity r y := by
  have ha : ∀ r, lp.activity r x = lp.activity r y := fun r =>
    Finset.sum_congr rfl fun c hc => by rw [h c (Finset.mem_range.mp hc)]
  refine ⟨?_, Finset.sum_congr rfl fun c hc => by rw [h c (Finset.mem_range.mp hc)], ha⟩
  unfold LinearProgram.Feasible
  simp only [ha]
  refine and_congr_left fun _ => ?_
  refine forall_congr' fun c => forall_congr' fun col => ?_
  refine forall_congr' fun hc => ?_
  rw [h c (List.getElem?_eq_some_iff.mp hc).1]

/-! ### Changing bounds and adding rows -/

/-- `lp` is `lp₀` with other bounds and more rows. -/
structure Extends (lp₀ lp : LinearProgram) : Prop where
  rows : ∃ extra, lp.rows = lp₀.rows ++ extra
  sense : lp.maximize = lp₀.maximize
  numCols : lp.cols.length = lp₀.cols.length
  objective : ∀ (c : Nat) (a b : Column), lp₀.cols[c]? = some a → lp.cols[c]? = some b →
    b.objective = a.objective
  entries : ∀ r < lp₀.rows.length, ∀ c, lp.coefficient r c = lp₀.coefficient r c

theorem Extends.refl (lp : LinearProgram) : Extends lp lp :=
  ⟨⟨[], by simp⟩, rfl, rfl, fun c a b ha hb => by rw [ha] at hb; cases hb; rfl, fun _ _ _ => rfl⟩

theorem Extends.value {lp₀ lp : LinearProgram} (h : Extends lp₀ lp) (x : Int → ℚ) :
    lp.value x = lp₀.value x := by
  rw [LinearProgram.value, LinearProgram.value, h.numCols]
  refine Finset.sum_congr rfl fun c hc => ?_
  have h0 : c < lp₀.cols.length := Finset.mem_range.mp hc
  have h1 : c < lp.cols.length := by rw [h.numCols]; exact h0
  have := h.objective c _ _ (List.getElem?_eq_getElem h0) (List.getElem?_eq_getElem h1)
  rw [List.getElem?_eq_getElem h0, List.getElem?_eq_getElem h1]
  simp [this]

theorem Extends.activity {lp₀ lp : LinearProgram} (h : Extends lp₀ lp) {r : Nat}
    (hr : r < lp₀.rows.length) (x : Int → ℚ) : lp.activity r x = lp₀.activity r x := by
  rw [LinearProgram.activity, LinearProgram.activity, h.numCols]
  exact Finset.sum_congr rfl fun c _ => by rw [h.entries r hr c]

/-- A point of the extended program satisfies the rows of the first one. -/
theorem Extends.holds {lp₀ lp : LinearProgram} (h : Extends lp₀ lp) {x : Int → ℚ}
    (hx : lp.Feasible x) {r : Nat} {row : Row} (hr : lp₀.rows[r]? = some row) :
    Between row.lhs (lp₀.activity r x) row.rhs := by
  have hlt := (List.getElem?_eq_some_iff.mp hr).1
  obtain ⟨extra, he⟩ := h.rows
  rw [← h.activity hlt]
  exact hx.2 r row (by rw [he, List.getElem?_append_left hlt, hr])

/-- Without further rows, a point within the bounds that satisfies the rows of the first program is
a point of the extended one. -/
theorem Extends.feasible {lp₀ lp : LinearProgram} (h : Extends lp₀ lp)
    (hn : lp.rows.length = lp₀.rows.length) {x : Int → ℚ}
    (hb : ∀ (c : Nat) (col : Column), lp.cols[c]? = some col → Between col.lower (x c) col.upper)
    (hr : ∀ (r : Nat) (row : Row), lp₀.rows[r]? = some row →
      Between row.lhs (lp₀.activity r x) row.rhs) : lp.Feasible x := by
  refine ⟨hb, fun r row hrow => ?_⟩
  obtain ⟨extra, he⟩ := h.rows
  have : extra = [] := by
    rw [he, List.length_append] at hn
    exact List.length_eq_zero_iff.mp (by omega)
  rw [this, List.append_nil] at he
  rw [he] at hrow
  rw [h.activity (List.getElem?_eq_some_iff.mp hrow).1]
  exact hr r row hrow

/-- Changing the bounds of a column. -/
def LinearProgram.withBounds (lp : LinearProgram) (col : Nat) (lower upper : Dbl) : LinearProgram :=
  { lp with cols := lp.cols.modify col fun c => { c with lower := lower, upper := upper } }

theorem LinearProgram.withBounds_col (lp : LinearProgram) (col : Nat) (lower upper : Dbl) (c : Nat) :
    (lp.withBounds col lower upper).cols[c]? =
      lp.cols[c]?.map fun x => if col = c then { x with lower := lower, upper := upper } else x := by
  rw [LinearProgram.withBounds, List.getElem?_modify]
  split <;> simp

theorem Extends.withBounds {lp₀ lp : LinearProgram} (h : Extends lp₀ lp) (col : Nat)
    (lower upper : Dbl) : Extends lp₀ (lp.withBounds col lower upper) := by
  refine ⟨h.rows, h.sense, by simp [LinearProgram.withBounds, h.numCols], ?_, ?_⟩
  · intro c a b ha hb
    rw [LinearProgram.withBounds_col, Option.map_eq_some_iff] at hb
    obtain ⟨b', hb', rfl⟩ := hb
    have := h.objective c a b' ha hb'
    split <;> exact this
  · intro r hr c
    rw [← h.entries r hr c, LinearProgram.coefficient, LinearProgram.coefficient,
      LinearProgram.withBounds_col, Option.map_map]
    congr 2
    cases lp.cols[c]? with
    | none => rfl
    | some x => by_cases hc : col = c <;> simp [hc]

/-- What the loop of `AddRow` does when it ends normally. -/
theorem setRow_cols (k : Nat) (l : List Entry) (lp lp' : LinearProgram) (h : setRow k lp l = .ok lp') :
    lp'.rows = lp.rows ∧ lp'.maximize = lp.maximize ∧ lp'.cols.length = lp.cols.length ∧
      ∀ c : Nat, lp'.cols[c]? = lp.cols[c]?.map fun col =>
        { col with
          entries := col.entries ++
            (l.filter fun e => decide (e.index = (c : Int))).map fun e => ⟨(k : Int), e.value⟩ } := by
  have hl : ∀ (l : List Entry) (lp lp' : LinearProgram), setRow k lp l = .ok lp' →
      ∀ e ∈ l, 0 ≤ e.index ∧ e.index < lp.cols.length := by
    intro l
    induction l with
    | nil => simp
    | cons f r ih =>
      intro lp lp' h e he
      rw [setRow, Outcome.bind_eq_ok] at h
      obtain ⟨lp1, h1, h2⟩ := h
      unfold LinearProgram.setCoefficient at h1
      split at h1
      · rename_i hf
        rcases List.mem_cons.mp he with rfl | he
        · exact hf
        · have := ih lp1 lp' h2 e he
          have hlen : lp1.cols.length = lp.cols.length := by
            rw [← Outcome.ok.inj h1]; simp
          rwa [hlen] at this
      · cases h1
  obtain ⟨lp2, h1, h2⟩ := setRow_ok k l lp (hl l lp lp' h)
  rw [h] at h1
  rw [Outcome.ok.inj h1]
  exact h2

theorem Extends.addRow {lp₀ lp lp' : LinearProgram} (h : Extends lp₀ lp) (row : Row) (l : List Entry)
    (hs : setRow lp.rows.length { lp with rows := lp.rows ++ [row] } l = .ok lp') :
    Extends lp₀ lp' ∧ lp'.rows.length = lp.rows.length + 1 ∧
      ∀ c : Nat, (lp'.cols[c]?.map fun x => (x.lower, x.upper)) =
        lp.cols[c]?.map fun x => (x.lower, x.upper) := by
  obtain ⟨h1, h2, h3, h4⟩ := setRow_cols _ _ _ _ hs
  obtain ⟨extra, he⟩ := h.rows
  refine ⟨⟨⟨extra ++ [row], by rw [h1, he, List.append_assoc]⟩, by rw [h2]; exact h.sense,
    by rw [h3]; exact h.numCols, ?_, ?_⟩, by rw [h1]; simp, ?_⟩
  · intro c a b ha hb
    rw [h4, Option.map_eq_some_iff] at hb
    obtain ⟨b', hb', rfl⟩ := hb
    exact h.objective c a b' ha hb'
  · intro r hr c
    rw [← h.entries r hr c, LinearProgram.coefficient, LinearProgram.coefficient, h4]
    cases lp.cols[c]? with
    | none => rfl
    | some x =>
      simp only [Option.map_some, Option.getD_some]
      have hne : ¬ (lp.rows.length : Int) = (r : Int) := by
        have : lp₀.rows.length ≤ lp.rows.length := by rw [he]; simp
        omega
      have : ∀ m : List Entry,
          sumAt (m.map fun e => (⟨(lp.rows.length : Int), e.value⟩ : Entry)) r = 0 := by
        intro m
        induction m with
        | nil => rfl
        | cons e m ih => simpa [sumAt, hne] using ih
      rw [sumAt_append, this, add_zero]
  · intro c
    rw [h4, Option.map_map]
    rfl

end Glop
end MiniMip
