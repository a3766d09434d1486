import Verif.Model.DebugInverse
import Verif.Props.BasisInverse

/-!
# Property C131: the getters of the basis inverse in the build with assertions
-/

namespace MiniMip

open SparseVector

/-- The index the query asks for exists: the basis has a row and a column per row of the LP, its product with the matrix a
column per column of the LP. -/
def InverseQuery.InRange (numRows numCols : Int) : InverseQuery → Prop
  | .row r => 0 ≤ r ∧ r < numRows
  | .column c => 0 ≤ c ∧ c < numRows
  | .rowTimesA r => 0 ≤ r ∧ r < numRows
  | .columnTimesA c => 0 ≤ c ∧ c < numCols

namespace Soplex

open Glop (LpSpec Refines)

/-- The vectors SoPlex returns have an element per row, and lists of indices are those of the elements that are not 0. -/
structure InverseCode.Sized (k : InverseCode) (numRows : Nat) : Prop where
  order : ∀ l, (k.order l).Perm l
  rows : ∀ r a, k.inverse r = some a → RowOk numRows a
  times : ∀ x y, x.length = numRows → k.timesVec x = some y → y.length = numRows

theorem nodup_toNat_length {m : Nat} (l : List Int) (hnd : l.Nodup) (hr : ∀ i ∈ l, 0 ≤ i ∧ i < (m : Int)) :
    l.length ≤ m := by
  have hsub : l.map Int.toNat ⊆ List.range m := by
    intro j hj
    obtain ⟨i, hi, rfl⟩ := List.mem_map.mp hj
    have := hr i hi
    rw [List.mem_range]; omega
  have hnd' : (l.map Int.toNat).Nodup := by
    refine (List.nodup_map_iff_inj_on hnd).mpr fun x hx y hy hxy => ?_
    have := hr x hx; have := hr y hy; omega
  simpa using (List.Nodup.subperm hnd' hsub).length_le

theorem columnLoop_safe (inverse : Nat → Option InverseRow) (m col : Nat) (hcol : col < m)
    (h : ∀ r a, inverse r = some a → RowOk m a) (n row : Nat) (v : SparseVector) (hv : Inv v) :
    (∃ w, columnLoop inverse (col : Int) n row v = .ok w ∧ Inv w) ∨ columnLoop inverse (col : Int) n row v = .error "Error" := by
  induction n generalizing row v with
  | zero => exact .inl ⟨v, rfl, hv⟩
  | succ n ih =>
    rw [columnLoop]
    cases ha : inverse row with
    | none => exact .inr rfl
    | some a =>
      have hok := h row a ha
      have hr0 : (0 : Int) ≤ (row : Int) := by omega
      dsimp only
      split
      · rw [denseAt_ok (by rw [hok.length]; exact hcol), Outcome.bind_ok]
        exact ih _ _ (hv.addEntry hr0 _)
      · next hn =>
        split
        · next hi =>
          rcases hok.num with h1 | ⟨h1, h2, hnd, hr, -⟩
          · exact absurd h1 hn
          · have hm : a.num.toNat ≤ m := by
              have := (nodup_toNat_length _ hnd hr)
              rwa [List.length_take, min_eq_left h2] at this
            rw [denseAt_ok (by rw [hok.length]; omega), Outcome.bind_ok]
            exact ih _ _ (hv.addEntry hr0 _)
        · exact ih _ _ hv

/-- **C131** (SoPlex), answers.  Outside strong branching, whatever vectors of the right size SoPlex returns: a getter asked
for an index that exists returns a clean vector, or an error where SoPlex returns none; no assertion fails. -/
theorem C131_answers (k : InverseCode) (g : Interface) (hf : freed g = true) (s : LpSpec) (h : Refines g.lp s)
    (hk : k.Sized s.numRows) (q : InverseQuery) (hq : q.InRange (getNumberOfRows g) (getNumberOfColumns g)) :
    (∃ v, debugInverseQuery k g q = .ok v ∧ v.dirty = false ∧ Clean v.entries) ∨
      debugInverseQuery k g q = .error "Error" := by
  have hrows := h.numRows
  cases q with
  | row r =>
    obtain ⟨h0, h1⟩ := hq
    simp only [getNumberOfRows] at h1
    simp only [debugInverseQuery, inverseQuery, hf, Outcome.check, h0, h1, decide_true, and_self, if_true, Outcome.bind_ok]
    cases ha : k.inverse r.toNat with
    | none => right; simp [getSparseRowOfBInverted, hf, Outcome.check, ha]
    | some a =>
      obtain ⟨v, h2, h3, h4, -⟩ := C69_inverse_row g hf k.inverse r.toNat a ha (by rw [hrows]; exact hk.rows _ _ ha)
      exact .inl ⟨v, h2, h3, h4⟩
  | column c =>
    obtain ⟨h0, h1⟩ := hq
    simp only [getNumberOfRows] at h1
    simp only [debugInverseQuery, inverseQuery, hf, Outcome.check, h0, h1, decide_true, if_true, Outcome.bind_ok,
      getSparseColumnOfBInverted]
    obtain ⟨n, rfl⟩ := Int.eq_ofNat_of_zero_le h0
    rcases columnLoop_safe k.inverse s.numRows n (by omega) hk.rows g.lp.rows.length 0 {} Inv.init with ⟨w, h2, h3⟩ | h2
    · rw [h2, Outcome.bind_ok]
      exact .inl ⟨_, rfl, (cleanUp_clean h3).2, (cleanUp_clean h3).1⟩
    · rw [h2]; exact .inr rfl
  | rowTimesA r =>
    obtain ⟨h0, h1⟩ := hq
    simp only [getNumberOfRows] at h1
    simp only [debugInverseQuery, inverseQuery, hf, Outcome.check, h0, h1, and_self, if_true, Outcome.bind_ok]
    cases ha : k.inverse r.toNat with
    | none => right; simp [getSparseRowOfBInvertedTimesA, hf, Outcome.check, ha]
    | some a =>
      obtain ⟨v, h2, h3, h4, -⟩ := C70_row_times_matrix k.order hk.order g hf s h k.inverse k.eps r.toNat a ha (hk.rows _ _ ha)
      exact .inl ⟨v, h2, h3, h4⟩
  | columnTimesA c =>
    obtain ⟨h0, h1⟩ := hq
    simp only [getNumberOfColumns] at h1
    simp only [debugInverseQuery, inverseQuery, hf, Outcome.check, h0, h1, decide_true, and_self, if_true, Outcome.bind_ok]
    have hc' : c.toNat < g.lp.cols.length := by omega
    have hcol := List.getElem?_eq_getElem hc'
    obtain ⟨w, h2, h3, -⟩ := denseColumn h c.toNat _ hcol _ (hk.order g.lp.cols[c.toNat].entries)
    rw [← hrows] at h2
    simp only [getSparseColumnOfBInvertedTimesA, hf, Outcome.check, if_true, Outcome.bind_ok, hcol, h2]
    cases ht : k.timesVec w with
    | none => exact .inr rfl
    | some y =>
      obtain ⟨v, k1, k2, k3, -⟩ := collect_init (Glop.above k.eps) (fun i => denseAt y i) (fun i => y.getD i 0) g.lp.rows.length
        (fun i hi => denseAt_ok (by rw [hk.times w y h3 ht, ← hrows]; exact hi))
      exact .inl ⟨v, k1, k3, k2⟩

/-- **C131** (SoPlex), assertions.  For all states, all queries and all code of SoPlex: during strong branching every getter
ends the process, in both builds.  Outside it, for an index that exists the assertions change nothing; and for every other
index they end the process, in all getters but `GetSparseRowOfBInvertedTimesA`. -/
theorem C131_assertions_partial (k : InverseCode) (g : Interface) (q : InverseQuery) :
    (freed g = false → debugInverseQuery k g q = .abort ∧ inverseQuery k g q = .abort) ∧
    (q.InRange (getNumberOfRows g) (getNumberOfColumns g) → debugInverseQuery k g q = inverseQuery k g q) ∧
    (freed g = true → ¬ q.InRange (getNumberOfRows g) (getNumberOfColumns g) → (∀ r, q ≠ .rowTimesA r) →
      debugInverseQuery k g q = .abort) := by
  refine ⟨fun hf => ?_, fun hq => ?_, fun hf hq hn => ?_⟩
  · cases q <;> simp [debugInverseQuery, inverseQuery, getSparseColumnOfBInverted, hf, Outcome.check]
  · cases hf : freed g with
    | false => cases q <;> simp [debugInverseQuery, inverseQuery, getSparseColumnOfBInverted, hf, Outcome.check]
    | true =>
      cases q <;> obtain ⟨h0, h1⟩ := hq <;> simp only [getNumberOfRows, getNumberOfColumns] at h1 <;>
        simp [debugInverseQuery, hf, Outcome.check, h0, h1]
  · cases q with
    | rowTimesA r => exact absurd rfl (hn r)
    | row r =>
      simp only [InverseQuery.InRange, getNumberOfRows, not_and, not_lt] at hq
      by_cases h0 : 0 ≤ r
      · simp [debugInverseQuery, hf, Outcome.check, h0, show ¬ r < _ from not_lt.mpr (hq h0)]
      · simp [debugInverseQuery, hf, Outcome.check, h0]
    | column r =>
      simp only [InverseQuery.InRange, getNumberOfRows, not_and, not_lt] at hq
      by_cases h0 : 0 ≤ r
      · simp [debugInverseQuery, hf, Outcome.check, h0, show ¬ r < _ from not_lt.mpr (hq h0)]
      · simp [debugInverseQuery, hf, Outcome.check, h0]
    | columnTimesA r =>
      simp only [InverseQuery.InRange, getNumberOfColumns, not_and, not_lt] at hq
      by_cases h0 : 0 ≤ r
      · simp [debugInverseQuery, hf, Outcome.check, h0, show ¬ r < _ from not_lt.mpr (hq h0)]
      · simp [debugInverseQuery, hf, Outcome.check, h0]

/-- `GetSparseRowOfBInvertedTimesA` has no assertion on its row: for every row that does not exist, the code of SoPlex runs
with it in the build with assertions as well. -/
theorem C131_row_times_matrix_violated (k : InverseCode) (g : Interface) (hf : freed g = true) (r : Int)
    (hr : ¬ (0 ≤ r ∧ r < getNumberOfRows g)) : debugInverseQuery k g (.rowTimesA r) = .ub := by
  simp only [getNumberOfRows] at hr
  simp [debugInverseQuery, inverseQuery, hf, Outcome.check, if_neg hr]

theorem findIndex_none (l : List Int) (x : Int) (h : x ∉ l) : findIndex l x = l.length := by
  induction l with
  | nil => rfl
  | cons y l ih =>
    simp only [List.mem_cons, not_or] at h
    rw [findIndex, if_neg (Ne.symm h.1), ih h.2, List.length_cons]

/-- Without assertions a column of the inverse that does not exist is answered with the zero vector if SoPlex gives the rows
by index lists; with assertions the process ends. -/
theorem C131_no_such_column (k : InverseCode) (g : Interface) (hf : freed g = true) (c : Int)
    (hc : ¬ (0 ≤ c ∧ c < getNumberOfRows g))
    (hk : ∀ r, ∃ a, k.inverse r = some a ∧ a.num ≠ -1 ∧ ∀ i ∈ a.indices, 0 ≤ i ∧ i < getNumberOfRows g) :
    inverseQuery k g (.column c) = .ok {} ∧ debugInverseQuery k g (.column c) = .abort := by
  refine ⟨?_, (C131_assertions_partial k g (.column c)).2.2 hf hc (by simp)⟩
  have key : ∀ n row v, columnLoop k.inverse c n row v = .ok v := by
    intro n
    induction n with
    | zero => intro row v; rfl
    | succ n ih =>
      intro row v
      obtain ⟨a, ha, hn, hi⟩ := hk row
      have hni : c ∉ a.indices := fun hm => hc (hi c hm)
      simp only [columnLoop, ha, hn, if_false, findIndex_none _ _ hni, lt_irrefl, false_and, ih]
  simp [inverseQuery, getSparseColumnOfBInverted, hf, Outcome.check, key, cleanUpIfNeeded]

/-- SoPlex with the inverse of `twoRows`. -/
def twoRowsCode : InverseCode :=
  { order := id, inverse := fun _ => some indexed, timesVec := some, eps := 1 / 10 ^ 6 }

example : twoRowsCode.Sized Glop.twoRowsSpec.numRows ∧ (InverseQuery.row 1).InRange (getNumberOfRows twoRows) (getNumberOfColumns twoRows) ∧
    freed twoRows = true :=
  ⟨⟨fun l => List.Perm.refl l, fun r a h => by cases h; exact indexed_ok,
    fun x y h1 h2 => by cases h2; exact h1⟩, by simp only [InverseQuery.InRange]; decide, rfl⟩

example : ∀ r, ∃ a, twoRowsCode.inverse r = some a ∧ a.num ≠ -1 ∧
    ∀ i ∈ a.indices, 0 ≤ i ∧ i < getNumberOfRows twoRows :=
  fun _ => ⟨indexed, rfl, by decide, by decide⟩

end Soplex

namespace Glop

/-- The vectors Glop returns have an element per row, and positions, if given, are those of the elements that are not 0. -/
structure InverseCode.Sized (k : InverseCode) (numRows : Nat) : Prop where
  inverse : ∀ r, ScatteredOk numRows (k.inverse r)
  solved : ∀ c, ScatteredOk numRows (k.solved c)

theorem debugAddIndexed_eq (rows : Nat) (d : List ℚ) (v : SparseVector) (l : List Int)
    (h : ∀ i ∈ l, 0 ≤ i ∧ i < (rows : Int)) : debugAddIndexed rows d v l = Soplex.addIndexed d v l := by
  induction l generalizing v with
  | nil => rfl
  | cons i l ih =>
    obtain ⟨h0, h1⟩ := h i (by simp)
    simp only [debugAddIndexed, Soplex.addIndexed, Outcome.check, h0, h1, decide_true, if_true, Outcome.bind_ok]
    cases Soplex.denseAt d i <;> simp [ih _ fun j hj => h j (by simp [hj])]

/-- **C131** (Glop).  Whatever vectors of the right size Glop returns, for all states: a getter asked for an index that exists
raises no assertion and returns a vector, the same as without assertions. -/
theorem C131_answers (k : InverseCode) (g : Interface) (s : LpSpec) (h : Refines g.lp s) (hk : k.Sized s.numRows)
    (q : InverseQuery) (hq : q.InRange g.lp.rows.length g.lp.cols.length) :
    ∃ v, debugInverseQuery k g q = .ok v ∧ inverseQuery k g q = .ok v ∧ Clean v.cleanUpIfNeeded.entries := by
  have hrows := h.numRows
  have hk' : k.Sized g.lp.rows.length := by rw [hrows]; exact hk
  have hclean : ∀ v : SparseVector, Clean v.entries → v.dirty = false → Clean v.cleanUpIfNeeded.entries := by
    intro v h1 h2; simpa [cleanUpIfNeeded, h2] using h1
  cases q with
  | row r =>
    have hq' := hq
    simp only [InverseQuery.InRange] at hq
    obtain ⟨v, h1, h2, -⟩ := C69_inverse_row_partial g k.inverse k.eps r.toNat (hk'.inverse _)
    have h3 : inverseQuery k g (.row r) = .ok v := by simp only [inverseQuery, if_pos hq, h1]
    refine ⟨v, ?_, h3, h2⟩
    by_cases hn : (k.inverse r.toNat).nonZeros = []
    · simp [debugInverseQuery, hn, h3]
    · simp only [debugInverseQuery, hq.1, hq.2, hn, ne_eq, not_false_eq_true, and_self, if_true]
      rw [debugAddIndexed_eq _ _ _ _ (((hk'.inverse _).nonZeros.resolve_left hn).2.1), ← h1]
      simp [getSparseRowOfBInverted, hn]
  | column c =>
    simp only [InverseQuery.InRange] at hq
    obtain ⟨w, h1, h2, h3, -⟩ := collect_init (atLeast k.eps) (fun r => Soplex.denseAt (k.inverse r).values (c.toNat : Nat))
      (fun r => (k.inverse r).values.getD c.toNat 0) g.lp.rows.length
      (fun r _ => denseAt_ok (by rw [(hk'.inverse r).length]; omega))
    have h4 : inverseQuery k g (.column c) = .ok w := by
      simp only [inverseQuery, if_pos hq, getSparseColumnOfBInverted]; exact h1
    exact ⟨w, h4, h4, hclean w h2 h3⟩
  | rowTimesA r =>
    simp only [InverseQuery.InRange] at hq
    obtain ⟨v, h1, h2, h3, -⟩ := C70_row_times_matrix g s h k.inverse k.eps r.toNat (hk.inverse _)
    have h4 : inverseQuery k g (.rowTimesA r) = .ok v := by simp only [inverseQuery, if_pos hq, h1]
    exact ⟨v, h4, h4, hclean v h3 h2⟩
  | columnTimesA c =>
    simp only [InverseQuery.InRange] at hq
    by_cases hn : (k.solved c.toNat).nonZeros = []
    · obtain ⟨w, h1, h2, h3, -⟩ := collect_init (above k.eps) (fun i => Soplex.denseAt (k.solved c.toNat).values i)
        (fun i => (k.solved c.toNat).values.getD i 0) g.lp.rows.length
        (fun i hi => denseAt_ok (by rw [(hk'.solved c.toNat).length]; exact hi))
      have h4 : inverseQuery k g (.columnTimesA c) = .ok w := by
        simp only [inverseQuery, if_pos hq, getSparseColumnOfBInvertedTimesA, hn, ne_eq, not_true_eq_false, if_false]
        exact h1
      exact ⟨w, by simp [debugInverseQuery, hn, h4], h4, hclean w h2 h3⟩
    · obtain ⟨v, h1, h2, -⟩ := addIndexed_scattered _ _ (hk'.solved c.toNat) hn
      have h4 : inverseQuery k g (.columnTimesA c) = .ok v := by
        simp only [inverseQuery, if_pos hq, getSparseColumnOfBInvertedTimesA, ne_eq, hn, not_false_eq_true, if_true, h1]
      refine ⟨v, ?_, h4, h2⟩
      simp only [debugInverseQuery, hq.1, hq.2, hn, ne_eq, not_false_eq_true, and_self, if_true]
      rw [debugAddIndexed_eq _ _ _ _ (((hk'.solved _).nonZeros.resolve_left hn).2.1), h1]

/-- No getter of the Glop interface has an assertion on its argument: for every index that does not exist, in an LP with rows,
the code of Glop runs with it in the build with assertions as well. -/
theorem C131_argument_violated (k : InverseCode) (g : Interface) (hr : g.lp.rows ≠ []) (q : InverseQuery)
    (hq : ¬ q.InRange g.lp.rows.length g.lp.cols.length) : debugInverseQuery k g q = .ub := by
  have hr' : ¬ g.lp.rows.length = 0 := by simpa using hr
  cases q with
  | row r =>
    simp only [InverseQuery.InRange] at hq
    have : ¬ (0 ≤ r ∧ r < (g.lp.rows.length : Int) ∧ (k.inverse r.toNat).nonZeros ≠ []) := fun h => hq ⟨h.1, h.2.1⟩
    simp only [debugInverseQuery, if_neg this, inverseQuery, if_neg hq]
  | column c =>
    simp only [InverseQuery.InRange] at hq
    simp only [debugInverseQuery, inverseQuery, if_neg hq, if_neg hr']
  | rowTimesA r =>
    simp only [InverseQuery.InRange] at hq
    simp only [debugInverseQuery, inverseQuery, if_neg hq]
  | columnTimesA c =>
    simp only [InverseQuery.InRange] at hq
    have : ¬ (0 ≤ c ∧ c < (g.lp.cols.length : Int) ∧ (k.solved c.toNat).nonZeros ≠ []) := fun h => hq ⟨h.1, h.2.1⟩
    simp only [debugInverseQuery, if_neg this, inverseQuery, if_neg hq]

/-- A list of positions with one that is not a row fails an assertion, where without assertions an element is read at it. -/
theorem C131_positions (k : InverseCode) (g : Interface) (r : Int) (hr : 0 ≤ r ∧ r < g.lp.rows.length) (i : Int)
    (l : List Int) (hl : (k.inverse r.toNat).nonZeros = i :: l) (hi : ¬ (0 ≤ i ∧ i < g.lp.rows.length)) :
    debugInverseQuery k g (.row r) = .abort := by
  have hne : (k.inverse r.toNat).nonZeros ≠ [] := by simp [hl]
  simp only [debugInverseQuery, hr.1, hr.2, hne, ne_eq, not_false_eq_true, and_self, if_true, hl, debugAddIndexed]
  by_cases h0 : 0 ≤ i
  · have : ¬ i < (g.lp.rows.length : Int) := fun h => hi ⟨h0, h⟩
    simp [Outcome.check, h0, this]
  · simp [Outcome.check, h0]

/-- Glop with an inverse for `twoRows`. -/
def twoRowsCode : InverseCode := { inverse := fun _ => unsortedRow, solved := fun _ => unsortedRow, eps := 1 / 10 ^ 8 }

example : twoRowsCode.Sized twoRowsSpec.numRows ∧ (InverseQuery.columnTimesA 1).InRange twoRows.lp.rows.length twoRows.lp.cols.length ∧
    ¬ (InverseQuery.columnTimesA 2).InRange twoRows.lp.rows.length twoRows.lp.cols.length ∧ twoRows.lp.rows ≠ [] :=
  ⟨⟨fun _ => unsortedRow_ok, fun _ => unsortedRow_ok⟩, by simp only [InverseQuery.InRange]; decide,
    by simp only [InverseQuery.InRange]; decide, by decide⟩

example : ∃ k : InverseCode, ∃ l, (k.inverse 0).nonZeros = 2 :: l ∧ ¬ ((0 : Int) ≤ 2 ∧ (2 : Int) < twoRows.lp.rows.length) :=
  ⟨{ twoRowsCode with inverse := fun _ => ⟨[1, 0], [2]⟩ }, [], rfl, by decide⟩

end Glop
end MiniMip
