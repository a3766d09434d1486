import Verif.Model.BasisInverse
import Verif.Props.SoplexBasis
import Verif.Props.Populate

/-!
# Properties C54, C69 and C70: rows and columns of the basis inverse and of its product with the matrix
-/

namespace MiniMip

open SparseVector

/-- `y` stands for `x` up to the tolerance: it is `x`, or it is 0 and `x` is smaller than the
tolerance. -/
def UpTo (eps x y : ℚ) : Prop := y = x ∨ (y = 0 ∧ |x| ≤ eps)

theorem UpTo.error {eps x y : ℚ} (h : UpTo eps x y) (h0 : 0 ≤ eps) : |y - x| ≤ eps := by
  rcases h with rfl | ⟨rfl, h⟩
  · simpa using h0
  · simpa using h

theorem collect_spec (keep : ℚ → Bool) (f : Nat → Outcome ℚ) (x : Nat → ℚ) (n i : Nat)
    (v : SparseVector) (hf : ∀ k, i ≤ k → k < i + n → f k = .ok (x k)) (hv : Clean v.entries)
    (hd : v.dirty = false) (hi : ∀ e ∈ v.entries, e.index < i) :
    ∃ w, collect keep f n i v = .ok w ∧ Clean w.entries ∧ w.dirty = false ∧
      (∀ e ∈ w.entries, e.index < (i + n : Nat)) ∧
      ∀ k : Nat, w.value k =
        if i ≤ k ∧ k < i + n then (if keep (x k) then x k else 0) else v.value k := by
  induction n generalizing i v with
  | zero => exact ⟨v, rfl, hv, hd, hi, fun k => by rw [if_neg (by omega)]⟩
  | succ n ih =>
    have hx := hf i le_rfl (by omega)
    have hlast : ¬ (i : Int) ≤ v.lastIndex := by
      have := (lastIndex_lt_iff hv (Int.natCast_nonneg i)).mpr hi
      omega
    have hz : ∀ k : Nat, i ≤ k → v.value k = 0 := by
      intro k hk
      rw [SparseVector.value, valueAt_eq_sumAt hv.1]
      exact sumAt_eq_zero fun e he => by have := hi e he; omega
    have hstep : ∀ u, u = (if keep (x i) then v.addEntry (i : Int) (x i) else v) →
        Clean u.entries ∧ u.dirty = false ∧ (∀ e ∈ u.entries, e.index < (i + 1 : Nat)) ∧
        ∀ k : Nat, u.value k = if k = i then (if keep (x i) then x i else 0) else v.value k := by
      intro u hu
      by_cases hkeep : keep (x i) = true
      · simp only [hkeep, if_true] at hu ⊢
        by_cases h0 : x i = 0
        · have : u = v := by rw [hu, addEntry]; simp [hd, hlast, h0]
          subst this
          refine ⟨hv, hd, fun e he => by have := hi e he; omega, fun k => ?_⟩
          split
          · next h => subst h; rw [hz _ le_rfl, h0]
          · rfl
        · have : u = ⟨v.entries ++ [⟨i, x i⟩], false⟩ := by
            rw [hu, addEntry]; simp [hd, hlast, h0]
          subst this
          refine ⟨⟨?_, ?_⟩, rfl, ?_, fun k => ?_⟩
          · refine List.pairwise_append.mpr ⟨hv.1, by simp, fun a ha b hb => ?_⟩
            simp only [List.mem_singleton] at hb
            subst hb; exact hi a ha
          · intro e he
            rcases List.mem_append.mp he with he | he
            · exact hv.2 e he
            · simp only [List.mem_singleton] at he
              subst he; exact ⟨h0, Int.natCast_nonneg i⟩
          · intro e he
            rcases List.mem_append.mp he with he | he
            · have := hi e he; omega
            · simp only [List.mem_singleton] at he
              subst he; simp
          · rw [SparseVector.value, Glop.valueAt_append_last hv hi]
            by_cases hk : k = i
            · subst hk; simp
            · simp [hk, SparseVector.value]
      · simp only [hkeep] at hu ⊢
        simp only [Bool.false_eq_true, if_false] at hu ⊢
        subst hu
        refine ⟨hv, hd, fun e he => by have := hi e he; omega, fun k => ?_⟩
        split
        · next h => subst h; exact hz _ le_rfl
        · rfl
    obtain ⟨h1, h2, h3, h4⟩ := hstep _ rfl
    obtain ⟨w, h5, h6, h7, h8, h9⟩ := ih (i + 1) _ (fun k hk hk' => hf k (by omega) (by omega)) h1 h2 h3
    refine ⟨w, by simp only [collect, hx, Outcome.bind_ok, h5], h6, h7,
      fun e he => by have := h8 e he; push_cast at this ⊢; omega, fun k => ?_⟩
    rw [h9, h4]
    by_cases hk : k = i
    · subst hk
      have h1 : ¬ (k + 1 ≤ k ∧ k < k + 1 + n) := by omega
      have h2 : k ≤ k ∧ k < k + (n + 1) := by omega
      rw [if_neg h1, if_pos rfl, if_pos h2]
    · by_cases hk2 : i + 1 ≤ k ∧ k < i + 1 + n
      · have h2 : i ≤ k ∧ k < i + (n + 1) := by omega
        rw [if_pos hk2, if_pos h2]
      · have h2 : ¬ (i ≤ k ∧ k < i + (n + 1)) := by omega
        rw [if_neg hk2, if_neg hk, if_neg h2]

/-- A getter that collects the elements of a vector. -/
theorem collect_init (keep : ℚ → Bool) (f : Nat → Outcome ℚ) (x : Nat → ℚ) (n : Nat)
    (hf : ∀ k < n, f k = .ok (x k)) :
    ∃ w, collect keep f n 0 {} = .ok w ∧ Clean w.entries ∧ w.dirty = false ∧
      (∀ e ∈ w.entries, e.index < n) ∧
      ∀ k : Nat, w.value k = if k < n then (if keep (x k) then x k else 0) else 0 := by
  obtain ⟨w, h1, h2, h3, h4, h5⟩ := collect_spec keep f x n 0 {} (fun k _ hk => hf k (by omega))
    (by simp [Clean]) rfl (by simp)
  refine ⟨w, h1, h2, h3, by simpa using h4, fun k => ?_⟩
  rw [h5]
  simp [SparseVector.value, valueAt_nil]

theorem upTo_atLeast (eps x : ℚ) : UpTo eps x (if Glop.atLeast eps x then x else 0) := by
  by_cases h : eps ≤ |x|
  · simp [Glop.atLeast, h, UpTo]
  · rw [not_le] at h
    simp [Glop.atLeast, not_le.mpr h, UpTo, h.le]

theorem upTo_above (eps x : ℚ) : UpTo eps x (if Glop.above eps x then x else 0) := by
  by_cases h : eps < |x|
  · simp [Glop.above, h, UpTo]
  · simp [Glop.above, h, UpTo, not_lt.mp h]

theorem denseAt_ok {l : List ℚ} {i : Nat} (h : i < l.length) :
    Soplex.denseAt l i = .ok (l.getD i 0) := by
  simp [Soplex.denseAt, show ¬ (i : Int) < 0 by omega, List.getElem?_eq_getElem h]

theorem scalarProduct_ok (values : List ℚ) (l : List Entry)
    (hl : ∀ e ∈ l, 0 ≤ e.index ∧ e.index < values.length) :
    scalarProduct values l =
      .ok (l.map fun e => e.value * values.getD e.index.toNat 0).sum := by
  induction l with
  | nil => rfl
  | cons e r ih =>
    obtain ⟨h0, h1⟩ := hl e (by simp)
    have : Soplex.denseAt values e.index = .ok (values.getD e.index.toNat 0) := by
      have := denseAt_ok (l := values) (i := e.index.toNat) (by omega)
      rwa [show ((e.index.toNat : Nat) : Int) = e.index by omega] at this
    simp only [scalarProduct, this, Outcome.bind_ok, ih fun d hd => hl d (by simp [hd]),
      Outcome.pure_eq, List.map_cons, List.sum_cons]
    congr 1
    ring

theorem sum_int_range (n : Nat) (f : Int → ℚ) :
    (∑ i ∈ (Finset.range n).image (Nat.cast : Nat → Int), f i) = ∑ i ∈ Finset.range n, f i := by
  rw [Finset.sum_image]
  intro a _ b _ h
  exact_mod_cast h

/-- The product of a dense vector with a column of the LP. -/
theorem scalarProduct_column {lp : Glop.LinearProgram} {s : Glop.LpSpec} (h : Glop.Refines lp s)
    (values : List ℚ) (hl : values.length = s.numRows) (c : Nat) (col : Glop.Column)
    (hc : lp.cols[c]? = some col) (entries : List Entry) (hp : entries.Perm col.entries) :
    scalarProduct values entries =
      .ok (∑ i ∈ Finset.range s.numRows, values.getD i 0 * s.coef i c) := by
  have hok := h.cols c col hc
  rw [scalarProduct_ok]
  · congr 1
    rw [(hp.map _).sum_eq, sum_map_eq_finset hok.clean.1 (fun i => values.getD i.toNat 0)
      ((Finset.range s.numRows).image (Nat.cast : Nat → Int)), sum_int_range]
    · refine Finset.sum_congr rfl fun i hi => ?_
      rw [hok.coef i (Finset.mem_range.mp hi)]
      simp [mul_comm]
    · intro e he
      have h1 := hok.range e he
      have h2 := (hok.clean.2 e he).2
      exact Finset.mem_image.mpr ⟨e.index.toNat, Finset.mem_range.mpr (by omega), by omega⟩
  · intro e he
    have he' := hp.mem_iff.mp he
    have h1 := hok.range e he'
    have h2 := (hok.clean.2 e he').2
    exact ⟨h2, by rw [hl]; exact h1⟩

namespace Glop

/-- What Glop documents about a scattered vector of dimension `n`: `n` values, and if positions are
given, they have no duplicates and all other values are 0. -/
structure ScatteredOk (n : Nat) (a : Scattered) : Prop where
  length : a.values.length = n
  nonZeros : a.nonZeros = [] ∨ (a.nonZeros.Nodup ∧ (∀ i ∈ a.nonZeros, 0 ≤ i ∧ i < n) ∧
    ∀ i : Nat, (i : Int) ∉ a.nonZeros → a.values.getD i 0 = 0)

theorem addIndexed_sorted (d : List ℚ) (v : SparseVector) (l : List Int)
    (hl : ∀ i ∈ l, 0 ≤ i ∧ i < d.length) (hs : l.Pairwise (· < ·)) (hv : Clean v.entries)
    (hd : v.dirty = false) (hi : ∀ e ∈ v.entries, ∀ i ∈ l, e.index < i) (w : SparseVector)
    (h : Soplex.addIndexed d v l = .ok w) : w.dirty = false := by
  induction l generalizing v with
  | nil => rw [← Outcome.ok.inj h]; exact hd
  | cons j r ih =>
    obtain ⟨hj0, hj1⟩ := hl j (by simp)
    have hlast : ¬ j ≤ v.lastIndex := by
      have := (lastIndex_lt_iff hv hj0).mpr fun e he => hi e he j (by simp)
      omega
    have hx : Soplex.denseAt d j = .ok (d.getD j.toNat 0) := by
      have := denseAt_ok (l := d) (i := j.toNat) (by omega)
      rwa [show ((j.toNat : Nat) : Int) = j by omega] at this
    rw [Soplex.addIndexed, hx, Outcome.bind_ok] at h
    have hs' := List.pairwise_cons.mp hs
    refine ih (v.addEntry j (d.getD j.toNat 0)) (fun i hi => hl i (by simp [hi])) hs'.2 ?_ ?_ ?_ h
    · have hdd : (v.addEntry j (d.getD j.toNat 0)).dirty = false := by
        rw [addEntry]; simp only [hd, Bool.false_eq_true, if_false, hlast]; split <;> simp [hd]
      exact ((Inv.of_clean hv).addEntry hj0 _).2 hdd
    · rw [addEntry]; simp only [hd, Bool.false_eq_true, if_false, hlast]; split <;> simp [hd]
    · intro e he i hir
      have hmem : e ∈ v.entries ∨ e.index = j := by
        rw [addEntry] at he
        simp only [hd, Bool.false_eq_true, if_false, hlast] at he
        split at he
        · exact .inl he
        · rcases List.mem_append.mp he with he | he
          · exact .inl he
          · simp only [List.mem_singleton] at he; exact .inr (by rw [he])
      rcases hmem with he | he
      · exact hi e he i (by simp [hir])
      · rw [he]; exact hs'.1 i hir

/-- A vector read from its list of positions. -/
theorem addIndexed_scattered (n : Nat) (a : Scattered) (hok : ScatteredOk n a)
    (hne : a.nonZeros ≠ []) :
    ∃ v, Soplex.addIndexed a.values {} a.nonZeros = .ok v ∧
      Clean v.cleanUpIfNeeded.entries ∧
      (∀ i : Nat, v.cleanUpIfNeeded.value i = a.values.getD i 0) ∧
      (a.nonZeros.Pairwise (· < ·) → v.dirty = false ∧ v.cleanUpIfNeeded = v) := by
  rcases hok.nonZeros with h | ⟨-, h2, h3⟩
  · exact absurd h hne
  have hrange : ∀ i ∈ a.nonZeros, 0 ≤ i ∧ i < a.values.length := by rw [hok.length]; exact h2
  obtain ⟨w, h5, h6, h7⟩ := Soplex.addIndexed_spec a.values {} Inv.init a.nonZeros hrange
  obtain ⟨h8, h9⟩ := cleanUp_clean h6
  refine ⟨w, h5, h8, fun i => ?_, fun hs => ?_⟩
  · rw [SparseVector.value, valueAt_eq_lastFrom h8.1, lastFrom_cleanUp, h7]
    split
    · rfl
    · next h => rw [h3 i h]; simp
  · have := addIndexed_sorted a.values {} a.nonZeros hrange hs (by simp [Clean]) rfl (by simp) w h5
    exact ⟨this, by simp [cleanUpIfNeeded, this]⟩

/-- **C69** (Glop), partial: missing are rows given by a list of positions that is not increasing,
where the vector returned still needs cleaning (`C69_unsorted_violated`), and small elements of
rows in dense form, which are dropped (`C69_small_violated`).  `GetSparseRowOfBInverted` never fails;
for a row in dense form it returns a clean vector equal to the row up to the tolerance; for a row
with a list of positions it returns, after `CleanUpIfNeeded`, exactly the row, and the vector is
already clean if the positions are increasing. -/
theorem C69_inverse_row_partial (g : Interface) (inverse : Nat → Scattered) (eps : ℚ) (r : Nat)
    (hok : ScatteredOk g.lp.rows.length (inverse r)) :
    ∃ v, getSparseRowOfBInverted g inverse eps r = .ok v ∧
      Clean v.cleanUpIfNeeded.entries ∧
      (∀ i : Nat, UpTo eps ((inverse r).values.getD i 0) (v.cleanUpIfNeeded.value i)) ∧
      ((inverse r).nonZeros ≠ [] →
        ∀ i : Nat, v.cleanUpIfNeeded.value i = (inverse r).values.getD i 0) ∧
      ((inverse r).nonZeros.Pairwise (· < ·) → v.dirty = false ∧ v.cleanUpIfNeeded = v) := by
  by_cases hne : (inverse r).nonZeros = []
  · obtain ⟨w, h1, h2, h3, h4, h5⟩ := collect_init (atLeast eps)
      (fun i => Soplex.denseAt (inverse r).values i) (fun i => (inverse r).values.getD i 0)
      g.lp.rows.length (fun k hk => denseAt_ok (by rw [hok.length]; exact hk))
    have hw : w.cleanUpIfNeeded = w := by simp [cleanUpIfNeeded, h3]
    refine ⟨w, by simp [getSparseRowOfBInverted, hne, h1], by rw [hw]; exact h2, fun i => ?_,
      fun h => absurd hne h, fun _ => ⟨h3, hw⟩⟩
    rw [hw, h5]
    split
    · exact upTo_atLeast _ _
    · next h =>
      left
      have : (inverse r).values.length ≤ i := by rw [hok.length]; omega
      simp [List.getElem?_eq_none this]
  · obtain ⟨v, h1, h2, h3, h4⟩ := addIndexed_scattered _ _ hok hne
    exact ⟨v, by simp only [getSparseRowOfBInverted, ne_eq, hne, not_false_eq_true, if_true, h1], h2,
      fun i => .inl (h3 i), fun _ => h3, h4⟩

/-- An LP with two columns and two rows. -/
def twoRows : Interface :=
  { lp :=
      { cols := [⟨.fin 0, .pinf, 1, "x", [⟨0, 1⟩, ⟨1, 2⟩]⟩, ⟨.fin 0, .pinf, 1, "y", [⟨1, 4⟩]⟩]
        rows := [⟨.fin 1, .pinf, "a"⟩, ⟨.fin 1, .pinf, "b"⟩] } }

/-- A row with its positions in decreasing order. -/
def unsortedRow : Scattered := ⟨[3, 5], [1, 0]⟩

theorem unsortedRow_ok : ScatteredOk twoRows.lp.rows.length unsortedRow := by
  refine ⟨rfl, .inr ⟨by decide, by decide, fun i hi => ?_⟩⟩
  match i, hi with
  | 0, hi => exact absurd hi (by decide)
  | 1, hi => exact absurd hi (by decide)
  | n + 2, _ => simp [unsortedRow]

example : ScatteredOk twoRows.lp.rows.length ⟨[3, 0], [0]⟩ ∧
    ([0] : List Int).Pairwise (· < ·) := by
  refine ⟨⟨rfl, .inr ⟨by decide, by decide, fun i hi => ?_⟩⟩, by decide⟩
  match i, hi with
  | 0, hi => exact absurd hi (by decide)
  | 1, _ => rfl
  | n + 2, _ => simp

/-- **C69** is violated (Glop): positions in decreasing order give a vector that still needs cleaning,
and reading its element in column 0 gives 0 instead of 3. -/
theorem C69_unsorted_violated (eps : ℚ) :
    ∃ v, getSparseRowOfBInverted twoRows (fun _ => unsortedRow) eps 0 = .ok v ∧
      v.mayNeedCleaning = true ∧ unsortedRow.values.getD 0 0 = 3 ∧ v.value 0 = 0 :=
  ⟨⟨[⟨1, 5⟩, ⟨0, 3⟩], true⟩, by
    simp only [getSparseRowOfBInverted, unsortedRow, ne_eq, reduceCtorEq, not_false_eq_true, if_true]
    decide +kernel, rfl, rfl, by decide +kernel⟩

/-- **C69** is violated (Glop): for every positive tolerance there is a row in dense form that is not 0
and is returned as the zero vector. -/
theorem C69_small_violated (eps : ℚ) (h : 0 < eps) :
    ∃ a : Scattered, ScatteredOk twoRows.lp.rows.length a ∧ a.values.getD 0 0 ≠ 0 ∧
      getSparseRowOfBInverted twoRows (fun _ => a) eps 0 = .ok {} := by
  have h1 : atLeast eps (eps / 2) = false := by
    rw [atLeast, decide_eq_false_iff_not, abs_of_pos (by linarith)]; linarith
  have h2 : atLeast eps 0 = false := by rw [atLeast, decide_eq_false_iff_not]; simpa using h
  refine ⟨⟨[eps / 2, 0], []⟩, ⟨rfl, .inl rfl⟩, by simp [h.ne'], ?_⟩
  simp [getSparseRowOfBInverted, twoRows, collect, Soplex.denseAt, h1, h2]

/-- **C54** (Glop), partial: elements below the tolerance are dropped, by the column getter always, by
the row getter only for rows in dense form.  `GetSparseColumnOfBInverted` returns a clean vector; its
element in row `r` is, up to the tolerance, the element of the inverse, and is equal to the
element in the cleaned vector `GetSparseRowOfBInverted` returns for row `r`, or it is 0 and that
element is at most the tolerance. -/
theorem C54_inverse_column_partial (g : Interface) (inverse : Nat → Scattered) (eps : ℚ)
    (hok : ∀ r < g.lp.rows.length, ScatteredOk g.lp.rows.length (inverse r)) (col : Nat)
    (hcol : col < g.lp.rows.length) :
    ∃ v, getSparseColumnOfBInverted g inverse eps col = .ok v ∧ v.dirty = false ∧ Clean v.entries ∧
      (∀ e ∈ v.entries, e.index < g.lp.rows.length) ∧
      ∀ r : Nat, r < g.lp.rows.length → UpTo eps ((inverse r).values.getD col 0) (v.value r) ∧
        ∃ w, getSparseRowOfBInverted g inverse eps r = .ok w ∧
          UpTo eps (w.cleanUpIfNeeded.value col) (v.value r) := by
  obtain ⟨v, h1, h2, h3, h4, h5⟩ := collect_init (atLeast eps)
    (fun r => Soplex.denseAt (inverse r).values col) (fun r => (inverse r).values.getD col 0)
    g.lp.rows.length (fun k hk => denseAt_ok (by rw [(hok k hk).length]; exact hcol))
  refine ⟨v, h1, h3, h2, h4, fun r hr => ?_⟩
  have hv : v.value r = if atLeast eps ((inverse r).values.getD col 0) then
      (inverse r).values.getD col 0 else 0 := by rw [h5, if_pos hr]
  refine ⟨by rw [hv]; exact upTo_atLeast _ _, ?_⟩
  by_cases hne : (inverse r).nonZeros = []
  · obtain ⟨w, k1, k2, k3, k4, k5⟩ := collect_init (atLeast eps)
      (fun i => Soplex.denseAt (inverse r).values i) (fun i => (inverse r).values.getD i 0)
      g.lp.rows.length (fun k hk => denseAt_ok (by rw [(hok r hr).length]; exact hk))
    refine ⟨w, by simp [getSparseRowOfBInverted, hne, k1], .inl ?_⟩
    rw [hv, cleanUpIfNeeded, k3]
    simp only [Bool.false_eq_true, if_false]
    rw [k5, if_pos hcol]
  · obtain ⟨w, k1, k2, k3, k4⟩ := addIndexed_scattered _ _ (hok r hr) hne
    refine ⟨w, by simp only [getSparseRowOfBInverted, ne_eq, hne, not_false_eq_true, if_true, k1], ?_⟩
    rw [hv, k3]
    exact upTo_atLeast _ _

/-- **C54** is violated (Glop): an element below the tolerance is in the row but not in the column. -/
theorem C54_small_violated (eps : ℚ) (h : 0 < eps) :
    ∃ a : Scattered, ScatteredOk twoRows.lp.rows.length a ∧
      ∃ w v, getSparseRowOfBInverted twoRows (fun _ => a) eps 0 = .ok w ∧
        getSparseColumnOfBInverted twoRows (fun _ => a) eps 0 = .ok v ∧
        w.value 0 = eps / 2 ∧ v.value 0 = 0 ∧ w.value 0 ≠ v.value 0 := by
  have h1 : atLeast eps (eps / 2) = false := by
    rw [atLeast, decide_eq_false_iff_not, abs_of_pos (by linarith)]; linarith
  have h3 : eps / 2 ≠ 0 := by linarith
  refine ⟨⟨[eps / 2, 0], [0]⟩, ⟨rfl, .inr ⟨by simp, by simp [twoRows], fun i hi => ?_⟩⟩,
    ⟨[⟨0, eps / 2⟩], false⟩, {}, ?_, ?_, ?_, rfl, ?_⟩
  · match i, hi with
    | 0, hi => exact absurd hi (by simp)
    | 1, _ => rfl
    | n + 2, _ => simp
  · simp [getSparseRowOfBInverted, Soplex.addIndexed, Soplex.denseAt, addEntry, lastIndex, h3]
  · simp [getSparseColumnOfBInverted, twoRows, collect, Soplex.denseAt, h1]
  · simp [SparseVector.value, valueAt_cons]
  · have : (⟨[⟨0, eps / 2⟩], false⟩ : SparseVector).value 0 = eps / 2 := by
      simp [SparseVector.value, valueAt_cons]
    rw [this]
    exact h3

/-! ### C70: rows and columns of the basis inverse times the matrix -/

/-- The element of the product of the inverse with the coefficient matrix of the LP. -/
def LpSpec.timesA (s : LpSpec) (inverse : Nat → Nat → ℚ) (r c : Nat) : ℚ :=
  ∑ i ∈ Finset.range s.numRows, inverse r i * s.coef i c

/-- **C70** (Glop), rows.  `GetSparseRowOfBInvertedTimesA` returns a clean vector with an element per
column of the LP, equal to the product of the row of the inverse with the coefficients the LP holds,
up to the tolerance. -/
theorem C70_row_times_matrix (g : Interface) (s : LpSpec) (h : Refines g.lp s)
    (inverse : Nat → Scattered) (eps : ℚ) (r : Nat) (hok : ScatteredOk s.numRows (inverse r)) :
    ∃ v, getSparseRowOfBInvertedTimesA g inverse eps r = .ok v ∧ v.dirty = false ∧ Clean v.entries ∧
      (∀ e ∈ v.entries, e.index < s.numCols) ∧
      ∀ c < s.numCols,
        UpTo eps (s.timesA (fun r i => (inverse r).values.getD i 0) r c) (v.value c) := by
  obtain ⟨v, h1, h2, h3, h4, h5⟩ := collect_init (atLeast eps)
    (fun c => match g.lp.cols[c]? with
      | some col => scalarProduct (inverse r).values col.entries
      | none => .ub)
    (fun c => s.timesA (fun r i => (inverse r).values.getD i 0) r c) g.lp.cols.length
    (fun k hk => by
      rw [List.getElem?_eq_getElem hk]
      exact scalarProduct_column h _ hok.length k _ (List.getElem?_eq_getElem hk) _ (List.Perm.refl _))
  refine ⟨v, h1, h3, h2, by rw [← h.numCols]; exact h4, fun c hc => ?_⟩
  rw [h5, if_pos (by rw [h.numCols]; exact hc)]
  exact upTo_atLeast _ _

/-- **C70** (Glop), columns, partial: missing are results given by a list of positions that is not
increasing, where the vector still needs cleaning.  If the solver computes the product of the inverse
with the column, `GetSparseColumnOfBInvertedTimesA` returns a vector that after `CleanUpIfNeeded` is
clean and equal to it up to the tolerance. -/
theorem C70_column_times_matrix_partial (g : Interface) (s : LpSpec) (h : Refines g.lp s)
    (inverse : Nat → Nat → ℚ) (solved : Nat → Scattered) (eps : ℚ) (c : Nat)
    (hok : ScatteredOk s.numRows (solved c))
    (hs : ∀ r < s.numRows, (solved c).values.getD r 0 = s.timesA inverse r c) :
    ∃ v, getSparseColumnOfBInvertedTimesA g solved eps c = .ok v ∧
      Clean v.cleanUpIfNeeded.entries ∧
      (∀ r < s.numRows, UpTo eps (s.timesA inverse r c) (v.cleanUpIfNeeded.value r)) ∧
      ((solved c).nonZeros.Pairwise (· < ·) → v.dirty = false ∧ v.cleanUpIfNeeded = v) := by
  by_cases hne : (solved c).nonZeros = []
  · obtain ⟨w, h1, h2, h3, h4, h5⟩ := collect_init (above eps)
      (fun i => Soplex.denseAt (solved c).values i) (fun i => (solved c).values.getD i 0)
      g.lp.rows.length (fun k hk => denseAt_ok (by rw [hok.length, ← h.numRows]; exact hk))
    have hw : w.cleanUpIfNeeded = w := by simp [cleanUpIfNeeded, h3]
    refine ⟨w, by simp [getSparseColumnOfBInvertedTimesA, hne, h1], by rw [hw]; exact h2,
      fun r hr => ?_, fun _ => ⟨h3, hw⟩⟩
    rw [hw, h5, if_pos (by rw [h.numRows]; exact hr), hs r hr]
    exact upTo_above _ _
  · obtain ⟨v, h1, h2, h3, h4⟩ := addIndexed_scattered _ _ hok hne
    refine ⟨v, by
      simp only [getSparseColumnOfBInvertedTimesA, ne_eq, hne, not_false_eq_true, if_true, h1], h2,
      fun r hr => .inl ?_, h4⟩
    rw [h3, hs r hr]

/-- **C70** is violated (Glop): positions in decreasing order give a column that still needs
cleaning. -/
theorem C70_unsorted_violated (eps : ℚ) :
    ∃ v, getSparseColumnOfBInvertedTimesA twoRows (fun _ => unsortedRow) eps 0 = .ok v ∧
      v.mayNeedCleaning = true ∧ unsortedRow.values.getD 0 0 = 3 ∧ v.value 0 = 0 :=
  ⟨⟨[⟨1, 5⟩, ⟨0, 3⟩], true⟩, by
    simp only [getSparseColumnOfBInvertedTimesA, unsortedRow, ne_eq, reduceCtorEq, not_false_eq_true,
      if_true]
    decide +kernel, rfl, rfl, by decide +kernel⟩

/-- The LP of `twoRows`. -/
def twoRowsSpec : LpSpec where
  numRows := 2
  numCols := 2
  maximize := false
  lower _ := .fin 0
  upper _ := .pinf
  objective _ := 1
  lhs _ := .fin 1
  rhs _ := .pinf
  coef r c := if c = 0 then (if r = 0 then 1 else 2) else (if r = 0 then 0 else 4)

theorem twoRows_refines : Refines twoRows.lp twoRowsSpec := by
  refine ⟨rfl, rfl, rfl, fun c col hc => ?_, fun r row hr => ?_⟩
  · match c, hc with
    | 0, hc =>
      simp only [twoRows, List.getElem?_cons_zero, Option.some.injEq] at hc
      subst hc
      refine ⟨rfl, rfl, rfl, by simp [Clean], by simp [twoRowsSpec], fun r hr => ?_⟩
      match r, hr with
      | 0, _ => decide +kernel
      | 1, _ => decide +kernel
    | 1, hc =>
      simp only [twoRows, List.getElem?_cons_succ, List.getElem?_cons_zero, Option.some.injEq] at hc
      subst hc
      refine ⟨rfl, rfl, rfl, by simp [Clean], by simp [twoRowsSpec], fun r hr => ?_⟩
      match r, hr with
      | 0, _ => decide +kernel
      | 1, _ => decide +kernel
  · match r, hr with
    | 0, hr =>
      simp only [twoRows, List.getElem?_cons_zero, Option.some.injEq] at hr
      subst hr; exact ⟨rfl, rfl⟩
    | 1, hr =>
      simp only [twoRows, List.getElem?_cons_succ, List.getElem?_cons_zero, Option.some.injEq] at hr
      subst hr; exact ⟨rfl, rfl⟩

example : Refines twoRows.lp twoRowsSpec ∧ ScatteredOk twoRowsSpec.numRows unsortedRow :=
  ⟨twoRows_refines, unsortedRow_ok⟩

end Glop

namespace Soplex

open Glop (LpSpec Refines)

/-- **C70** (SoPlex), rows.  Outside strong branching, for every row of the inverse SoPlex can compute,
`GetSparseRowOfBInvertedTimesA` returns a clean vector with an element per column of the LP, equal to
the product of the row of the inverse with the coefficients the LP holds, up to the tolerance. -/
theorem C70_row_times_matrix (order : List Entry → List Entry) (ho : ∀ l, (order l).Perm l)
    (g : Interface) (hf : freed g = true) (s : LpSpec) (h : Refines g.lp s)
    (inverse : Nat → Option InverseRow) (eps : ℚ) (r : Nat) (a : InverseRow)
    (ha : inverse r = some a) (hok : RowOk s.numRows a) :
    ∃ v, getSparseRowOfBInvertedTimesA order g inverse eps r = .ok v ∧ v.dirty = false ∧
      Clean v.entries ∧ (∀ e ∈ v.entries, e.index < s.numCols) ∧
      ∀ c < s.numCols, UpTo eps
        (s.timesA (fun r i => ((inverse r).map fun a => a.dense.getD i 0).getD 0) r c) (v.value c) := by
  obtain ⟨v, h1, h2, h3, h4, h5⟩ := collect_init (Glop.above eps)
    (fun c => match g.lp.cols[c]? with
      | some col => scalarProduct a.dense (order col.entries)
      | none => .ub)
    (fun c => s.timesA (fun r i => ((inverse r).map fun a => a.dense.getD i 0).getD 0) r c)
    g.lp.cols.length
    (fun k hk => by
      rw [List.getElem?_eq_getElem hk]
      simp only [LpSpec.timesA, ha, Option.map_some, Option.getD_some]
      exact scalarProduct_column h _ hok.length k _ (List.getElem?_eq_getElem hk) _ (ho _))
  refine ⟨v, by
    simp only [getSparseRowOfBInvertedTimesA, hf, Outcome.check, if_true, Outcome.bind_ok, ha]
    exact h1, h3, h2, by rw [← h.numCols]; exact h4, fun c hc => ?_⟩
  rw [h5, if_pos (by rw [h.numCols]; exact hc)]
  exact upTo_above _ _

theorem objectiveVector_spec (v : List ℚ) (l : List Entry)
    (hl : ∀ e ∈ l, 0 ≤ e.index ∧ e.index < v.length) :
    ∃ w, objectiveVector v l = .ok w ∧ w.length = v.length ∧
      ∀ i : Nat, w.getD i 0 = lastFrom (fun j => v.getD j.toNat 0) l i := by
  induction l generalizing v with
  | nil => exact ⟨v, rfl, rfl, by simp⟩
  | cons e r ih =>
    obtain ⟨h0, h1⟩ := hl e (by simp)
    obtain ⟨w, h2, h3, h4⟩ := ih (v.set e.index.toNat e.value)
      (fun d hd => by simpa using hl d (by simp [hd]))
    refine ⟨w, by simp [objectiveVector, h0, h1, h2], by simpa using h3, fun i => ?_⟩
    rw [h4, lastFrom_cons]
    have hd : ∀ d ∈ r, 0 ≤ d.index := fun d hd => (hl d (by simp [hd])).1
    clear ih h2 h3 h4
    suffices H : ∀ (f f' : Int → ℚ), (∀ j, 0 ≤ j → f j = f' j) →
        lastFrom f r i = lastFrom f' r i by
      apply H
      intro j hj
      by_cases hji : j = e.index
      · subst hji
        have : e.index.toNat < v.length := by omega
        simp [List.getD_eq_getElem?_getD, this]
      · have : e.index.toNat ≠ j.toNat := by omega
        rw [Function.update_of_ne hji]
        simp [List.getD_eq_getElem?_getD, List.getElem?_set, this]
    intro f f' hff
    induction r generalizing f f' with
    | nil => exact hff i (by omega)
    | cons d r ih =>
      rw [lastFrom_cons, lastFrom_cons]
      apply ih (fun x hx => hl x (by rcases List.mem_cons.mp hx with rfl | hx <;> simp [*]))
        (fun x hx => hd x (by simp [hx]))
      intro j hj
      by_cases hjd : j = d.index
      · subst hjd; simp
      · rw [Function.update_of_ne hjd, Function.update_of_ne hjd, hff j hj]

/-- The column of the LP as a dense vector. -/
theorem denseColumn {lp : Glop.LinearProgram} {s : LpSpec} (h : Refines lp s) (c : Nat)
    (col : Glop.Column) (hc : lp.cols[c]? = some col) (entries : List Entry)
    (hp : entries.Perm col.entries) :
    ∃ w, objectiveVector (List.replicate s.numRows 0) entries = .ok w ∧ w.length = s.numRows ∧
      ∀ r < s.numRows, w.getD r 0 = s.coef r c := by
  have hok := h.cols c col hc
  have hr : ∀ e ∈ entries, 0 ≤ e.index ∧ e.index < (List.replicate s.numRows (0 : ℚ)).length := by
    intro e he
    have he' := hp.mem_iff.mp he
    have h1 := hok.range e he'
    exact ⟨(hok.clean.2 e he').2, by simpa using h1⟩
  obtain ⟨w, h1, h2, h3⟩ := objectiveVector_spec _ entries hr
  refine ⟨w, h1, by simpa using h2, fun r hrr => ?_⟩
  rw [h3, ← hok.coef r hrr]
  have hz : (fun j : Int => (List.replicate s.numRows (0 : ℚ)).getD j.toNat 0) = fun _ => 0 := by
    funext j
    simp [List.getD_eq_getElem?_getD, List.getElem?_replicate]
    split <;> rfl
  rw [hz]
  -- the order does not matter, because the rows of the entries are distinct
  have hnd : (entries.map (·.index)).Nodup := by
    rw [(hp.map _).nodup_iff]
    exact List.pairwise_map.mpr (hok.clean.1.imp fun h => ne_of_lt h)
  rw [valueAt_eq_sumAt hok.clean.1, ← sumAt_perm hp]
  clear h1 h2 h3 hp hr
  suffices H : ∀ f : Int → ℚ, (f r = 0 ∨ (r : Int) ∈ entries.map (·.index)) →
      lastFrom f entries r = sumAt entries r from H _ (.inl rfl)
  induction entries with
  | nil => intro f hf; simpa [sumAt] using hf
  | cons e l ih =>
    intro f hf
    rw [List.map_cons, List.nodup_cons] at hnd
    rw [lastFrom_cons, sumAt]
    by_cases he : e.index = r
    · have hn : ∀ d ∈ l, d.index ≠ (r : Int) := by
        intro d hd hdr
        exact hnd.1 (List.mem_map.mpr ⟨d, hd, by rw [hdr, he]⟩)
      rw [lastFrom_of_not_mem hn, sumAt_eq_zero hn, if_pos he, he]
      simp
    · rw [if_neg he, zero_add]
      apply ih hnd.2
      rcases hf with hf | hf
      · left; rw [Function.update_of_ne (Ne.symm he), hf]
      · right
        rcases List.mem_cons.mp hf with hf | hf
        · exact absurd hf.symm he
        · exact hf

/-- **C70** (SoPlex), columns.  If SoPlex multiplies every vector with the inverse,
`GetSparseColumnOfBInvertedTimesA` returns a clean vector with an element per row, equal to the
product of the inverse with that column of the LP, up to the tolerance. -/
theorem C70_column_times_matrix (order : List Entry → List Entry) (ho : ∀ l, (order l).Perm l)
    (g : Interface) (hf : freed g = true) (s : LpSpec) (h : Refines g.lp s)
    (inverse : Nat → Nat → ℚ) (timesVec : List ℚ → Option (List ℚ)) (eps : ℚ)
    (ht : ∀ x, x.length = s.numRows → ∃ y, timesVec x = some y ∧ y.length = s.numRows ∧
      ∀ r < s.numRows, y.getD r 0 = ∑ i ∈ Finset.range s.numRows, inverse r i * x.getD i 0)
    (c : Nat) (hc : c < s.numCols) :
    ∃ v, getSparseColumnOfBInvertedTimesA order g timesVec eps c = .ok v ∧ v.dirty = false ∧
      Clean v.entries ∧ (∀ e ∈ v.entries, e.index < s.numRows) ∧
      ∀ r < s.numRows, UpTo eps (s.timesA inverse r c) (v.value r) := by
  have hc' : c < g.lp.cols.length := by rw [h.numCols]; exact hc
  have hcol := List.getElem?_eq_getElem hc'
  obtain ⟨w, h1, h2, h3⟩ := denseColumn h c _ hcol _ (ho g.lp.cols[c].entries)
  obtain ⟨y, h4, h5, h6⟩ := ht w h2
  obtain ⟨v, k1, k2, k3, k4, k5⟩ := collect_init (Glop.above eps) (fun i => denseAt y i)
    (fun i => y.getD i 0) g.lp.rows.length
    (fun k hk => denseAt_ok (by rw [h5, ← h.numRows]; exact hk))
  rw [← h.numRows] at h1
  refine ⟨v, by simp only [getSparseColumnOfBInvertedTimesA, hf, Outcome.check, if_true,
    Outcome.bind_ok, hcol, h1, h4, k1], k3, k2, by rw [← h.numRows]; exact k4, fun r hr => ?_⟩
  rw [k5, if_pos (by rw [h.numRows]; exact hr)]
  have : s.timesA inverse r c = y.getD r 0 := by
    rw [h6 r hr, LpSpec.timesA]
    exact Finset.sum_congr rfl fun i hi => by rw [h3 i (Finset.mem_range.mp hi)]
  rw [this]
  exact upTo_above _ _

example : ∃ timesVec : List ℚ → Option (List ℚ), ∀ x, x.length = Glop.twoRowsSpec.numRows →
    ∃ y, timesVec x = some y ∧ y.length = Glop.twoRowsSpec.numRows ∧
      ∀ r < Glop.twoRowsSpec.numRows, y.getD r 0 =
        ∑ i ∈ Finset.range Glop.twoRowsSpec.numRows, (if i = r then 1 else 0) * x.getD i 0 := by
  refine ⟨some, fun x hx => ⟨x, rfl, hx, fun r hr => ?_⟩⟩
  have : r ∈ Finset.range Glop.twoRowsSpec.numRows := Finset.mem_range.mpr hr
  simp [Finset.sum_ite_eq', this]

end Soplex
end MiniMip
