import Verif.Model.GlopLpi
import Verif.Props.SparseVector
import Mathlib.Data.List.Count
import Mathlib.Data.List.Basic

/-!
# Lemmas about the Glop LP interface model: positions kept by a deletion, clean columns
-/

namespace MiniMip
namespace Glop

open SparseVector

/-- The positions below `n` that a deletion keeps, in increasing order. -/
def keptPositions (n : Nat) (deleted : Nat → Bool) : List Nat :=
  (List.range n).filter fun i => !deleted i

/-- The elements of a list at the given positions. -/
def selectAt {α : Type} (l : List α) (positions : List Nat) : List α :=
  positions.filterMap fun i => l[i]?

theorem keptPositions_succ (n : Nat) (d : Nat → Bool) :
    keptPositions (n + 1) d = keptPositions n d ++ (if d n then [] else [n]) := by
  unfold keptPositions
  rw [List.range_succ, List.filter_append]
  congr 1
  by_cases h : d n <;> simp [h]

theorem keptPositions_cons (n : Nat) (d : Nat → Bool) :
    keptPositions (n + 1) d =
      (if d 0 then [] else [0]) ++ (keptPositions n fun i => d (i + 1)).map (· + 1) := by
  unfold keptPositions
  rw [List.range_succ_eq_map, List.filter_cons]
  have : (fun i => !d i) ∘ Nat.succ = fun i => !d (i + 1) := rfl
  by_cases h : d 0 <;> simp [h, List.filter_map, this]

theorem keptPositions_congr {n : Nat} {d d' : Nat → Bool} (h : ∀ i < n, d i = d' i) :
    keptPositions n d = keptPositions n d' := by
  unfold keptPositions
  apply List.filter_congr
  intro i hi
  rw [h i (List.mem_range.mp hi)]

theorem mem_keptPositions {n i : Nat} {d : Nat → Bool} :
    i ∈ keptPositions n d ↔ i < n ∧ d i = false := by
  simp [keptPositions]

theorem keptPositions_sorted (n : Nat) (d : Nat → Bool) :
    (keptPositions n d).Pairwise (· < ·) :=
  List.Pairwise.filter _ List.pairwise_lt_range

theorem keptPositions_inj {n i i' j j' : Nat} {d : Nat → Bool}
    (h : (keptPositions n d)[j]? = some i) (h' : (keptPositions n d)[j']? = some i') :
    j < j' ↔ i < i' := by
  have hs := keptPositions_sorted n d
  obtain ⟨hj, rfl⟩ := List.getElem?_eq_some_iff.mp h
  obtain ⟨hj', rfl⟩ := List.getElem?_eq_some_iff.mp h'
  rw [List.pairwise_iff_getElem] at hs
  constructor
  · intro hlt; exact hs j j' hj hj' hlt
  · intro hlt
    rcases Nat.lt_trichotomy j j' with h1 | h1 | h1
    · exact h1
    · subst h1; omega
    · have := hs j' j hj' hj h1; omega

theorem keptPositions_unique {n i j j' : Nat} {d : Nat → Bool}
    (h : (keptPositions n d)[j]? = some i) (h' : (keptPositions n d)[j']? = some i) : j = j' := by
  have h1 := keptPositions_inj h h'
  have h2 := keptPositions_inj h' h
  omega

theorem keepUnmarked_eq {α : Type} (l : List α) (mask : List Bool) :
    keepUnmarked l mask = selectAt l (keptPositions l.length fun i => mask.getD i false) := by
  induction l generalizing mask with
  | nil => simp [keepUnmarked, selectAt]
  | cons x xs ih =>
    have step : ∀ d : Nat → Bool, selectAt (x :: xs) (keptPositions (xs.length + 1) d) =
        (if d 0 then [] else [x]) ++ selectAt xs (keptPositions xs.length fun i => d (i + 1)) := by
      intro d
      rw [keptPositions_cons, selectAt, List.filterMap_append, List.filterMap_map]
      congr 1
      by_cases h : d 0 <;> simp [h]
    rw [List.length_cons, step]
    cases mask with
    | nil =>
      have hxs := ih []
      simp only [List.getD_nil] at hxs ⊢
      rw [← hxs]
      cases xs <;> simp [keepUnmarked]
    | cons b bs =>
      have := ih bs
      cases b <;> simp [keepUnmarked, this]

theorem length_keepUnmarked {α : Type} (l : List α) (mask : List Bool) :
    (keepUnmarked l mask).length =
      (keptPositions l.length fun i => mask.getD i false).length := by
  rw [keepUnmarked_eq, selectAt]
  have h : ∀ i ∈ keptPositions l.length (fun i => mask.getD i false), i < l.length :=
    fun i hi => (mem_keptPositions.mp hi).1
  generalize keptPositions l.length (fun i => mask.getD i false) = ks at h
  induction ks with
  | nil => rfl
  | cons k ks ih =>
    have hk := h k (by simp)
    simp [List.getElem?_eq_getElem hk, ih (fun i hi => h i (by simp [hi]))]

theorem getElem?_selectAt {α : Type} {l : List α} {ks : List Nat} (h : ∀ i ∈ ks, i < l.length)
    (j : Nat) : (selectAt l ks)[j]? = ks[j]?.bind fun i => l[i]? := by
  induction ks generalizing j with
  | nil => simp [selectAt]
  | cons k ks ih =>
    have hk := h k (by simp)
    have ih := ih (fun i hi => h i (by simp [hi]))
    simp only [selectAt] at ih ⊢
    rw [List.filterMap_cons, List.getElem?_eq_getElem hk]
    cases j with
    | zero => simp [List.getElem?_eq_getElem hk]
    | succ j => simpa using ih j

theorem getElem?_keepUnmarked {α : Type} (l : List α) (mask : List Bool) (j : Nat) :
    (keepUnmarked l mask)[j]? =
      (keptPositions l.length fun i => mask.getD i false)[j]?.bind fun i => l[i]? := by
  rw [keepUnmarked_eq, getElem?_selectAt fun i hi => (mem_keptPositions.mp hi).1]

theorem length_keptPositions_add_count (i : Nat) (mask : List Bool) :
    (keptPositions i fun i => mask.getD i false).length + (mask.take i).count true = i := by
  induction i with
  | zero => simp [keptPositions]
  | succ i ih =>
    simp only [List.getD_eq_getElem?_getD] at ih ⊢
    rw [keptPositions_succ, List.length_append, List.take_add_one, List.count_append]
    cases h : mask[i]? with
    | none => simp; omega
    | some b =>
      cases b <;> simp <;> omega

theorem keptPositions_split (n i : Nat) (d : Nat → Bool) (hi : i < n) (hd : d i = false) :
    (keptPositions n d)[(keptPositions i d).length]? = some i := by
  have : ∃ t, keptPositions n d = keptPositions i d ++ i :: t := by
    induction n with
    | zero => omega
    | succ n ih =>
      rw [keptPositions_succ]
      by_cases h : i < n
      · obtain ⟨t, ht⟩ := ih h
        exact ⟨t ++ _, by rw [ht]; simp; rfl⟩
      · have : i = n := by omega
        subst this
        exact ⟨[], by simp [hd]⟩
  obtain ⟨t, ht⟩ := this
  rw [ht]
  simp

/-- The new position computed by Glop is the position among the kept rows. -/
theorem newPosition_eq_some {mask : List Bool} {n i j : Nat} (hi : i < n) :
    newPosition mask i = some j ↔ (keptPositions n fun i => mask.getD i false)[j]? = some i := by
  unfold newPosition
  have hc := length_keptPositions_add_count i mask
  by_cases h : mask.getD i false = true
  · simp only [h, if_true]
    constructor
    · intro h'; cases h'
    · intro h'
      have := (mem_keptPositions.mp (List.mem_of_getElem? h')).2
      simp only [h] at this
      cases this
  · have h2 := keptPositions_split n i (fun i => mask.getD i false) hi (by simpa using h)
    rw [if_neg h]
    have h3 : i - (mask.take i).count true = (keptPositions i fun i => mask.getD i false).length := by
      omega
    rw [h3]
    constructor
    · intro h'; cases h'; exact h2
    · intro h'; rw [keptPositions_unique h2 h']

/-! ### Clean lists -/

theorem mem_iff_valueAt {l : List Entry} (h : Clean l) {i : Int} {x : ℚ} (hx : x ≠ 0) :
    ⟨i, x⟩ ∈ l ↔ valueAt l i = x := by
  obtain ⟨hs, hz⟩ := h
  induction l with
  | nil => simp [valueAt_nil, hx.symm]
  | cons e r ih =>
    rw [List.pairwise_cons] at hs
    have ih := ih hs.2 (fun f hf => hz f (by simp [hf]))
    rw [valueAt_cons, List.mem_cons]
    by_cases h1 : e.index < i
    · rw [if_pos h1, ← ih]
      have : (⟨i, x⟩ : Entry) ≠ e := by rintro rfl; simp at h1
      simp [this]
    · rw [if_neg h1]
      have hr : (⟨i, x⟩ : Entry) ∉ r := fun hm => by
        have := hs.1 _ hm; simp at this; omega
      by_cases h2 : e.index = i
      · rw [if_pos h2]
        constructor
        · rintro (h3 | h3)
          · rw [← h3]
          · exact absurd h3 hr
        · intro h3; left; cases e; simp_all
      · rw [if_neg h2]
        constructor
        · rintro (h3 | h3)
          · exact absurd (by rw [← h3]) h2
          · exact absurd h3 hr
        · intro h3; exact absurd h3.symm hx

/-- Two clean lists have the same value at two indices if they have the same entries there. -/
theorem valueAt_congr {l l' : List Entry} (h : Clean l) (h' : Clean l') {i i' : Int}
    (hm : ∀ x, x ≠ 0 → (⟨i, x⟩ ∈ l ↔ ⟨i', x⟩ ∈ l')) : valueAt l i = valueAt l' i' := by
  by_cases h0 : valueAt l i = 0
  · by_cases h0' : valueAt l' i' = 0
    · rw [h0, h0']
    · have := (hm _ h0').mpr ((mem_iff_valueAt h' h0').mpr rfl)
      exact (mem_iff_valueAt h h0').mp this
  · have := (hm _ h0).mp ((mem_iff_valueAt h h0).mpr rfl)
    exact ((mem_iff_valueAt h' h0).mp this).symm

theorem valueAt_append_last {l : List Entry} (h : Clean l) {k : Int} (hk : ∀ e ∈ l, e.index < k)
    (x : ℚ) (i : Int) :
    valueAt (l ++ [⟨k, x⟩]) i = if i = k then x else valueAt l i := by
  have hs : StrictSorted (l ++ [⟨k, x⟩]) := by
    unfold StrictSorted
    rw [List.pairwise_append]
    exact ⟨h.1, by simp, by simpa using hk⟩
  rw [valueAt_eq_sumAt hs, sumAt_append, valueAt_eq_sumAt h.1]
  by_cases hi : i = k
  · subst hi
    rw [sumAt_eq_zero (fun e he => by have := hk e he; omega)]
    simp [sumAt]
  · simp [sumAt, hi, Ne.symm hi]

theorem valueAt_eq_zero_of_lt {l : List Entry} {k : Int} (h : Clean l)
    (hk : ∀ e ∈ l, e.index < k) : valueAt l k = 0 := by
  rw [valueAt_eq_sumAt h.1, sumAt_eq_zero]
  intro e he
  have := hk e he
  omega

theorem clean_append_last {l : List Entry} (h : Clean l) {k : Int} (hk : ∀ e ∈ l, e.index < k)
    (h0 : 0 ≤ k) {x : ℚ} (hx : x ≠ 0) : Clean (l ++ [⟨k, x⟩]) := by
  constructor
  · rw [List.pairwise_append]
    exact ⟨h.1, by simp, by simpa using hk⟩
  · intro e he
    rcases List.mem_append.mp he with he | he
    · exact h.2 e he
    · simp at he; subst he; exact ⟨hx, h0⟩

theorem copyEntries_clean (v : SparseVector) (l : List Entry) (hd : v.dirty = false)
    (h : Clean (v.entries ++ l)) : copyEntries v l = ⟨v.entries ++ l, false⟩ := by
  induction l generalizing v with
  | nil => cases v; simp_all [copyEntries]
  | cons e r ih =>
    have hlast : v.lastIndex < e.index := by
      unfold lastIndex
      cases hg : v.entries.getLast? with
      | none =>
        have := (h.2 e (by simp)).2
        simp; omega
      | some f =>
        have hf : f ∈ v.entries := List.mem_of_getLast? hg
        exact (List.pairwise_append.mp h.1).2.2 f hf e (by simp)
    have hv : v.addEntry e.index e.value = ⟨v.entries ++ [e], false⟩ := by
      unfold addEntry
      rw [hd]
      simp only [Bool.false_eq_true, if_false]
      rw [if_neg (by omega), if_neg (h.2 e (by simp)).1]
    rw [copyEntries, hv, ih _ rfl (by simpa using h)]
    simp

theorem cleanUp_replicate (n : Nat) :
    (mutateEntries {} (List.replicate n Entry.default)).cleanUpIfNeeded = ⟨[], false⟩ := by
  unfold mutateEntries cleanUpIfNeeded
  simp only [if_true]
  have : compact (stableSort (List.replicate n Entry.default)) = [] := by
    rw [List.eq_nil_iff_forall_not_mem]
    intro x hx
    have h1 := compact_mem hx
    have h2 := stableSort_mem.mp h1.1
    rw [List.mem_replicate] at h2
    rw [h2.2] at h1
    exact h1.2 rfl
  rw [this]

theorem copyToSparse_clean {l : List Entry} (h : Clean l) : copyToSparse l = ⟨l, false⟩ := by
  unfold copyToSparse
  rw [cleanUp_replicate, copyEntries_clean _ _ rfl (by simpa using h)]
  simp

theorem lookUp_eq_valueAt {l : List Entry} (h : Clean l) (i : Int) : lookUp l i = valueAt l i := by
  obtain ⟨hs, -⟩ := h
  induction l with
  | nil => rfl
  | cons e r ih =>
    rw [List.pairwise_cons] at hs
    rw [lookUp, valueAt_cons, ih hs.2]
    by_cases h1 : e.index < i
    · rw [if_pos h1]
      split
      · rfl
      · rename_i hn
        rw [if_neg (by omega)]
        rw [valueAt_eq_sumAt hs.2, sumAt_eq_zero]
        intro x hx hxi
        exact hn (by rw [List.any_eq_true]; exact ⟨x, hx, by simp [hxi]⟩)
    · rw [if_neg h1, if_neg]
      rw [List.any_eq_true]
      rintro ⟨x, hx, hxi⟩
      have := hs.1 x hx
      simp at hxi
      omega

/-- Renumbering the entries of a clean column after a deletion of rows. -/
theorem renumber_clean {l : List Entry} (h : Clean l) {n : Nat} (hn : ∀ e ∈ l, e.index < n)
    (mask : List Bool) :
    let l' := l.filterMap fun e => (newPosition mask e.index.toNat).map fun (i : Nat) => (⟨(i : Int), e.value⟩ : Entry)
    let ks := keptPositions n fun i => mask.getD i false
    Clean l' ∧ (∀ e ∈ l', e.index < ks.length) ∧
      ∀ j i : Nat, ks[j]? = some i → valueAt l' j = valueAt l i := by
  intro l' ks
  have hmem : ∀ f : Entry, f ∈ l' ↔ ∃ e ∈ l, ∃ j, newPosition mask e.index.toNat = some j ∧
      f = ⟨j, e.value⟩ := by
    intro f
    simp only [l', List.mem_filterMap, Option.map_eq_some_iff]
    constructor
    · rintro ⟨e, he, j, hj, rfl⟩; exact ⟨e, he, j, hj, rfl⟩
    · rintro ⟨e, he, j, hj, rfl⟩; exact ⟨e, he, j, hj, rfl⟩
  have hpos : ∀ e ∈ l, ∀ j, newPosition mask e.index.toNat = some j ↔ ks[j]? = some e.index.toNat := by
    intro e he j
    have h1 := hn e he
    have h2 := (h.2 e he).2
    exact newPosition_eq_some (by omega)
  have hc : Clean l' := by
    constructor
    · simp only [l']
      rw [List.pairwise_filterMap]
      refine List.Pairwise.imp_of_mem ?_ h.1
      intro a b ha hb hab x hx y hy
      rw [Option.map_eq_some_iff] at hx hy
      obtain ⟨j, hj, rfl⟩ := hx
      obtain ⟨j', hj', rfl⟩ := hy
      have h1 := (hpos a ha j).mp hj
      have h2 := (hpos b hb j').mp hj'
      have h3 := (h.2 a ha).2
      have := (keptPositions_inj h1 h2).mpr (by omega)
      simpa using this
    · intro f hf
      obtain ⟨e, he, j, -, rfl⟩ := (hmem f).mp hf
      exact ⟨(h.2 e he).1, by simp⟩
  refine ⟨hc, ?_, ?_⟩
  · intro f hf
    obtain ⟨e, he, j, hj, rfl⟩ := (hmem f).mp hf
    have h1 := (hpos e he j).mp hj
    have := (List.getElem?_eq_some_iff.mp h1).1
    simpa using this
  · intro j i hji
    apply valueAt_congr hc h
    intro x hx
    rw [hmem]
    constructor
    · rintro ⟨e, he, j', hj', hf⟩
      have h1 := (hpos e he j').mp hj'
      have h2 := (h.2 e he).2
      have hjj : j = j' ∧ x = e.value := by simpa using hf
      obtain ⟨rfl, rfl⟩ := hjj
      have : i = e.index.toNat := by rw [hji] at h1; exact Option.some.inj h1
      have he' : (⟨(i : Int), e.value⟩ : Entry) = e := by
        cases e; simp_all
      rw [he']; exact he
    · intro he
      exact ⟨_, he, j, (hpos _ he j).mpr (by simpa using hji), rfl⟩

/-- The row assembled from clean columns is clean and has the columns' values. -/
theorem transposedRow_clean (r : Int) (cols : List Column) (k : Nat)
    (h : ∀ c ∈ cols, Clean c.entries) :
    Clean (transposedRow r k cols) ∧
    (∀ e ∈ transposedRow r k cols, (k : Int) ≤ e.index ∧ e.index < (k + cols.length : Nat)) ∧
    ∀ (j : Nat) (c : Column), cols[j]? = some c →
      valueAt (transposedRow r k cols) ((k + j : Nat) : Int) = valueAt c.entries r := by
  induction cols generalizing k with
  | nil => simp [transposedRow, Clean]
  | cons c cs ih =>
    obtain ⟨h1, h2, h3⟩ := ih (k + 1) (fun x hx => h x (by simp [hx]))
    have hc := h c (by simp)
    set first : List Entry := (c.entries.filter fun e => decide (e.index = r)).map
      fun e => (⟨(k : Int), e.value⟩ : Entry) with hf
    have hmem : ∀ f : Entry, f ∈ first ↔ f.index = k ∧ (⟨r, f.value⟩ : Entry) ∈ c.entries := by
      intro f
      simp only [hf, List.mem_map, List.mem_filter, decide_eq_true_eq]
      constructor
      · rintro ⟨e, ⟨he, her⟩, rfl⟩
        refine ⟨rfl, ?_⟩
        have : (⟨r, e.value⟩ : Entry) = e := by cases e; simp_all
        simpa [this] using he
      · rintro ⟨h1, h2⟩
        exact ⟨_, ⟨h2, rfl⟩, by cases f; simp_all⟩
    have hall : ∀ e ∈ transposedRow r k (c :: cs), e ∈ first ∨ e ∈ transposedRow r (k + 1) cs := by
      intro e he
      simpa [transposedRow, ← hf] using he
    have hrange : ∀ e ∈ transposedRow r k (c :: cs),
        (k : Int) ≤ e.index ∧ e.index < (k + (c :: cs).length : Nat) := by
      intro e he
      rcases hall e he with he | he
      · have := ((hmem e).mp he).1
        rw [this]; simp
      · have := h2 e he
        simp only [List.length_cons]
        push_cast at this ⊢
        omega
    have hclean : Clean (transposedRow r k (c :: cs)) := by
      constructor
      · simp only [transposedRow]
        rw [← hf, List.pairwise_append]
        refine ⟨?_, h1.1, ?_⟩
        · -- at most one entry: entries of one row in a clean column
          have : first.length ≤ 1 := by
            simp only [hf, List.length_map]
            have hs := List.Pairwise.filter (fun e => decide (e.index = r)) hc.1
            generalize hl : c.entries.filter (fun e => decide (e.index = r)) = l at hs
            have hl' : ∀ e ∈ l, e.index = r := by
              intro e he; rw [← hl] at he; simpa using (List.mem_filter.mp he).2
            match l, hs, hl' with
            | [], _, _ => simp
            | [_], _, _ => simp
            | a :: b :: t, hs, hl' =>
              have := (List.pairwise_cons.mp hs).1 b (by simp)
              rw [hl' a (by simp), hl' b (by simp)] at this
              omega
          match first, this with
          | [], _ => simp
          | [_], _ => simp
        · intro a ha b hb
          have := ((hmem a).mp ha).1
          have := (h2 b hb).1
          push_cast at this
          omega
      · intro e he
        rcases hall e he with he | he
        · have he' := (hmem e).mp he
          exact ⟨(hc.2 _ he'.2).1, by rw [he'.1]; simp⟩
        · exact h1.2 e he
    refine ⟨hclean, hrange, ?_⟩
    intro j d hd
    cases j with
    | zero =>
      simp at hd
      subst hd
      apply valueAt_congr hclean hc
      intro x hx
      have : (⟨((k + 0 : Nat) : Int), x⟩ : Entry) ∈ transposedRow r k (c :: cs) ↔
          (⟨((k + 0 : Nat) : Int), x⟩ : Entry) ∈ first := by
        simp only [transposedRow, ← hf, List.mem_append]
        constructor
        · rintro (h | h)
          · exact h
          · have := (h2 _ h).1; simp at this
        · exact Or.inl
      rw [this, hmem]
      simp
    | succ j =>
      simp at hd
      rw [← h3 j d hd]
      apply valueAt_congr hclean h1
      intro x hx
      have hkj : ((k + (j + 1) : Nat) : Int) = ((k + 1 + j : Nat) : Int) := by push_cast; ring
      rw [hkj]
      simp only [transposedRow, ← hf, List.mem_append]
      constructor
      · rintro (h | h)
        · have := ((hmem _).mp h).1
          simp at this; omega
        · exact h
      · exact Or.inr

end Glop
end MiniMip
