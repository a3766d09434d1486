import Verif.Model.ArithVector
import Verif.Lemmas.Ieee

/-!
# Sparse vectors over any arithmetic
-/

namespace MiniMip
namespace AVector
variable {α : Type}

/-- Strictly increasing indices. -/
def StrictSorted (l : List (AEntry α)) : Prop := l.Pairwise (fun a b => a.index < b.index)

/-- Strictly increasing, non-negative indices and no zeros. -/
def Clean (A : Arith α) (l : List (AEntry α)) : Prop :=
  StrictSorted l ∧ ∀ e ∈ l, A.isZero e.value = false ∧ 0 ≤ e.index

theorem isSortedStrict_iff {l : List (AEntry α)} : isSortedStrict l = true ↔ StrictSorted l := by
  fun_induction isSortedStrict l with
  | case1 => simp [StrictSorted]
  | case2 => simp [StrictSorted]
  | case3 e f r ih =>
    rw [StrictSorted] at ih
    rw [Bool.and_eq_true, ih, StrictSorted, List.pairwise_cons (a := e)]
    constructor
    · rintro ⟨h1, h2⟩
      have h1 : e.index < f.index := by simpa using h1
      refine ⟨fun x hx => ?_, h2⟩
      rcases List.mem_cons.1 hx with rfl | hx
      · exact h1
      · have := (List.pairwise_cons.1 h2).1 x hx; omega
    · rintro ⟨h1, h2⟩
      exact ⟨by simpa using h1 f (by simp), h2⟩

theorem isClean_iff (A : Arith α) (v : AVector α) : v.isClean A = true ↔ Clean A v.entries := by
  unfold isClean Clean
  rw [Bool.and_eq_true, isSortedStrict_iff, List.all_eq_true]
  simp

theorem isSortedWeak_iff {l : List (AEntry α)} :
    isSortedWeak l = true ↔ l.Pairwise (fun a b => a.index ≤ b.index) := by
  fun_induction isSortedWeak l with
  | case1 => simp
  | case2 => simp
  | case3 e f r ih =>
    rw [Bool.and_eq_true, ih, List.pairwise_cons (a := e)]
    constructor
    · rintro ⟨h1, h2⟩
      have h1 : e.index ≤ f.index := by simpa using h1
      refine ⟨fun x hx => ?_, h2⟩
      rcases List.mem_cons.1 hx with rfl | hx
      · exact h1
      · have := (List.pairwise_cons.1 h2).1 x hx; omega
    · rintro ⟨h1, h2⟩
      exact ⟨by simpa using h1 f (by simp), h2⟩

theorem insertStable_mem {e x : AEntry α} {l : List (AEntry α)} :
    x ∈ insertStable e l ↔ x = e ∨ x ∈ l := by
  induction l with
  | nil => simp [insertStable]
  | cons f r ih =>
    unfold insertStable
    split
    · simp
    · simp only [List.mem_cons, ih]; tauto

theorem stableSort_mem {x : AEntry α} {l : List (AEntry α)} : x ∈ stableSort l ↔ x ∈ l := by
  induction l with
  | nil => simp [stableSort]
  | cons e r ih => simp [stableSort, insertStable_mem, ih]

theorem insertStable_sorted {e : AEntry α} {l : List (AEntry α)}
    (h : l.Pairwise (fun a b => a.index ≤ b.index)) :
    (insertStable e l).Pairwise (fun a b => a.index ≤ b.index) := by
  induction l with
  | nil => simp [insertStable]
  | cons f r ih =>
    unfold insertStable
    split
    · rename_i hle
      refine List.pairwise_cons.2 ⟨fun x hx => ?_, h⟩
      rcases List.mem_cons.1 hx with rfl | hx
      · exact hle
      · have := (List.pairwise_cons.1 h).1 x hx; omega
    · rename_i hgt
      refine List.pairwise_cons.2 ⟨fun x hx => ?_, ih (List.pairwise_cons.1 h).2⟩
      rcases insertStable_mem.1 hx with rfl | hx
      · omega
      · exact (List.pairwise_cons.1 h).1 x hx

theorem stableSort_sorted (l : List (AEntry α)) :
    (stableSort l).Pairwise (fun a b => a.index ≤ b.index) := by
  induction l with
  | nil => simp [stableSort]
  | cons e r ih => exact insertStable_sorted ih

theorem compact_mem {A : Arith α} {x : AEntry α} {l : List (AEntry α)} (h : x ∈ compact A l) :
    x ∈ l ∧ A.isZero x.value = false := by
  fun_induction compact A l with
  | case1 => simp at h
  | case2 e he => simp at h
  | case3 e he => simp at h; subst h; simpa using he
  | case4 e f r _ ih => have := ih h; exact ⟨by simp [this.1], this.2⟩
  | case5 e f r _ _ ih => have := ih h; exact ⟨by simp [this.1], this.2⟩
  | case6 e f r _ hz ih =>
    rcases List.mem_cons.1 h with rfl | h
    · exact ⟨by simp, by simpa using hz⟩
    · have := ih h; exact ⟨by simp [this.1], this.2⟩

theorem compact_sorted {A : Arith α} {l : List (AEntry α)} (h : l.Pairwise (fun a b => a.index ≤ b.index)) :
    StrictSorted (compact A l) := by
  fun_induction compact A l with
  | case1 => simp [StrictSorted]
  | case2 => simp [StrictSorted]
  | case3 => simp [StrictSorted]
  | case4 e f r _ ih => exact ih (List.pairwise_cons.1 h).2
  | case5 e f r _ _ ih => exact ih (List.pairwise_cons.1 h).2
  | case6 e f r hne _ ih =>
    have h2 := List.pairwise_cons.1 h
    refine List.pairwise_cons.2 ⟨fun x hx => ?_, ih h2.2⟩
    have hx := (compact_mem hx).1
    have hf : e.index < f.index := lt_of_le_of_ne (h2.1 f (by simp)) hne
    rcases List.mem_cons.1 hx with rfl | hx
    · exact hf
    · have := (List.pairwise_cons.1 h2.2).1 x hx; omega

/-! ### `AddMultipleOfVector` -/

/-- The merged list with the duplicates summed, as a function of the two sorted lists. -/
def mergeAdd (A : Arith α) : List (AEntry α) → List (AEntry α) → List (AEntry α)
  | a :: as, b :: bs =>
    if a.index = b.index then ⟨a.index, A.add a.value b.value⟩ :: ⟨a.index, A.zero⟩ :: mergeAdd A as bs
    else if a.index < b.index then a :: mergeAdd A as (b :: bs)
    else b :: mergeAdd A (a :: as) bs
  | [], l => l
  | l, [] => l
  termination_by l1 l2 => l1.length + l2.length

theorem sumDuplicates_single (A : Arith α) (l : List (AEntry α)) :
    ∀ (cur : Int) (ptr : Option Nat) (done : List (AEntry α)), StrictSorted l → (∀ e ∈ l, cur < e.index) →
      sumDuplicates A cur ptr done l = .ok (done ++ l) := by
  induction l with
  | nil => intro cur ptr done _ _; simp [sumDuplicates]
  | cons e r ih =>
    intro cur ptr done hs hc
    have hs' := List.pairwise_cons.1 hs
    unfold sumDuplicates
    rw [if_pos (by have := hc e (by simp); omega), ih _ _ _ hs'.2 hs'.1]
    simp

theorem modify_length (l : List (AEntry α)) (a : AEntry α) (f : AEntry α → AEntry α) :
    (l ++ [a]).modify l.length f = l ++ [f a] := by
  induction l with
  | nil => simp
  | cons x r ih => simpa using ih

theorem sumDuplicates_merge (A : Arith α) (l1 l2 : List (AEntry α)) :
    ∀ (cur : Int) (ptr : Option Nat) (done : List (AEntry α)), StrictSorted l1 → StrictSorted l2 →
      (∀ e ∈ l1, cur < e.index) → (∀ e ∈ l2, cur < e.index) →
      sumDuplicates A cur ptr done (List.merge l1 l2 (fun a b => decide (a.index ≤ b.index))) =
        .ok (done ++ mergeAdd A l1 l2) := by
  fun_induction mergeAdd A l1 l2 with
  | case1 a as b bs heq ih =>
    intro cur ptr done h1 h2 hc1 hc2
    have h1' := List.pairwise_cons.1 h1
    have h2' := List.pairwise_cons.1 h2
    rw [List.cons_merge_cons, if_pos (by simp [heq])]
    have hm : List.merge as (b :: bs) (fun a b => decide (a.index ≤ b.index)) =
        b :: List.merge as bs (fun a b => decide (a.index ≤ b.index)) := by
      cases as with
      | nil => simp
      | cons c cs =>
        rw [List.cons_merge_cons, if_neg]
        have := h1'.1 c (by simp)
        simp; omega
    rw [hm]
    unfold sumDuplicates
    rw [if_pos (by have := hc1 a (by simp); omega)]
    unfold sumDuplicates
    rw [if_neg (by simp [heq])]
    simp only
    rw [modify_length, ih _ _ _ h1'.2 h2'.2 h1'.1 (fun e he => by have := h2'.1 e he; omega), heq]
    simp
  | case2 a as b bs hne hlt ih =>
    intro cur ptr done h1 h2 hc1 hc2
    have h1' := List.pairwise_cons.1 h1
    rw [List.cons_merge_cons, if_pos (by simp; omega)]
    unfold sumDuplicates
    rw [if_pos (by have := hc1 a (by simp); omega), ih _ _ _ h1'.2 h2 h1'.1 (fun e he => ?_)]
    · simp
    · rcases List.mem_cons.1 he with rfl | he
      · exact hlt
      · have := (List.pairwise_cons.1 h2).1 e he; omega
  | case3 a as b bs hne hlt ih =>
    intro cur ptr done h1 h2 hc1 hc2
    have h2' := List.pairwise_cons.1 h2
    rw [List.cons_merge_cons, if_neg (by simp; omega)]
    unfold sumDuplicates
    rw [if_pos (by have := hc2 b (by simp); omega), ih _ _ _ h1 h2'.2 (fun e he => ?_) h2'.1]
    · simp
    · rcases List.mem_cons.1 he with rfl | he
      · omega
      · have := (List.pairwise_cons.1 h1).1 e he; omega
  | case4 l =>
    intro cur ptr done _ h2 _ hc2
    rw [List.nil_merge]
    exact sumDuplicates_single A l cur ptr done h2 hc2
  | case5 l hl =>
    intro cur ptr done h1 _ hc1 _
    rw [List.merge_right]
    exact sumDuplicates_single A l cur ptr done h1 hc1

theorem mergeAdd_index {A : Arith α} {l1 l2 : List (AEntry α)} :
    ∀ x ∈ mergeAdd A l1 l2, ∃ y ∈ l1 ++ l2, y.index = x.index := by
  fun_induction mergeAdd A l1 l2 with
  | case1 a as b bs heq ih =>
    intro x hx
    rcases List.mem_cons.1 hx with rfl | hx
    · exact ⟨a, by simp, rfl⟩
    rcases List.mem_cons.1 hx with rfl | hx
    · exact ⟨a, by simp, rfl⟩
    obtain ⟨y, hy, h⟩ := ih x hx
    refine ⟨y, ?_, h⟩
    simp only [List.mem_append, List.mem_cons] at hy ⊢; tauto
  | case2 a as b bs hne hlt ih =>
    intro x hx
    rcases List.mem_cons.1 hx with rfl | hx
    · exact ⟨x, by simp, rfl⟩
    obtain ⟨y, hy, h⟩ := ih x hx
    refine ⟨y, ?_, h⟩
    simp only [List.mem_append, List.mem_cons] at hy ⊢; tauto
  | case3 a as b bs hne hlt ih =>
    intro x hx
    rcases List.mem_cons.1 hx with rfl | hx
    · exact ⟨x, by simp, rfl⟩
    obtain ⟨y, hy, h⟩ := ih x hx
    refine ⟨y, ?_, h⟩
    simp only [List.mem_append, List.mem_cons] at hy ⊢; tauto
  | case4 l => intro x hx; exact ⟨x, by simpa using hx, rfl⟩
  | case5 l hl => intro x hx; exact ⟨x, by simpa using hx, rfl⟩

theorem mergeAdd_sorted {A : Arith α} (hz : A.isZero A.zero = true) {l1 l2 : List (AEntry α)} :
    StrictSorted l1 → StrictSorted l2 →
      StrictSorted ((mergeAdd A l1 l2).filter (fun e => !A.isZero e.value)) := by
  fun_induction mergeAdd A l1 l2 with
  | case1 a as b bs heq ih =>
    intro h1 h2
    have h1' := List.pairwise_cons.1 h1
    have h2' := List.pairwise_cons.1 h2
    have hr : ∀ x ∈ (mergeAdd A as bs).filter (fun e => !A.isZero e.value), a.index < x.index := by
      intro x hx
      obtain ⟨y, hy, h⟩ := mergeAdd_index x (List.mem_filter.1 hx).1
      rw [← h]
      rcases List.mem_append.1 hy with hy | hy
      · exact h1'.1 y hy
      · have := h2'.1 y hy; omega
    rw [List.filter_cons, List.filter_cons, if_neg (by simp [hz] : ¬ (!A.isZero A.zero) = true)]
    split
    · exact List.pairwise_cons.2 ⟨hr, ih h1'.2 h2'.2⟩
    · exact ih h1'.2 h2'.2
  | case2 a as b bs hne hlt ih =>
    intro h1 h2
    have h1' := List.pairwise_cons.1 h1
    have h2' := List.pairwise_cons.1 h2
    rw [List.filter_cons]
    split
    · refine List.pairwise_cons.2 ⟨fun x hx => ?_, ih h1'.2 h2⟩
      obtain ⟨y, hy, h⟩ := mergeAdd_index x (List.mem_filter.1 hx).1
      rw [← h]
      rcases List.mem_append.1 hy with hy | hy
      · exact h1'.1 y hy
      · rcases List.mem_cons.1 hy with rfl | hy
        · exact hlt
        · have := h2'.1 y hy; omega
    · exact ih h1'.2 h2
  | case3 a as b bs hne hlt ih =>
    intro h1 h2
    have h1' := List.pairwise_cons.1 h1
    have h2' := List.pairwise_cons.1 h2
    rw [List.filter_cons]
    split
    · refine List.pairwise_cons.2 ⟨fun x hx => ?_, ih h1 h2'.2⟩
      obtain ⟨y, hy, h⟩ := mergeAdd_index x (List.mem_filter.1 hx).1
      rw [← h]
      rcases List.mem_append.1 hy with hy | hy
      · rcases List.mem_cons.1 hy with rfl | hy
        · omega
        · have := h1'.1 y hy; omega
      · exact h2'.1 y hy
    · exact ih h1 h2'.2
  | case4 l => intro _ h2; exact List.Pairwise.filter _ h2
  | case5 l hl => intro h1 _; exact List.Pairwise.filter _ h1

/-! ### Values -/

/-- The entry with index `i`, if any. -/
def lookup (l : List (AEntry α)) (i : Int) : Option α := (l.find? (fun e => decide (e.index = i))).map (·.value)

theorem lookup_nil (i : Int) : lookup ([] : List (AEntry α)) i = none := rfl

theorem lookup_cons (e : AEntry α) (r : List (AEntry α)) (i : Int) :
    lookup (e :: r) i = if e.index = i then some e.value else lookup r i := by
  unfold lookup
  by_cases h : e.index = i
  · rw [List.find?_cons_of_pos (by simpa using h), if_pos h]; rfl
  · rw [List.find?_cons_of_neg (by simpa using h), if_neg h]

theorem lookup_none {l : List (AEntry α)} {i : Int} (h : ∀ e ∈ l, e.index ≠ i) : lookup l i = none := by
  induction l with
  | nil => rfl
  | cons e r ih =>
    rw [lookup_cons, if_neg (h e (by simp)), ih fun x hx => h x (by simp [hx])]

theorem value_eq_lookup (A : Arith α) {v : AVector α} (h : StrictSorted v.entries) (i : Int) :
    v.value A i = (lookup v.entries i).getD A.zero := by
  unfold value
  generalize v.entries = l at h
  induction l with
  | nil => rfl
  | cons e r ih =>
    have h' := List.pairwise_cons.1 h
    rw [lookup_cons]
    by_cases h1 : i ≤ e.index
    · rw [List.find?_cons_of_pos (by simpa using h1)]
      by_cases h2 : e.index = i
      · simp [h2]
      · rw [if_neg h2, lookup_none fun x hx => by have := h'.1 x hx; omega]
        simp [h2]
    · rw [List.find?_cons_of_neg (by simpa using h1), if_neg (by omega)]
      exact ih h'.2

theorem lookup_map (l : List (AEntry α)) (f : Int → α → α) (i : Int) :
    lookup (l.map fun e => ⟨e.index, f e.index e.value⟩) i = (lookup l i).map (f i) := by
  induction l with
  | nil => rfl
  | cons e r ih =>
    rw [List.map_cons, lookup_cons, lookup_cons, ih]
    by_cases h : e.index = i
    · simp [h]
    · simp [h]

theorem lookup_mem {l : List (AEntry α)} {i : Int} {x : α} (h : lookup l i = some x) : ⟨i, x⟩ ∈ l := by
  induction l with
  | nil => simp [lookup_nil] at h
  | cons e r ih =>
    rw [lookup_cons] at h
    split at h
    · rename_i hi
      simp only [Option.some.injEq] at h
      subst h hi
      simp
    · exact List.mem_cons_of_mem _ (ih h)

/-- `none` for zeros. -/
def nonzero (A : Arith α) (x : α) : Option α := if A.isZero x then none else some x

theorem lookup_filter {A : Arith α} {l : List (AEntry α)} (h : StrictSorted l) (i : Int) :
    lookup (l.filter (fun e => !A.isZero e.value)) i = (lookup l i).bind (nonzero A) := by
  induction l with
  | nil => rfl
  | cons e r ih =>
    have h' := List.pairwise_cons.1 h
    rw [List.filter_cons, lookup_cons (e := e)]
    by_cases hz : A.isZero e.value = true
    · rw [if_neg (by simp [hz]), ih h'.2]
      by_cases hi : e.index = i
      · rw [if_pos hi, lookup_none fun x hx => by have := h'.1 x hx; omega]
        simp [nonzero, hz]
      · rw [if_neg hi]
    · rw [if_pos (by simp [hz]), lookup_cons, ih h'.2]
      by_cases hi : e.index = i
      · simp [hi, nonzero, hz]
      · rw [if_neg hi, if_neg hi]

/-- What the sum holds for an index. -/
def combine (A : Arith α) : Option α → Option α → Option α
  | some a, some b => nonzero A (A.add a b)
  | some a, none => nonzero A a
  | none, some b => nonzero A b
  | none, none => none

theorem lookup_mergeAdd {A : Arith α} (hz : A.isZero A.zero = true) {l1 l2 : List (AEntry α)} (i : Int) :
    StrictSorted l1 → StrictSorted l2 →
      lookup ((mergeAdd A l1 l2).filter (fun e => !A.isZero e.value)) i =
        combine A (lookup l1 i) (lookup l2 i) := by
  have hnone : ∀ {l1 l2 : List (AEntry α)} {k : Int}, (∀ e ∈ l1, k < e.index) → (∀ e ∈ l2, k < e.index) →
      lookup ((mergeAdd A l1 l2).filter (fun e => !A.isZero e.value)) k = none := by
    intro l1 l2 k h1 h2
    apply lookup_none
    intro x hx
    obtain ⟨y, hy, h⟩ := mergeAdd_index x (List.mem_filter.1 hx).1
    rcases List.mem_append.1 hy with hy | hy
    · have := h1 y hy; omega
    · have := h2 y hy; omega
  fun_induction mergeAdd A l1 l2 with
  | case1 a as b bs heq ih =>
    intro h1 h2
    have h1' := List.pairwise_cons.1 h1
    have h2' := List.pairwise_cons.1 h2
    rw [List.filter_cons, List.filter_cons, if_neg (by simp [hz] : ¬ (!A.isZero A.zero) = true),
      lookup_cons (e := a), lookup_cons (e := b)]
    by_cases hi : a.index = i
    · rw [if_pos hi, if_pos (show b.index = i by omega)]
      simp only [combine]
      unfold nonzero
      cases hs : A.isZero (A.add a.value b.value) with
      | true =>
        simp only [Bool.not_true, Bool.false_eq_true, if_false, if_true]
        rw [← hi]
        exact hnone h1'.1 fun e he => by have := h2'.1 e he; omega
      | false =>
        simp only [Bool.not_false, if_true, Bool.false_eq_true, if_false]
        rw [lookup_cons, if_pos hi]
    · rw [if_neg hi, if_neg (show ¬ b.index = i by omega), ← ih h1'.2 h2'.2]
      split
      · rw [lookup_cons, if_neg hi]
      · rfl
  | case2 a as b bs hne hlt ih =>
    intro h1 h2
    have h1' := List.pairwise_cons.1 h1
    have h2' := List.pairwise_cons.1 h2
    rw [List.filter_cons, lookup_cons (e := a)]
    by_cases hi : a.index = i
    · have hb : ∀ e ∈ b :: bs, a.index < e.index := by
        intro e he
        rcases List.mem_cons.1 he with rfl | he
        · exact hlt
        · have := h2'.1 e he; omega
      rw [if_pos hi, lookup_none (l := b :: bs) fun e he => by have := hb e he; omega]
      simp only [combine]
      unfold nonzero
      cases hs : A.isZero a.value with
      | true =>
        simp only [Bool.not_true, Bool.false_eq_true, if_false, if_true]
        rw [← hi]
        exact hnone h1'.1 hb
      | false =>
        simp only [Bool.not_false, if_true, Bool.false_eq_true, if_false]
        rw [lookup_cons, if_pos hi]
    · rw [if_neg hi, ← ih h1'.2 h2]
      split
      · rw [lookup_cons, if_neg hi]
      · rfl
  | case3 a as b bs hne hlt ih =>
    intro h1 h2
    have h1' := List.pairwise_cons.1 h1
    have h2' := List.pairwise_cons.1 h2
    rw [List.filter_cons, lookup_cons (e := b)]
    by_cases hi : b.index = i
    · have ha : ∀ e ∈ a :: as, b.index < e.index := by
        intro e he
        rcases List.mem_cons.1 he with rfl | he
        · omega
        · have := h1'.1 e he; omega
      rw [if_pos hi, lookup_none (l := a :: as) fun e he => by have := ha e he; omega]
      simp only [combine]
      unfold nonzero
      cases hs : A.isZero b.value with
      | true =>
        simp only [Bool.not_true, Bool.false_eq_true, if_false, if_true]
        rw [← hi]
        exact hnone ha h2'.1
      | false =>
        simp only [Bool.not_false, if_true, Bool.false_eq_true, if_false]
        rw [lookup_cons, if_pos hi]
    · rw [if_neg hi, ← ih h1 h2'.2]
      split
      · rw [lookup_cons, if_neg hi]
      · rfl
  | case4 l =>
    intro _ h2
    rw [lookup_filter h2, lookup_nil]
    cases lookup l i <;> rfl
  | case5 l hl =>
    intro h1 _
    rw [lookup_filter h1, lookup_nil]
    cases lookup l i <;> rfl

theorem map_strictSorted {l : List (AEntry α)} (h : StrictSorted l) (f : AEntry α → AEntry α)
    (hf : ∀ e, (f e).index = e.index) : StrictSorted (l.map f) := by
  unfold StrictSorted at h ⊢
  rw [List.pairwise_map]
  exact h.imp fun {a b} hab => by rw [hf, hf]; exact hab

/-- `AddMultipleOfVector` on sorted vectors. -/
theorem addMultiple_sorted {A : Arith α} (hz : A.isZero A.zero = true) {v w : AVector α} (s : α)
    (hv : StrictSorted v.entries) (hvi : ∀ e ∈ v.entries, 0 ≤ e.index)
    (hw : StrictSorted w.entries) (hwi : ∀ e ∈ w.entries, 0 ≤ e.index) :
    ∃ l, v.addMultiple A s w = .ok ⟨l, v.dirty⟩ ∧ Clean A l ∧
      ∀ i, lookup l i = combine A (lookup v.entries i) ((lookup w.entries i).map fun x => A.mul x s) := by
  set m := w.entries.map fun e => (⟨e.index, A.mul e.value s⟩ : AEntry α) with hm
  have hms : StrictSorted m := map_strictSorted hw _ fun _ => rfl
  have hmi : ∀ e ∈ m, 0 ≤ e.index := by
    intro e he
    obtain ⟨d, hd, rfl⟩ := List.mem_map.1 he
    exact hwi d hd
  refine ⟨(mergeAdd A v.entries m).filter (fun e => !A.isZero e.value), ?_, ⟨?_, ?_⟩, ?_⟩
  · unfold addMultiple
    simp only
    rw [← hm, isSortedWeak_iff.2 (hv.imp fun h => h.le), isSortedWeak_iff.2 (hms.imp fun h => h.le)]
    simp only [Bool.and_self, if_true]
    rw [sumDuplicates_merge A _ _ (-1) none [] hv hms (fun e he => by have := hvi e he; omega)
      (fun e he => by have := hmi e he; omega)]
    rfl
  · exact mergeAdd_sorted hz hv hms
  · intro e he
    obtain ⟨h1, h2⟩ := List.mem_filter.1 he
    obtain ⟨y, hy, h⟩ := mergeAdd_index e h1
    refine ⟨by simpa using h2, ?_⟩
    rw [← h]
    rcases List.mem_append.1 hy with hy | hy
    exacts [hvi y hy, hmi y hy]
  · intro i
    rw [lookup_mergeAdd hz i hv hms, hm, lookup_map w.entries (fun _ x => A.mul x s) i]

/-- `AddMultipleOfVector` on clean vectors. -/
theorem addMultiple_spec {A : Arith α} (hz : A.isZero A.zero = true) {v w : AVector α} (s : α)
    (hv : Clean A v.entries) (hw : Clean A w.entries) :
    ∃ l, v.addMultiple A s w = .ok ⟨l, v.dirty⟩ ∧ Clean A l ∧
      ∀ i, lookup l i = combine A (lookup v.entries i) ((lookup w.entries i).map fun x => A.mul x s) :=
  addMultiple_sorted hz s hv.1 (fun e he => (hv.2 e he).2) hw.1 (fun e he => (hw.2 e he).2)

end AVector
end MiniMip
