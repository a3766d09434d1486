import Verif.Model.SparseVector
import Mathlib.Tactic.Linarith
import Mathlib.Tactic.Ring
import Mathlib.Algebra.BigOperators.Ring.Finset

/-! Helper lemmas about the sparse vector model. -/

namespace MiniMip
namespace SparseVector

/-- Strictly increasing indices. -/
def StrictSorted (l : List Entry) : Prop := l.Pairwise (fun a b => a.index < b.index)

/-- Non-decreasing indices. -/
def WeakSorted (l : List Entry) : Prop := l.Pairwise (fun a b => a.index ≤ b.index)

/-- Writing the entries of `l` one after the other into the map `f`. -/
def lastFrom (f : Int → ℚ) (l : List Entry) : Int → ℚ :=
  l.foldl (fun g e => Function.update g e.index e.value) f

/-- Sum of the values stored under index `i`. -/
def sumAt : List Entry → Int → ℚ
  | [], _ => 0
  | e :: r, i => (if e.index = i then e.value else 0) + sumAt r i

@[simp] theorem lastFrom_nil (f) : lastFrom f [] = f := rfl
@[simp] theorem lastFrom_cons (f e r) :
    lastFrom f (e :: r) = lastFrom (Function.update f e.index e.value) r := rfl
theorem lastFrom_append (f l r) : lastFrom f (l ++ r) = lastFrom (lastFrom f l) r := by
  simp [lastFrom, List.foldl_append]

/-! ### valueAt -/

theorem valueAt_nil (i : Int) : valueAt [] i = 0 := rfl

theorem valueAt_cons (e : Entry) (r : List Entry) (i : Int) :
    valueAt (e :: r) i =
      if e.index < i then valueAt r i else if e.index = i then e.value else 0 := by
  unfold valueAt
  by_cases h : i ≤ e.index
  · rw [List.find?_cons_of_pos (by simpa using h)]
    have h1 : ¬ e.index < i := by omega
    by_cases h2 : e.index = i <;> simp [h1, h2]
  · rw [List.find?_cons_of_neg (by simpa using h)]
    have h1 : e.index < i := by omega
    simp [h1]

theorem sumAt_eq_zero {l : List Entry} {i : Int} (h : ∀ e ∈ l, e.index ≠ i) : sumAt l i = 0 := by
  induction l with
  | nil => rfl
  | cons e r ih =>
    simp only [List.mem_cons, forall_eq_or_imp] at h
    simp [sumAt, h.1, ih h.2]

theorem lastFrom_of_not_mem {l : List Entry} {i : Int} (h : ∀ e ∈ l, e.index ≠ i) (f) :
    lastFrom f l i = f i := by
  induction l generalizing f with
  | nil => rfl
  | cons e r ih =>
    simp only [List.mem_cons, forall_eq_or_imp] at h
    rw [lastFrom_cons, ih h.2, Function.update_of_ne (Ne.symm h.1)]

theorem valueAt_eq_sumAt {l : List Entry} (h : StrictSorted l) (i : Int) :
    valueAt l i = sumAt l i := by
  induction l with
  | nil => rfl
  | cons e r ih =>
    rw [StrictSorted, List.pairwise_cons] at h
    rw [valueAt_cons, sumAt]
    by_cases h1 : e.index < i
    · have : e.index ≠ i := by omega
      simp [h1, this, ih h.2]
    · rw [if_neg h1]
      rw [sumAt_eq_zero (l := r) (fun x hx => by have := h.1 x hx; omega)]
      simp

theorem valueAt_eq_lastFrom {l : List Entry} (h : StrictSorted l) (i : Int) :
    valueAt l i = lastFrom (fun _ => 0) l i := by
  suffices H : ∀ f : Int → ℚ, (∀ e ∈ l, f e.index = 0) → f i = 0 →
      valueAt l i = lastFrom f l i from H _ (by simp) rfl
  induction l with
  | nil => intro f _ h; simp [valueAt_nil, h]
  | cons e r ih =>
    intro f hf hi
    rw [StrictSorted, List.pairwise_cons] at h
    rw [valueAt_cons, lastFrom_cons]
    by_cases h1 : e.index < i
    · rw [if_pos h1]
      apply ih h.2
      · intro x hx
        rw [Function.update_of_ne (by have := h.1 x hx; omega)]
        exact hf x (by simp [hx])
      · rw [Function.update_of_ne (by omega)]; exact hi
    · rw [if_neg h1, lastFrom_of_not_mem (fun x hx => by have := h.1 x hx; omega)]
      by_cases h2 : e.index = i
      · subst h2; simp
      · rw [if_neg h2, Function.update_of_ne (Ne.symm h2), hi]

/-! ### Sorting and compaction -/

theorem insertStable_mem {e x : Entry} {l : List Entry} :
    x ∈ insertStable e l ↔ x = e ∨ x ∈ l := by
  induction l with
  | nil => simp [insertStable]
  | cons f r ih =>
    rw [insertStable]; split
    · simp
    · simp only [List.mem_cons, ih]; tauto

theorem stableSort_mem {x : Entry} {l : List Entry} : x ∈ stableSort l ↔ x ∈ l := by
  induction l with
  | nil => simp [stableSort]
  | cons e r ih => simp [stableSort, insertStable_mem, ih]

theorem insertStable_sorted {e : Entry} {l : List Entry} (h : WeakSorted l) :
    WeakSorted (insertStable e l) := by
  induction l with
  | nil => simp [insertStable, WeakSorted]
  | cons f r ih =>
    have h' := h
    rw [WeakSorted, List.pairwise_cons] at h
    rw [insertStable]; split
    · rename_i h1
      rw [WeakSorted, List.pairwise_cons]
      refine ⟨?_, h'⟩
      intro x hx
      rcases List.mem_cons.1 hx with rfl | hx
      · exact h1
      · exact le_trans h1 (h.1 x hx)
    · rename_i h1
      rw [WeakSorted, List.pairwise_cons]
      refine ⟨?_, ih h.2⟩
      intro x hx
      rcases insertStable_mem.1 hx with rfl | hx
      · omega
      · exact h.1 x hx

theorem stableSort_sorted (l : List Entry) : WeakSorted (stableSort l) := by
  induction l with
  | nil => simp [stableSort, WeakSorted]
  | cons e r ih => exact insertStable_sorted ih

theorem lastFrom_insertStable (f) (e : Entry) (l : List Entry) :
    lastFrom f (insertStable e l) = lastFrom f (e :: l) := by
  induction l generalizing f with
  | nil => rfl
  | cons g r ih =>
    rw [insertStable]; split
    · rfl
    · rename_i h
      rw [lastFrom_cons, ih, lastFrom_cons, lastFrom_cons, lastFrom_cons,
        Function.update_comm (by omega)]

theorem lastFrom_stableSort (f) (l : List Entry) : lastFrom f (stableSort l) = lastFrom f l := by
  induction l generalizing f with
  | nil => rfl
  | cons e r ih => rw [stableSort, lastFrom_insertStable, lastFrom_cons, ih, lastFrom_cons]

theorem compact_mem {x : Entry} {l : List Entry} (h : x ∈ compact l) : x ∈ l ∧ x.value ≠ 0 := by
  fun_induction compact l with
  | case1 => simp at h
  | case2 e he => simp at h
  | case3 e he => simp at h; subst h; exact ⟨by simp, he⟩
  | case4 e f r _ ih => have := ih h; exact ⟨List.mem_cons_of_mem _ this.1, this.2⟩
  | case5 e f r _ _ ih => have := ih h; exact ⟨List.mem_cons_of_mem _ this.1, this.2⟩
  | case6 e f r _ he ih =>
    rcases List.mem_cons.1 h with rfl | h
    · exact ⟨by simp, he⟩
    · have := ih h; exact ⟨List.mem_cons_of_mem _ this.1, this.2⟩

theorem compact_sorted {l : List Entry} (h : WeakSorted l) : StrictSorted (compact l) := by
  fun_induction compact l with
  | case1 => simp [StrictSorted]
  | case2 e he => simp [StrictSorted]
  | case3 e he => simp [StrictSorted]
  | case4 e f r _ ih => exact ih (List.pairwise_cons.1 h).2
  | case5 e f r _ _ ih => exact ih (List.pairwise_cons.1 h).2
  | case6 e f r hne he ih =>
    have h1 := List.pairwise_cons.1 h
    have h2 := List.pairwise_cons.1 h1.2
    rw [StrictSorted, List.pairwise_cons]
    refine ⟨?_, ih h1.2⟩
    intro x hx
    have hx := (compact_mem hx).1
    have hf := h1.1 f (by simp)
    rcases List.mem_cons.1 hx with rfl | hx
    · omega
    · have := h2.1 x hx; omega

theorem lastFrom_compact {l : List Entry} (h : WeakSorted l) (f : Int → ℚ)
    (hf : ∀ e ∈ l, f e.index = 0) : lastFrom f (compact l) = lastFrom f l := by
  fun_induction compact l generalizing f with
  | case1 => rfl
  | case2 e he =>
    have : f e.index = 0 := hf e (by simp)
    simp [he, ← this]
  | case3 e he => rfl
  | case4 e g r heq ih =>
    rw [ih (List.pairwise_cons.1 h).2 f (fun x hx => hf x (List.mem_cons_of_mem _ hx))]
    simp [heq]
  | case5 e g r _ he ih =>
    rw [ih (List.pairwise_cons.1 h).2 f (fun x hx => hf x (List.mem_cons_of_mem _ hx))]
    have : f e.index = 0 := hf e (by simp)
    rw [lastFrom_cons f e, he, ← this]; simp
  | case6 e g r hne he ih =>
    have h1 := List.pairwise_cons.1 h
    have h2 := List.pairwise_cons.1 h1.2
    rw [lastFrom_cons, lastFrom_cons]
    apply ih h1.2
    intro x hx
    have hlt : e.index < x.index := by
      have hg := h1.1 g (by simp)
      rcases List.mem_cons.1 hx with rfl | hx
      · omega
      · have := h2.1 x hx; omega
    rw [Function.update_of_ne (by omega)]
    exact hf x (List.mem_cons_of_mem _ hx)

/-! ### sumAt -/

theorem sumAt_append (l r : List Entry) (i : Int) : sumAt (l ++ r) i = sumAt l i + sumAt r i := by
  induction l with
  | nil => simp [sumAt]
  | cons e l ih => simp [sumAt, ih]; ring

theorem sumAt_perm {l r : List Entry} (h : l.Perm r) (i : Int) : sumAt l i = sumAt r i := by
  induction h with
  | nil => rfl
  | cons x _ ih => simp [sumAt, ih]
  | swap x y l => simp [sumAt]; ring
  | trans _ _ ih1 ih2 => exact ih1.trans ih2

theorem sumAt_map_mul (l : List Entry) (s : ℚ) (i : Int) :
    sumAt (l.map fun e => ⟨e.index, e.value * s⟩) i = sumAt l i * s := by
  induction l with
  | nil => simp [sumAt]
  | cons e l ih => simp only [List.map_cons, sumAt, ih]; split <;> ring

theorem sumAt_filter_ne_zero (l : List Entry) (i : Int) :
    sumAt (l.filter (fun e => decide (e.value ≠ 0))) i = sumAt l i := by
  induction l with
  | nil => rfl
  | cons e l ih =>
    by_cases h : e.value = 0
    · rw [List.filter_cons_of_neg (by simp [h]), ih, sumAt, h]; simp
    · rw [List.filter_cons_of_pos (by simp [h]), sumAt, ih, sumAt]

theorem sumAt_modify (l : List Entry) (p : Nat) (x : ℚ) (i : Int) (e : Entry)
    (h : l[p]? = some e) :
    sumAt (l.modify p (fun d => ⟨d.index, d.value + x⟩)) i =
      sumAt l i + (if e.index = i then x else 0) := by
  induction l generalizing p with
  | nil => simp at h
  | cons d r ih =>
    cases p with
    | zero =>
      simp only [List.getElem?_cons_zero, Option.some.injEq] at h; subst h
      simp only [List.modify_zero_cons, sumAt]; split <;> ring
    | succ p =>
      simp only [List.getElem?_cons_succ] at h
      simp only [List.modify_succ_cons, sumAt, ih p h]; ring

/-! ### The duplicate-summing loop -/

/-- Order kept between visited entries: strictly smaller index, or same index and
already zeroed. -/
def DupRel (a b : Entry) : Prop := a.index < b.index ∨ (a.index = b.index ∧ b.value = 0)

theorem sumDuplicates_spec (l : List Entry) :
    ∀ (cur : Int) (ptr : Option Nat) (done : List Entry),
      (∀ p, ptr = some p → ∃ e, done[p]? = some e ∧ e.index = cur) →
      (∀ p, ptr = some p → ∀ k e, k < p → done[k]? = some e → e.index < cur) →
      (ptr = none → done = [] ∧ ∀ e ∈ l, e.index ≠ cur) →
      done.Pairwise DupRel → (∀ e ∈ done, e.index ≤ cur) →
      (∀ e ∈ l, cur ≤ e.index) → WeakSorted l →
      ∃ r, sumDuplicates cur ptr done l = .ok r ∧ r.Pairwise DupRel ∧
        (∀ i, sumAt r i = sumAt done i + sumAt l i) ∧
        (∀ e ∈ r, ∃ d ∈ done ++ l, d.index = e.index) := by
  induction l with
  | nil =>
    intro cur ptr done _ _ _ h4 _ _ _
    exact ⟨done, rfl, h4, by simp [sumAt], fun e he => ⟨e, by simp [he], rfl⟩⟩
  | cons e r ih =>
    intro cur ptr done h1 h2 h3 h4 h5 h6 h7
    rw [WeakSorted, List.pairwise_cons] at h7
    rw [sumDuplicates.eq_def]
    simp only
    by_cases hc : e.index ≠ cur
    · rw [if_pos hc]
      have hlt : cur < e.index := lt_of_le_of_ne (h6 e (by simp)) (Ne.symm hc)
      have hd : ∀ d ∈ done, d.index < e.index := fun d hd => lt_of_le_of_lt (h5 d hd) hlt
      obtain ⟨res, hr, hp, hs, hm⟩ := ih e.index (some done.length) (done ++ [e])
        (by rintro p ⟨rfl⟩; exact ⟨e, by simp, rfl⟩)
        (by
          rintro p ⟨rfl⟩ k d hk hkd
          rw [List.getElem?_append_left hk] at hkd
          exact hd d (List.mem_of_getElem? hkd))
        (by simp)
        (by
          rw [List.pairwise_append]
          refine ⟨h4, by simp, ?_⟩
          intro a ha b hb
          simp at hb; subst hb
          exact Or.inl (hd a ha))
        (by
          intro d hdm
          rcases List.mem_append.1 hdm with h | h
          · exact le_of_lt (hd d h)
          · simp at h; subst h; exact le_refl _)
        (fun x hx => h7.1 x hx) h7.2
      refine ⟨res, hr, hp, ?_, ?_⟩
      · intro i; rw [hs i, sumAt_append]; simp [sumAt]; ring
      · intro x hx; obtain ⟨d, hd, hdx⟩ := hm x hx; exact ⟨d, by simpa using hd, hdx⟩
    · rw [if_neg hc]
      have hc : e.index = cur := not_not.1 hc
      cases ptr with
      | none => exact absurd hc ((h3 rfl).2 e (by simp))
      | some p =>
        obtain ⟨ep, hep, hepi⟩ := h1 p rfl
        have hplt : p < done.length := by
          by_contra hh; rw [List.getElem?_eq_none (by omega)] at hep; simp at hep
        set f : Entry → Entry := fun d => ⟨d.index, d.value + e.value⟩ with hf
        have hget : ∀ k, (done.modify p f)[k]? =
            if p = k then (done[k]?).map f else done[k]? := by
          intro k; rw [List.getElem?_modify]; split <;> simp
        have hmemidx : ∀ d ∈ done.modify p f, ∃ d' ∈ done, d'.index = d.index := by
          intro d hd
          obtain ⟨k, hk⟩ := List.mem_iff_getElem?.1 hd
          rw [hget] at hk
          split at hk
          · obtain ⟨d', hd', rfl⟩ := Option.map_eq_some_iff.1 hk
            exact ⟨d', List.mem_of_getElem? hd', rfl⟩
          · exact ⟨d, List.mem_of_getElem? hk, rfl⟩
        obtain ⟨res, hr, hp, hs, hm⟩ := ih cur (some p) (done.modify p f ++ [⟨e.index, 0⟩])
          (by
            rintro q ⟨rfl⟩
            refine ⟨f ep, ?_, hepi⟩
            rw [List.getElem?_append_left (by simpa using hplt), hget]; simp [hep])
          (by
            rintro q ⟨rfl⟩ k d hk hkd
            rw [List.getElem?_append_left (by simp; omega), hget, if_neg (by omega)] at hkd
            exact h2 _ rfl k d hk hkd)
          (by simp)
          (by
            rw [List.pairwise_append]
            refine ⟨?_, by simp, ?_⟩
            · rw [List.pairwise_iff_getElem] at h4 ⊢
              intro a b ha hb hab
              simp only [List.length_modify] at ha hb
              have h4' := h4 a b ha hb hab
              have ea : (done.modify p f)[a]? = some (done.modify p f)[a] := by simp
              have eb : (done.modify p f)[b]? = some (done.modify p f)[b] := by simp
              rw [hget] at ea eb
              have da : done[a]? = some done[a] := by simp
              have db : done[b]? = some done[b] := by simp
              by_cases hpa : p = a
              · have hpb : p ≠ b := by omega
                rw [if_neg hpb, db] at eb
                rw [if_pos hpa, da] at ea
                simp only [Option.map_some, Option.some.injEq] at ea eb
                rw [← ea, ← eb]; exact h4'
              · rw [if_neg hpa, da] at ea
                simp only [Option.some.injEq] at ea
                by_cases hpb : p = b
                · rw [if_pos hpb, db] at eb
                  simp only [Option.map_some, Option.some.injEq] at eb
                  rw [← ea, ← eb]
                  subst hpb
                  left
                  have := h2 p rfl a done[a] hab da
                  rw [db] at hep
                  simp only [Option.some.injEq] at hep
                  rw [hep]; simp only [hf]; omega
                · rw [if_neg hpb, db] at eb
                  simp only [Option.some.injEq] at eb
                  rw [← ea, ← eb]; exact h4'
            · intro a ha b hb
              simp at hb; subst hb
              obtain ⟨d', hd', hi⟩ := hmemidx a ha
              have := h5 d' hd'
              unfold DupRel
              simp only [and_true]
              omega)
          (by
            intro d hd
            rcases List.mem_append.1 hd with h | h
            · obtain ⟨d', hd', hi⟩ := hmemidx d h
              rw [← hi]; exact h5 d' hd'
            · simp at h; subst h; exact le_of_eq hc)
          (fun x hx => h6 x (by simp [hx])) h7.2
        refine ⟨res, hr, hp, ?_, ?_⟩
        · intro i
          rw [hs i, sumAt_append, sumAt_modify done p e.value i ep hep]
          simp only [sumAt, hepi, hc]
          split <;> ring
        · intro x hx
          obtain ⟨d, hd, hdx⟩ := hm x hx
          rcases List.mem_append.1 hd with h | h
          · rcases List.mem_append.1 h with h | h
            · obtain ⟨d', hd', hi⟩ := hmemidx d h
              exact ⟨d', by simp [hd'], by rw [hi, hdx]⟩
            · simp at h; subst h; exact ⟨e, by simp, hdx⟩
          · exact ⟨d, by simp [h], hdx⟩

theorem strictSorted_filter_of_dupRel {l : List Entry} (h : l.Pairwise DupRel) :
    StrictSorted (l.filter (fun e => decide (e.value ≠ 0))) := by
  rw [StrictSorted, List.pairwise_filter]
  refine h.imp ?_
  intro a b hab _ hb
  rcases hab with h | ⟨_, h⟩
  · exact h
  · simp [h] at hb

/-! ### Sortedness tests -/

theorem isSortedWeak_iff {l : List Entry} : isSortedWeak l = true ↔ WeakSorted l := by
  fun_induction isSortedWeak l with
  | case1 => simp [WeakSorted]
  | case2 => simp [WeakSorted]
  | case3 e f r ih =>
    rw [Bool.and_eq_true, ih, decide_eq_true_iff, WeakSorted, WeakSorted, List.pairwise_cons (a := e)]
    constructor
    · rintro ⟨h1, h2⟩
      refine ⟨?_, h2⟩
      intro x hx
      rcases List.mem_cons.1 hx with rfl | hx
      · exact h1
      · exact le_trans h1 ((List.pairwise_cons.1 h2).1 x hx)
    · rintro ⟨h1, h2⟩; exact ⟨h1 f (by simp), h2⟩

theorem isSortedStrict_iff {l : List Entry} : isSortedStrict l = true ↔ StrictSorted l := by
  fun_induction isSortedStrict l with
  | case1 => simp [StrictSorted]
  | case2 => simp [StrictSorted]
  | case3 e f r ih =>
    rw [Bool.and_eq_true, ih, Bool.not_eq_true', decide_eq_false_iff_not, StrictSorted, StrictSorted,
      List.pairwise_cons (a := e)]
    constructor
    · rintro ⟨h1, h2⟩
      refine ⟨?_, h2⟩
      intro x hx
      rcases List.mem_cons.1 hx with rfl | hx
      · omega
      · have := (List.pairwise_cons.1 h2).1 x hx; omega
    · rintro ⟨h1, h2⟩; exact ⟨by have := h1 f (by simp); omega, h2⟩

theorem StrictSorted.weak {l : List Entry} (h : StrictSorted l) : WeakSorted l :=
  List.Pairwise.imp (fun hab => le_of_lt hab) h

theorem map_sorted {R : Int → Int → Prop} {l : List Entry} {f : Entry → Entry}
    (hf : ∀ e, (f e).index = e.index)
    (h : l.Pairwise (fun a b => R a.index b.index)) :
    (l.map f).Pairwise (fun a b => R a.index b.index) := by
  rw [List.pairwise_map]; simpa [hf] using h

theorem merge_weakSorted {l1 l2 : List Entry} (h1 : WeakSorted l1) (h2 : WeakSorted l2) :
    WeakSorted (List.merge l1 l2 (fun a b => decide (a.index ≤ b.index))) := by
  have := List.pairwise_merge (le := fun a b : Entry => decide (a.index ≤ b.index))
    (by intro a b c; simp; omega) (by intro a b; simp; omega) l1 l2
    (by simpa [WeakSorted] using h1) (by simpa [WeakSorted] using h2)
  simpa [WeakSorted] using this

/-! ### Dot product -/

theorem valueAt_of_lt {l : List Entry} {i : Int} (h : ∀ e ∈ l, i < e.index) : valueAt l i = 0 := by
  cases l with
  | nil => rfl
  | cons e r =>
    have := h e (by simp)
    rw [valueAt_cons, if_neg (by omega), if_neg (by omega)]

/-- The walk adds the products of values with equal index. -/
theorem dotWalk_eq {l1 l2 : List Entry} (h1 : StrictSorted l1) (h2 : StrictSorted l2) (p : ℚ) :
    dotWalk l1 l2 p = p + (l1.map fun e => e.value * valueAt l2 e.index).sum := by
  fun_induction dotWalk l1 l2 p with
  | case1 a as b bs p h ih =>
    rw [StrictSorted, List.pairwise_cons] at h1 h2
    rw [ih h1.2 h2.2, List.map_cons, List.sum_cons, valueAt_cons, if_neg (by omega), if_pos h.symm]
    have hmap : (as.map fun e => e.value * valueAt (b :: bs) e.index) =
        as.map fun e => e.value * valueAt bs e.index := by
      apply List.map_congr_left
      intro e he
      have := h1.1 e he
      rw [valueAt_cons, if_pos (by omega)]
    rw [hmap]; ring
  | case2 a as b bs p h hlt ih =>
    rw [ih (List.pairwise_cons.1 h1).2 h2, List.map_cons, List.sum_cons]
    rw [valueAt_of_lt (l := b :: bs)]
    · ring
    · rw [StrictSorted, List.pairwise_cons] at h2
      intro e he
      rcases List.mem_cons.1 he with rfl | he
      · exact hlt
      · have := h2.1 e he; omega
  | case3 a as b bs p h hlt ih =>
    rw [ih h1 (List.pairwise_cons.1 h2).2]
    congr 2
    apply List.map_congr_left
    intro e he
    rw [valueAt_cons, if_pos]
    rw [StrictSorted, List.pairwise_cons] at h1
    rcases List.mem_cons.1 he with rfl | he
    · omega
    · have := h1.1 e he; omega
  | case4 => simp
  | case5 => simp [valueAt_nil]

theorem sum_map_eq_finset {l : List Entry} (h : StrictSorted l) (g : Int → ℚ) (S : Finset Int)
    (hS : ∀ e ∈ l, e.index ∈ S) :
    (l.map fun e => e.value * g e.index).sum = ∑ i ∈ S, valueAt l i * g i := by
  induction l with
  | nil => simp [valueAt_nil]
  | cons e r ih =>
    have h' := h
    rw [StrictSorted, List.pairwise_cons] at h
    rw [List.map_cons, List.sum_cons, ih h.2 (fun x hx => hS x (by simp [hx]))]
    have : ∀ i, valueAt (e :: r) i = valueAt r i + if i = e.index then e.value else 0 := by
      intro i
      rw [valueAt_eq_sumAt h', valueAt_eq_sumAt h.2, sumAt]
      by_cases hi : e.index = i
      · simp [hi]; ring
      · simp [hi, Ne.symm hi]
    simp only [this, add_mul, Finset.sum_add_distrib, ite_mul, zero_mul]
    rw [Finset.sum_ite_eq' S e.index]
    simp [hS e (by simp)]
    ring

/-! ### Maps over entries -/

theorem valueAt_map {f : Int → ℚ → ℚ} {l : List Entry} (i : Int)
    (h0 : ∀ i, f i 0 = 0) :
    valueAt (l.map fun e => ⟨e.index, f e.index e.value⟩) i = f i (valueAt l i) := by
  induction l with
  | nil => simp [valueAt_nil, h0]
  | cons e r ih =>
    simp only [List.map_cons, valueAt_cons, ih]
    split
    · rfl
    · split
      · rename_i h; rw [h]
      · simp [h0]

theorem valueAt_filter {l : List Entry} (h : StrictSorted l) (i : Int) :
    valueAt (l.filter (fun e => decide (e.value ≠ 0))) i = valueAt l i := by
  rw [valueAt_eq_sumAt (List.Pairwise.filter _ h), valueAt_eq_sumAt h, sumAt_filter_ne_zero]

end SparseVector
end MiniMip
