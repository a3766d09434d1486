import Verif.Lemmas.SparseVector
import Mathlib.Tactic.NormNum

/-!
# Properties C01-C06: sparse vectors

The specification side is: `Clean` (sorted without duplicates, no zeros, no
negative index), the function `value` a caller observes, and for histories the
"last write" read off the list of calls.
-/

namespace MiniMip
namespace SparseVector

/-- What callers mean by a clean entry list: strictly increasing indices, no
explicit zeros, no negative index. -/
def Clean (l : List Entry) : Prop :=
  l.Pairwise (fun a b => a.index < b.index) ∧ ∀ e ∈ l, e.value ≠ 0 ∧ 0 ≤ e.index

/-- A concrete clean vector used in the non-vacuity examples. -/
def exV : SparseVector := ⟨[⟨1, 10⟩, ⟨5, 50⟩], false⟩
/-- Another one, sharing index 5 with cancelling value. -/
def exW : SparseVector := ⟨[⟨0, 3⟩, ⟨5, -25⟩, ⟨7, 1⟩], false⟩

theorem exV_clean : Clean exV.entries ∧ exV.dirty = false := by
  simp [Clean, exV]

theorem exW_clean : Clean exW.entries ∧ exW.dirty = false := by
  simp [Clean, exW]

/-! ## C01 -/

/-- The calls of C01. -/
inductive WriteOp where
  | addEntry (i : Int) (x : ℚ)
  | cleanUp
  | clear

/-- One call on the model. -/
def WriteOp.apply (v : SparseVector) : WriteOp → SparseVector
  | .addEntry i x => v.addEntry i x
  | .cleanUp => v.cleanUpIfNeeded
  | .clear => v.clear

/-- Specification: the value written last to `i`, reading the calls from the most
recent to the oldest; nothing before a `Clear` counts. -/
def lastWritten (i : Int) : (callsNewestFirst : List WriteOp) → ℚ
  | [] => 0
  | .clear :: _ => 0
  | .cleanUp :: older => lastWritten i older
  | .addEntry j x :: older => if j = i then x else lastWritten i older

theorem lastIndex_lt_iff {v : SparseVector} {i : Int} (h : Clean v.entries) (hi : 0 ≤ i) :
    v.lastIndex < i ↔ ∀ e ∈ v.entries, e.index < i := by
  unfold lastIndex
  rcases List.eq_nil_or_concat v.entries with hnil | ⟨l, e, hl⟩
  · simp [hnil]; omega
  · rw [hl] at h ⊢
    simp only [List.concat_eq_append, List.getLast?_append, List.getLast?_singleton, Option.some_or]
    constructor
    · intro hlt d hd
      rcases List.mem_append.1 hd with hd | hd
      · have := (List.pairwise_append.1 (by simpa using h.1)).2.2 d hd e (by simp); omega
      · simp at hd; subst hd; exact hlt
    · intro hall; exact hall e (by simp)

/-- State invariant of all histories: entry indices are non-negative and a vector
not marked for cleaning is clean. -/
def Inv (v : SparseVector) : Prop :=
  (∀ e ∈ v.entries, 0 ≤ e.index) ∧ (v.dirty = false → Clean v.entries)

theorem Inv.init : Inv {} := ⟨by simp, fun _ => by simp [Clean]⟩

theorem cleanUp_clean {v : SparseVector} (h : Inv v) :
    Clean v.cleanUpIfNeeded.entries ∧ v.cleanUpIfNeeded.dirty = false := by
  unfold cleanUpIfNeeded
  split
  · refine ⟨⟨compact_sorted (stableSort_sorted _), ?_⟩, rfl⟩
    intro e he
    have := compact_mem he
    exact ⟨this.2, h.1 e (stableSort_mem.1 this.1)⟩
  · rename_i hd
    exact ⟨h.2 (by simpa using hd), by simpa using hd⟩

theorem Inv.of_clean {v : SparseVector} (h : Clean v.entries) : Inv v :=
  ⟨fun e he => (h.2 e he).2, fun _ => h⟩

theorem Inv.addEntry {v : SparseVector} (h : Inv v) {i : Int} (hi : 0 ≤ i) (x : ℚ) :
    Inv (v.addEntry i x) := by
  have hmem : ∀ e ∈ v.entries ++ [⟨i, x⟩], 0 ≤ e.index := by
    intro e he
    rcases List.mem_append.1 he with he | he
    · exact h.1 e he
    · simp at he; subst he; exact hi
  unfold SparseVector.addEntry
  split
  · exact ⟨hmem, by simp⟩
  · rename_i hd
    have hcl := h.2 (by simpa using hd)
    split
    · exact ⟨hmem, by simp⟩
    · split
      · exact h
      · rename_i hle hx
        refine ⟨hmem, fun _ => ⟨?_, ?_⟩⟩
        · rw [List.pairwise_append]
          refine ⟨hcl.1, by simp, ?_⟩
          intro a ha b hb
          simp at hb; subst hb
          exact (lastIndex_lt_iff hcl hi).1 (by omega) a ha
        · intro e he
          rcases List.mem_append.1 he with he | he
          · exact hcl.2 e he
          · simp at he; subst he; exact ⟨hx, hi⟩

theorem lastFrom_addEntry {v : SparseVector} (h : Inv v) {i : Int} (hi : 0 ≤ i) (x : ℚ) :
    lastFrom (fun _ => 0) (v.addEntry i x).entries =
      Function.update (lastFrom (fun _ => 0) v.entries) i x := by
  unfold SparseVector.addEntry
  split
  · simp [lastFrom_append]
  · rename_i hd
    have hcl := h.2 (by simpa using hd)
    split
    · simp [lastFrom_append]
    · split
      · rename_i hle hx
        subst hx
        have : lastFrom (fun _ => 0) v.entries i = 0 := by
          rw [lastFrom_of_not_mem]
          intro e he
          have := (lastIndex_lt_iff hcl hi).1 (by omega) e he; omega
        exact (Function.update_eq_self_iff.2 this.symm).symm
      · simp [lastFrom_append]

theorem lastFrom_cleanUp (v : SparseVector) :
    lastFrom (fun _ => 0) v.cleanUpIfNeeded.entries = lastFrom (fun _ => 0) v.entries := by
  unfold cleanUpIfNeeded
  split
  · rw [lastFrom_compact (stableSort_sorted _) _ (by simp), lastFrom_stableSort]
  · rfl

/-- **C01.** After any history of `AddEntry` (with non-negative indices),
`CleanUpIfNeeded` and `Clear` on a new vector, cleaning gives a clean vector in which
every index holds the value written last. -/
theorem C01_last_write_wins (calls : List WriteOp)
    (hidx : ∀ i x, WriteOp.addEntry i x ∈ calls → 0 ≤ i) :
    let v := (calls.foldl WriteOp.apply {}).cleanUpIfNeeded
    Clean v.entries ∧ ∀ i, v.value i = lastWritten i calls.reverse := by
  suffices H : Inv (calls.foldl WriteOp.apply {}) ∧
      ∀ i, lastFrom (fun _ => 0) (calls.foldl WriteOp.apply {}).entries i =
        lastWritten i calls.reverse by
    intro v
    have hc := cleanUp_clean H.1
    refine ⟨hc.1, fun i => ?_⟩
    rw [value, valueAt_eq_lastFrom hc.1.1, lastFrom_cleanUp, H.2]
  induction calls using List.reverseRecOn with
  | nil => exact ⟨Inv.init, by simp [lastWritten]⟩
  | append_singleton l op ih =>
    have ih := ih (fun i x h => hidx i x (by simp [h]))
    rw [List.foldl_append]
    simp only [List.foldl_cons, List.foldl_nil, List.reverse_append, List.reverse_cons,
      List.reverse_nil, List.nil_append, List.singleton_append]
    cases op with
    | addEntry i x =>
      have hi := hidx i x (by simp)
      refine ⟨ih.1.addEntry hi x, fun j => ?_⟩
      simp only [WriteOp.apply, lastFrom_addEntry ih.1 hi, lastWritten]
      by_cases hij : i = j
      · subst hij; simp
      · rw [Function.update_of_ne (Ne.symm hij), if_neg hij, ih.2]
    | cleanUp =>
      refine ⟨Inv.of_clean (cleanUp_clean ih.1).1, fun j => ?_⟩
      simp only [WriteOp.apply, lastFrom_cleanUp, lastWritten, ih.2]
    | clear =>
      exact ⟨Inv.init, by simp [WriteOp.apply, clear, lastWritten]⟩

/-- The history in the header comment of strong_sparse_vector.h meets the hypothesis
and ends in the entries printed there. -/
example : (∀ i x, WriteOp.addEntry i x ∈ [WriteOp.addEntry 1 10, .addEntry 5 50, .cleanUp,
      .addEntry 2 20, .addEntry 1 0, .addEntry 5 25] → 0 ≤ i) ∧
    (([WriteOp.addEntry 1 10, .addEntry 5 50, .cleanUp, .addEntry 2 20, .addEntry 1 0,
      .addEntry 5 25].foldl WriteOp.apply {}).cleanUpIfNeeded.entries = [⟨2, 20⟩, ⟨5, 25⟩]) := by
  constructor
  · intro i x h; simp at h; omega
  · decide

/-! ## C02 -/

/-- All mutating calls on a vector.  `mutate l` stands for `mutable_entries()` followed
by any edits that leave the entries equal to `l`. -/
inductive AnyOp where
  | addEntry (i : Int) (x : ℚ)
  | cleanUp
  | clear
  | mutate (l : List Entry)
  | transform (f : Int → ℚ → ℚ)
  | neg
  | scale (s : ℚ)
  | divide (s : ℚ)
  | addMultiple (s : ℚ) (other : Option SparseVector)

/-- One call on the model. -/
def AnyOp.apply (v : SparseVector) : AnyOp → Outcome SparseVector
  | .addEntry i x => .ok (v.addEntry i x)
  | .cleanUp => .ok v.cleanUpIfNeeded
  | .clear => .ok v.clear
  | .mutate l => .ok (v.mutateEntries l)
  | .transform f => .ok (v.transform f)
  | .neg => .ok v.neg
  | .scale s => .ok (v.scale s)
  | .divide s => .ok (v.divide s)
  | .addMultiple s w => v.addMultiple s w

/-- The preconditions of the calls: indices are non-negative, divisors non-zero. -/
def AnyOp.Legal : AnyOp → Prop
  | .addEntry i _ => 0 ≤ i
  | .mutate l => ∀ e ∈ l, 0 ≤ e.index
  | .divide s => s ≠ 0
  | .addMultiple _ (some w) => ∀ e ∈ w.entries, 0 ≤ e.index
  | _ => True

/-- Runs a history; stops at undefined behaviour. -/
def runAny (v : SparseVector) : List AnyOp → Outcome SparseVector
  | [] => .ok v
  | op :: r => do runAny (← op.apply v) r

theorem Clean.map {l : List Entry} (h : Clean l) {f : Entry → Entry}
    (hidx : ∀ e, (f e).index = e.index) (hval : ∀ e, e.value ≠ 0 → (f e).value ≠ 0) :
    Clean (l.map f) := by
  refine ⟨map_sorted (R := (· < ·)) hidx h.1, ?_⟩
  intro e he
  obtain ⟨d, hd, rfl⟩ := List.mem_map.1 he
  exact ⟨hval d (h.2 d hd).1, by rw [hidx]; exact (h.2 d hd).2⟩

/-- Everything `AddMultipleOfVector` can do when the argument is another object with
sorted entries. -/
theorem addMultiple_other {v w : SparseVector} (s : ℚ) (hv : WeakSorted v.entries)
    (hw : WeakSorted w.entries) (hv0 : ∀ e ∈ v.entries, 0 ≤ e.index)
    (hw0 : ∀ e ∈ w.entries, 0 ≤ e.index) :
    ∃ l, v.addMultiple s (some w) = .ok ⟨l, v.dirty⟩ ∧ Clean l ∧
      ∀ i, sumAt l i = sumAt v.entries i + sumAt w.entries i * s := by
  have hwm : WeakSorted (w.entries.map fun e => (⟨e.index, e.value * s⟩ : Entry)) :=
    map_sorted (R := (· ≤ ·)) (fun _ => rfl) hw
  set m := w.entries.map fun e => (⟨e.index, e.value * s⟩ : Entry) with hm
  set merged := List.merge v.entries m (fun a b => decide (a.index ≤ b.index)) with hmg
  have hmemM : ∀ e ∈ merged, 0 ≤ e.index := by
    intro e he
    rcases List.mem_merge.1 he with h | h
    · exact hv0 e h
    · obtain ⟨d, hd, rfl⟩ := List.mem_map.1 h; exact hw0 d hd
  obtain ⟨r, hr, hp, hs, hi⟩ := sumDuplicates_spec merged (-1) none [] (by simp) (by simp)
    (fun _ => ⟨rfl, fun e he => by have := hmemM e he; omega⟩) (by simp) (by simp)
    (fun e he => by have := hmemM e he; omega) (merge_weakSorted hv hwm)
  refine ⟨r.filter (fun e => decide (e.value ≠ 0)), ?_, ⟨strictSorted_filter_of_dupRel hp, ?_⟩, ?_⟩
  · have hlen : m.length = w.entries.length := by simp [hm]
    have hwrite : writeAt (v.entries ++ List.replicate w.entries.length Entry.default)
        v.entries.length m = .ok (v.entries ++ m) := by
      simp [writeAt, hlen]
    simp only [addMultiple]
    rw [← hm, hwrite]
    simp only [Outcome.bind_ok, List.take_left, List.drop_left, isSortedWeak_iff.2 hv,
      isSortedWeak_iff.2 hwm, Bool.and_self, if_true]
    rw [← hmg, hr]; rfl
  · intro e he
    rw [List.mem_filter] at he
    obtain ⟨d, hd, hdi⟩ := hi e he.1
    exact ⟨by simpa using he.2, by rw [← hdi]; exact hmemM d (by simpa using hd)⟩
  · intro i
    rw [sumAt_filter_ne_zero, hs, sumAt_perm (List.merge_perm_append _) i, sumAt_append, hm,
      sumAt_map_mul]
    simp [sumAt]

theorem addMultiple_unsorted {v w : SparseVector} (s : ℚ)
    (h : ¬ (WeakSorted v.entries ∧ WeakSorted w.entries)) :
    v.addMultiple s (some w) = .ub := by
  set m := w.entries.map fun e => (⟨e.index, e.value * s⟩ : Entry) with hm
  have hmm : WeakSorted m ↔ WeakSorted w.entries := by
    rw [hm, WeakSorted, WeakSorted, List.pairwise_map]
  have hwrite : writeAt (v.entries ++ List.replicate w.entries.length Entry.default)
      v.entries.length m = .ok (v.entries ++ m) := by
    simp [writeAt, hm]
  simp only [addMultiple]
  rw [← hm, hwrite]
  simp only [Outcome.bind_ok, List.take_left, List.drop_left]
  rw [if_neg]
  rw [Bool.and_eq_true, isSortedWeak_iff, isSortedWeak_iff, hmm]
  exact h

theorem addMultiple_self {v : SparseVector} (s : ℚ) (h : v.entries ≠ []) :
    v.addMultiple s none = .ub := by
  have : 0 < v.entries.length := List.length_pos_iff.2 h
  simp only [addMultiple, writeAt]
  rw [if_neg (by simp; omega)]
  rfl

theorem addMultiple_self_empty {v : SparseVector} (s : ℚ) (h : v.entries = []) :
    v.addMultiple s none = .ok ⟨[], v.dirty⟩ := by
  simp [addMultiple, writeAt, h, isSortedWeak, sumDuplicates]

theorem inv_step {v v' : SparseVector} {op : AnyOp} (h : Inv v) (hl : op.Legal)
    (hs : op.apply v = .ok v') : Inv v' := by
  cases op with
  | addEntry i x => simp only [AnyOp.apply, Outcome.ok.injEq] at hs; subst hs; exact h.addEntry hl x
  | cleanUp =>
    simp only [AnyOp.apply, Outcome.ok.injEq] at hs; subst hs; exact Inv.of_clean (cleanUp_clean h).1
  | clear => simp only [AnyOp.apply, Outcome.ok.injEq] at hs; subst hs; exact Inv.init
  | mutate l =>
    simp only [AnyOp.apply, Outcome.ok.injEq] at hs; subst hs
    exact ⟨hl, by simp [mutateEntries]⟩
  | transform f =>
    simp only [AnyOp.apply, Outcome.ok.injEq] at hs; subst hs
    have hidx : ∀ e ∈ (v.transform f).entries, 0 ≤ e.index := by
      intro e he
      simp only [transform, List.mem_filter, List.mem_map] at he
      obtain ⟨⟨d, hd, rfl⟩, -⟩ := he
      exact h.1 d hd
    refine ⟨hidx, fun hd => ⟨?_, ?_⟩⟩
    · exact List.Pairwise.filter _ (map_sorted (R := (· < ·)) (fun _ => rfl) (h.2 hd).1)
    · intro e he
      refine ⟨?_, hidx e he⟩
      simp only [transform, List.mem_filter] at he
      simpa using he.2
  | neg =>
    simp only [AnyOp.apply, Outcome.ok.injEq] at hs; subst hs
    refine ⟨?_, fun hd => (h.2 hd).map (fun _ => rfl) (by simp)⟩
    intro e he
    obtain ⟨d, hd, rfl⟩ := List.mem_map.1 he
    exact h.1 d hd
  | scale s =>
    simp only [AnyOp.apply, Outcome.ok.injEq] at hs; subst hs
    unfold scale
    split
    · exact ⟨by simp, fun _ => by simp [Clean]⟩
    · rename_i hs0
      refine ⟨?_, fun hd => (h.2 hd).map (fun _ => rfl) (fun e he => mul_ne_zero he hs0)⟩
      intro e he
      obtain ⟨d, hd, rfl⟩ := List.mem_map.1 he
      exact h.1 d hd
  | divide s =>
    simp only [AnyOp.apply, Outcome.ok.injEq] at hs; subst hs
    have hs0 : s ≠ 0 := hl
    refine ⟨?_, fun hd => (h.2 hd).map (fun _ => rfl) (fun e he => div_ne_zero he hs0)⟩
    intro e he
    obtain ⟨d, hd, rfl⟩ := List.mem_map.1 he
    exact h.1 d hd
  | addMultiple s w =>
    simp only [AnyOp.apply] at hs
    cases w with
    | none =>
      by_cases hn : v.entries = []
      · rw [addMultiple_self_empty s hn] at hs
        simp only [Outcome.ok.injEq] at hs; subst hs
        exact ⟨by simp, fun _ => by simp [Clean]⟩
      · rw [addMultiple_self s hn] at hs; simp at hs
    | some w =>
      by_cases hsrt : WeakSorted v.entries ∧ WeakSorted w.entries
      · obtain ⟨l, hl', hcl, -⟩ := addMultiple_other s hsrt.1 hsrt.2 h.1 hl
        rw [hl'] at hs
        simp only [Outcome.ok.injEq] at hs; subst hs
        exact Inv.of_clean hcl
      · rw [addMultiple_unsorted s hsrt] at hs; simp at hs

/-- **C02.** For every history of calls with legal arguments on a new vector: a vector
that does not report `MayNeedCleaning` is clean (and then `IsClean` says so);
`CleanUpIfNeeded` makes it clean and not in need of cleaning, leaves a vector that does
not need cleaning untouched, and doing it twice is the same as once. -/
theorem C02_cleaning (calls : List AnyOp) (hl : ∀ op ∈ calls, op.Legal) (v : SparseVector)
    (hr : runAny {} calls = .ok v) :
    (v.mayNeedCleaning = false → Clean v.entries ∧ v.isClean = true) ∧
    (Clean v.cleanUpIfNeeded.entries ∧ v.cleanUpIfNeeded.mayNeedCleaning = false) ∧
    (v.mayNeedCleaning = false → v.cleanUpIfNeeded = v) ∧
    v.cleanUpIfNeeded.cleanUpIfNeeded = v.cleanUpIfNeeded := by
  have hInv : Inv v := by
    suffices H : ∀ u, Inv u → runAny u calls = .ok v → Inv v from H _ Inv.init hr
    clear hr
    induction calls with
    | nil => intro u hu h; simp only [runAny, Outcome.ok.injEq] at h; subst h; exact hu
    | cons op r ih =>
      intro u hu h
      rw [runAny, Outcome.bind_eq_ok] at h
      obtain ⟨a, ha, h⟩ := h
      exact ih (fun o ho => hl o (by simp [ho])) a (inv_step hu (hl op (by simp)) ha) h
  have hcl := cleanUp_clean hInv
  refine ⟨?_, hcl, ?_, ?_⟩
  · intro hd
    have := hInv.2 hd
    refine ⟨this, ?_⟩
    rw [isClean, Bool.and_eq_true, isSortedStrict_iff, List.all_eq_true]
    refine ⟨this.1, fun e he => ?_⟩
    have := this.2 e he
    simp [this.1, this.2]
  · intro hd
    unfold mayNeedCleaning at hd
    simp [cleanUpIfNeeded, hd]
  · conv_lhs => rw [cleanUpIfNeeded]
    simp [hcl.2]

/-- A history that uses every kind of call meets the hypotheses and really ends with a
vector (here: clean without a final clean-up, via merge with cancellation). -/
example : runAny {} [.addEntry 5 1, .addEntry 2 4, .cleanUp, .neg, .scale 2, .divide 4,
      .addMultiple 2 (some exW), .transform (fun _ x => x)] =
    .ok ⟨[⟨0, 6⟩, ⟨2, -2⟩, ⟨5, -101/2⟩, ⟨7, 2⟩], false⟩ := by
  norm_num [runAny, AnyOp.apply, addEntry, lastIndex, cleanUpIfNeeded, stableSort, insertStable,
    compact, neg, scale, divide, addMultiple, writeAt, exW, isSortedWeak, sumDuplicates, transform,
    Entry.default, List.modify, List.replicate]

/-! ## C03 -/

/-- **C03.** For clean `v` and `w` in distinct objects, `AddMultipleOfVector` is
pointwise `v + s*w`, leaves `v` clean and without need of cleaning.  (`w` is a
`const&` argument and the model does not return it: it is unchanged.) -/
theorem C03_addMultiple_pointwise (v w : SparseVector) (s : ℚ)
    (hv : Clean v.entries) (hvd : v.mayNeedCleaning = false) (hw : Clean w.entries) :
    ∃ r, v.addMultiple s (some w) = .ok r ∧ Clean r.entries ∧ r.mayNeedCleaning = false ∧
      ∀ i, r.value i = v.value i + s * w.value i := by
  obtain ⟨l, h1, h2, h3⟩ := addMultiple_other s (StrictSorted.weak hv.1) (StrictSorted.weak hw.1)
    (fun e he => (hv.2 e he).2) (fun e he => (hw.2 e he).2)
  refine ⟨⟨l, v.dirty⟩, h1, h2, hvd, fun i => ?_⟩
  simp only [value]
  rw [valueAt_eq_sumAt h2.1, h3, valueAt_eq_sumAt hv.1, valueAt_eq_sumAt hw.1]; ring

/-- `operator+=` (strong_sparse_vector.h:340-343). -/
def plusAssign (v : SparseVector) (w : Option SparseVector) := v.addMultiple 1 w
/-- `operator-=` (strong_sparse_vector.h:352-355). -/
def minusAssign (v : SparseVector) (w : Option SparseVector) := v.addMultiple (-1) w
/-- `operator+` (strong_sparse_vector.h:345-350): works on a copy of `v`, which is a
different object from `w` even for `v + v`. -/
def plus (v w : SparseVector) := plusAssign v (some w)
/-- `operator-` (strong_sparse_vector.h:357-362). -/
def minus (v w : SparseVector) := minusAssign v (some w)

/-- **C03** for `+=`, `-=`, `+` and `-`. -/
theorem C03_plus_minus_pointwise (v w : SparseVector)
    (hv : Clean v.entries) (hvd : v.mayNeedCleaning = false) (hw : Clean w.entries) :
    (∃ r, plusAssign v (some w) = .ok r ∧ plus v w = .ok r ∧ Clean r.entries ∧
      r.mayNeedCleaning = false ∧ ∀ i, r.value i = v.value i + w.value i) ∧
    (∃ r, minusAssign v (some w) = .ok r ∧ minus v w = .ok r ∧ Clean r.entries ∧
      r.mayNeedCleaning = false ∧ ∀ i, r.value i = v.value i - w.value i) := by
  obtain ⟨r, h1, h2, h3, h4⟩ := C03_addMultiple_pointwise v w 1 hv hvd hw
  obtain ⟨q, g1, g2, g3, g4⟩ := C03_addMultiple_pointwise v w (-1) hv hvd hw
  exact ⟨⟨r, h1, h1, h2, h3, fun i => by rw [h4]; ring⟩,
    ⟨q, g1, g1, g2, g3, fun i => by rw [g4]; ring⟩⟩

/-- `exV` and `exW` meet the hypotheses; index 5 cancels under factor 2. -/
example : Clean exV.entries ∧ exV.mayNeedCleaning = false ∧ Clean exW.entries ∧
    exV.addMultiple 2 (some exW) = .ok ⟨[⟨0, 6⟩, ⟨1, 10⟩, ⟨7, 2⟩], false⟩ :=
  ⟨exV_clean.1, exV_clean.2, exW_clean.1, by
    norm_num [addMultiple, writeAt, exV, exW, isSortedWeak, sumDuplicates, Entry.default,
      List.modify, List.replicate]⟩

/-! ## C04 (violated by the code) -/

/-- **C04, negation.** `v.AddMultipleOfVector(s, v)`, hence `v += v` and `v -= v`, has
undefined behaviour for *every* vector with at least one entry: after the resize the
source range is the enlarged buffer and the copy runs past its end. -/
theorem C04_self_addition_violated (v : SparseVector) (s : ℚ) (h : v.entries ≠ []) :
    v.addMultiple s none = .ub ∧ plusAssign v none = .ub ∧ minusAssign v none = .ub :=
  ⟨addMultiple_self s h, addMultiple_self 1 h, addMultiple_self (-1) h⟩

/-- **C04, partial.** The full claim is "`v.AddMultipleOfVector(s, v)` yields
`(1+s)*v`".  It holds for the empty vector, and for every clean vector in the form
`v + v` / `v - v`, which first copies the left operand.  Missing: the in-place forms on
non-empty vectors (see `C04_self_addition_violated`). -/
theorem C04_self_addition_partial (v : SparseVector) (hv : Clean v.entries)
    (hvd : v.mayNeedCleaning = false) :
    (∀ s, v.entries = [] → v.addMultiple s none = .ok v) ∧
    (∃ r, plus v v = .ok r ∧ Clean r.entries ∧ ∀ i, r.value i = 2 * v.value i) ∧
    (∃ r, minus v v = .ok r ∧ Clean r.entries ∧ ∀ i, r.value i = 0) := by
  obtain ⟨⟨r, -, h2, h3, -, h5⟩, ⟨q, -, g2, g3, -, g5⟩⟩ := C03_plus_minus_pointwise v v hv hvd hv
  refine ⟨?_, ⟨r, h2, h3, fun i => by rw [h5]; ring⟩, ⟨q, g2, g3, fun i => by rw [g5]; ring⟩⟩
  intro s hn
  rw [addMultiple_self_empty s hn]
  rcases v with ⟨e, d⟩
  simp only at hn
  subst hn
  rfl

example : Clean exV.entries ∧ exV.mayNeedCleaning = false ∧ exV.entries ≠ [] :=
  ⟨exV_clean.1, exV_clean.2, by simp [exV]⟩

/-! ## C05 -/

/-- **C05.** The dot product of clean vectors is the sum over the indices of the
products of their values, for every finite set of indices covering one of them. -/
theorem C05_dot_product (v w : SparseVector) (hv : Clean v.entries) (hw : Clean w.entries)
    (S : Finset Int) (hS : ∀ i, v.value i ≠ 0 → w.value i ≠ 0 → i ∈ S) :
    v.dotProduct w = ∑ i ∈ S, v.value i * w.value i := by
  have hbig : v.dotProduct w =
      ∑ i ∈ S ∪ (v.entries.map (·.index)).toFinset, v.value i * w.value i := by
    rw [dotProduct, dotWalk_eq hv.1 hw.1, zero_add,
      sum_map_eq_finset hv.1 (valueAt w.entries) (S ∪ (v.entries.map (·.index)).toFinset)]
    · rfl
    · intro e he
      simp only [Finset.mem_union, List.mem_toFinset, List.mem_map]
      exact Or.inr ⟨e, he, rfl⟩
  rw [hbig]
  symm
  apply Finset.sum_subset Finset.subset_union_left
  intro i _ hi
  by_contra h
  exact hi (hS i (fun h0 => h (by simp [h0])) (fun h0 => h (by simp [h0])))

/-- All indices at which either clean vector is non-zero. -/
theorem exists_support (v w u : SparseVector) : ∃ S : Finset Int,
    ∀ i, v.value i ≠ 0 ∨ w.value i ≠ 0 ∨ u.value i ≠ 0 → i ∈ S := by
  refine ⟨((v.entries ++ w.entries ++ u.entries).map (·.index)).toFinset, fun i h => ?_⟩
  have key : ∀ x : SparseVector, x.value i ≠ 0 → ∃ e ∈ x.entries, e.index = i := by
    intro x hx
    by_contra hc
    apply hx
    rw [value, valueAt]
    split
    · rfl
    · rename_i e he
      rw [if_pos]
      intro hei
      exact hc ⟨e, List.mem_of_find?_eq_some he, hei⟩
  simp only [List.mem_toFinset, List.mem_map, List.mem_append]
  rcases h with h | h | h <;> obtain ⟨e, he, hi⟩ := key _ h <;> exact ⟨e, by tauto, hi⟩

/-- **C05.** Symmetry. -/
theorem C05_dot_product_symm (v w : SparseVector) (hv : Clean v.entries) (hw : Clean w.entries) :
    v.dotProduct w = w.dotProduct v := by
  obtain ⟨S, hS⟩ := exists_support v w w
  rw [C05_dot_product v w hv hw S (fun i h _ => hS i (Or.inl h)),
    C05_dot_product w v hw hv S (fun i h _ => hS i (Or.inr (Or.inl h)))]
  exact Finset.sum_congr rfl (fun i _ => mul_comm _ _)

/-- **C05.** Linearity in the first argument (hence, by symmetry, in the second). -/
theorem C05_dot_product_linear (v w u r : SparseVector) (s : ℚ)
    (hv : Clean v.entries) (hvd : v.mayNeedCleaning = false)
    (hw : Clean w.entries) (hu : Clean u.entries)
    (hr : v.addMultiple s (some w) = .ok r) :
    r.dotProduct u = v.dotProduct u + s * w.dotProduct u := by
  obtain ⟨r', h1, h2, -, h4⟩ := C03_addMultiple_pointwise v w s hv hvd hw
  rw [h1] at hr; simp only [Outcome.ok.injEq] at hr; subst hr
  obtain ⟨S, hS⟩ := exists_support v w u
  rw [C05_dot_product _ u h2 hu S (fun i _ h => hS i (by tauto)),
    C05_dot_product v u hv hu S (fun i _ h => hS i (by tauto)),
    C05_dot_product w u hw hu S (fun i _ h => hS i (by tauto)), Finset.mul_sum,
    ← Finset.sum_add_distrib]
  apply Finset.sum_congr rfl
  intro i _
  rw [h4]; ring

example : exV.dotProduct exW = -1250 ∧ Clean exV.entries ∧ Clean exW.entries :=
  ⟨by norm_num [dotProduct, exV, exW, dotWalk], exV_clean.1, exW_clean.1⟩

/-! ## C06 -/

/-- **C06.** Scaling, division, negation act on every value and keep the vector
clean. -/
theorem C06_scaling (v : SparseVector) (hv : Clean v.entries) (hd : v.mayNeedCleaning = false)
    (s : ℚ) :
    (Clean (v.scale s).entries ∧ (v.scale s).mayNeedCleaning = false ∧
      ∀ i, (v.scale s).value i = s * v.value i) ∧
    (s ≠ 0 → Clean (v.divide s).entries ∧ (v.divide s).mayNeedCleaning = false ∧
      ∀ i, (v.divide s).value i = v.value i / s) ∧
    (Clean v.neg.entries ∧ v.neg.mayNeedCleaning = false ∧ ∀ i, v.neg.value i = -v.value i) := by
  refine ⟨?_, ?_, ?_⟩
  · unfold scale
    split
    · rename_i h0
      exact ⟨by simp [Clean], hd, fun i => by simp [value, valueAt_nil, h0]⟩
    · rename_i h0
      refine ⟨hv.map (fun _ => rfl) (fun e he => mul_ne_zero he h0), hd, fun i => ?_⟩
      rw [value, valueAt_map (f := fun _ x => x * s) i (by simp), mul_comm]; rfl
  · intro h0
    refine ⟨hv.map (fun _ => rfl) (fun e he => div_ne_zero he h0), hd, fun i => ?_⟩
    rw [value, divide, valueAt_map (f := fun _ x => x / s) i (by simp)]; rfl
  · refine ⟨hv.map (fun _ => rfl) (fun e he => neg_ne_zero.2 he), hd, fun i => ?_⟩
    rw [value, neg, valueAt_map (f := fun _ x => -x) i (by simp)]; rfl

/-- **C06.** `Transform` replaces every non-zero value and keeps the vector clean. -/
theorem C06_transform (v : SparseVector) (hv : Clean v.entries) (hd : v.mayNeedCleaning = false)
    (f : Int → ℚ → ℚ) :
    Clean (v.transform f).entries ∧ (v.transform f).mayNeedCleaning = false ∧
      ∀ i, (v.transform f).value i = if v.value i = 0 then 0 else f i (v.value i) := by
  have hs : StrictSorted (v.entries.map fun e => (⟨e.index, f e.index e.value⟩ : Entry)) :=
    map_sorted (R := (· < ·)) (fun _ => rfl) hv.1
  refine ⟨⟨List.Pairwise.filter _ hs, ?_⟩, hd, fun i => ?_⟩
  · intro e he
    simp only [transform, List.mem_filter, List.mem_map] at he
    obtain ⟨⟨d, hd, rfl⟩, h⟩ := he
    exact ⟨by simpa using h, (hv.2 d hd).2⟩
  · rw [value, transform, valueAt_filter hs]
    have hg : (v.entries.map fun e => (⟨e.index, f e.index e.value⟩ : Entry)) =
        v.entries.map fun e => ⟨e.index, (fun i x => if x = 0 then 0 else f i x) e.index e.value⟩ := by
      apply List.map_congr_left
      intro e he
      simp [(hv.2 e he).1]
    rw [hg, valueAt_map (f := fun i x => if x = 0 then 0 else f i x) i (by simp)]; rfl

theorem ofDenseFrom_spec (k : Int) (hk : 0 ≤ k) (d : List ℚ) :
    Clean (ofDenseFrom k d) ∧ (∀ e ∈ ofDenseFrom k d, k ≤ e.index) ∧
      (∀ n : Nat, valueAt (ofDenseFrom k d) (k + n) = d.getD n 0) := by
  induction d generalizing k with
  | nil => simp [ofDenseFrom, Clean, valueAt_nil]
  | cons x r ih =>
    obtain ⟨h1, h2, h3⟩ := ih (k + 1) (by omega)
    have h4 : ∀ n : Nat, valueAt (ofDenseFrom (k + 1) r) (k + (n + 1 : Nat)) = r.getD n 0 := by
      intro n
      have := h3 n
      rw [show k + ((n + 1 : Nat) : Int) = k + 1 + n by push_cast; ring]; exact this
    rw [ofDenseFrom]
    split
    · rename_i hx
      refine ⟨⟨?_, ?_⟩, ?_, ?_⟩
      · rw [List.pairwise_cons]; exact ⟨fun e he => by have := h2 e he; simp only; omega, h1.1⟩
      · intro e he
        rcases List.mem_cons.1 he with rfl | he
        · exact ⟨hx, hk⟩
        · exact h1.2 e he
      · intro e he
        rcases List.mem_cons.1 he with rfl | he
        · exact le_refl _
        · have := h2 e he; omega
      · intro n
        cases n with
        | zero => simp [valueAt_cons]
        | succ n =>
          rw [valueAt_cons, if_pos (by push_cast; omega), h4]; simp
    · rename_i hx
      have hx : x = 0 := not_not.1 hx
      refine ⟨h1, fun e he => by have := h2 e he; omega, ?_⟩
      intro n
      cases n with
      | zero =>
        rw [valueAt_of_lt (fun e he => by have := h2 e he; simp; omega)]; simp [hx]
      | succ n => rw [h4]; simp

/-- **C06.** The constructor from a dense vector gives a clean vector with exactly the
dense values (and zero beyond its length). -/
theorem C06_ofDense (d : List ℚ) :
    Clean (ofDense d).entries ∧ (ofDense d).mayNeedCleaning = false ∧
      ∀ n : Nat, (ofDense d).value n = d.getD n 0 := by
  obtain ⟨h1, -, h3⟩ := ofDenseFrom_spec 0 (le_refl _) d
  exact ⟨h1, rfl, fun n => by have := h3 n; simpa [ofDense, value] using this⟩

/-- **C06.** The constructor from entries cleans them: last entry of an index wins. -/
theorem C06_ofEntries (l : List Entry) (h : ∀ e ∈ l, 0 ≤ e.index) :
    Clean (ofEntries l).entries ∧ (ofEntries l).mayNeedCleaning = false ∧
      ∀ i, (ofEntries l).value i =
        lastWritten i ((l.map fun e => WriteOp.addEntry e.index e.value).reverse) := by
  have hI : Inv ⟨l, true⟩ := ⟨h, by simp⟩
  have hc := cleanUp_clean hI
  refine ⟨hc.1, hc.2, fun i => ?_⟩
  rw [ofEntries, value, valueAt_eq_lastFrom hc.1.1, lastFrom_cleanUp]
  have key : ∀ l : List Entry, lastFrom (fun _ => 0) l i =
      lastWritten i ((l.map fun e => WriteOp.addEntry e.index e.value).reverse) := by
    intro l
    induction l using List.reverseRecOn with
    | nil => simp [lastWritten]
    | append_singleton l e ih =>
      rw [lastFrom_append]
      simp only [lastFrom_cons, lastFrom_nil, List.map_append, List.map_cons, List.map_nil,
        List.reverse_append, List.reverse_cons, List.reverse_nil, List.nil_append,
        List.singleton_append, lastWritten]
      by_cases hi : e.index = i
      · subst hi; simp
      · rw [Function.update_of_ne (Ne.symm hi), if_neg hi, ih]
  exact key l

example : Clean exV.entries ∧ exV.mayNeedCleaning = false ∧ (exV.scale 3).value 5 = 150 ∧
    (ofDense [0, 4, 0, -2]).entries = [⟨1, 4⟩, ⟨3, -2⟩] :=
  ⟨exV_clean.1, exV_clean.2, by decide +kernel, by decide +kernel⟩

end SparseVector
end MiniMip
