import Verif.Lemmas.ArithVector
import Verif.Props.SparseVector

/-!
# C87, C88: sparse vectors in floating-point arithmetic
-/

namespace MiniMip
namespace AVector
variable {α : Type}

/-! ## Exact arithmetic gives back the exact model -/

/-- An entry of the exact model. -/
def ofEntry (e : Entry) : AEntry ℚ := ⟨e.index, e.value⟩

/-- A vector of the exact model. -/
def ofExact (v : SparseVector) : AVector ℚ := ⟨v.entries.map ofEntry, v.dirty⟩

theorem insertStable_exact (e : Entry) (l : List Entry) :
    insertStable (ofEntry e) (l.map ofEntry) = (SparseVector.insertStable e l).map ofEntry := by
  induction l with
  | nil => rfl
  | cons f r ih =>
    unfold SparseVector.insertStable
    rw [List.map_cons]
    unfold insertStable
    by_cases h : e.index ≤ f.index
    · rw [if_pos h, if_pos (show (ofEntry e).index ≤ (ofEntry f).index from h)]; rfl
    · rw [if_neg h, if_neg (show ¬ (ofEntry e).index ≤ (ofEntry f).index from h), ih]; rfl

theorem stableSort_exact (l : List Entry) :
    stableSort (l.map ofEntry) = (SparseVector.stableSort l).map ofEntry := by
  induction l with
  | nil => rfl
  | cons e r ih =>
    rw [List.map_cons]
    unfold stableSort SparseVector.stableSort
    rw [ih, insertStable_exact]

theorem compact_exact (l : List Entry) :
    compact .exact (l.map ofEntry) = (SparseVector.compact l).map ofEntry := by
  fun_induction SparseVector.compact l with
  | case1 => rfl
  | case2 e he => simp [compact, ofEntry, Arith.exact, he]
  | case3 e he => simp [compact, ofEntry, Arith.exact, he]
  | case4 e f r h ih => rw [← ih]; simp [compact, ofEntry, h]
  | case5 e f r h hz ih => rw [← ih]; simp [compact, ofEntry, Arith.exact, h, hz]
  | case6 e f r h hz ih => rw [List.map_cons (l := SparseVector.compact _), ← ih]; simp [compact, ofEntry, Arith.exact, h, hz]

theorem mergeExact (l1 l2 : List Entry) :
    List.merge (l1.map ofEntry) (l2.map ofEntry) (fun a b => decide (a.index ≤ b.index)) =
      (List.merge l1 l2 (fun a b => decide (a.index ≤ b.index))).map ofEntry := by
  induction l1 generalizing l2 with
  | nil => simp
  | cons a as ih =>
    induction l2 with
    | nil => simp
    | cons b bs ih2 =>
      simp only [List.map_cons, List.cons_merge_cons] at ih2 ⊢
      by_cases h : a.index ≤ b.index
      · rw [if_pos (decide_eq_true (show (ofEntry a).index ≤ (ofEntry b).index from h)), if_pos (decide_eq_true h),
          List.map_cons, ← ih]
        rfl
      · rw [if_neg (fun hc => h (of_decide_eq_true hc : (ofEntry a).index ≤ (ofEntry b).index)),
          if_neg (fun hc => h (of_decide_eq_true hc)), List.map_cons, ih2]

theorem modify_exact (l : List Entry) (p : Nat) (x : ℚ) :
    (l.map ofEntry).modify p (fun d => ⟨d.index, Arith.exact.add d.value x⟩) =
      (l.modify p (fun d => ⟨d.index, d.value + x⟩)).map ofEntry := by
  induction l generalizing p with
  | nil => cases p <;> simp
  | cons a r ih =>
    cases p with
    | zero => simp [ofEntry, Arith.exact]
    | succ p => simp [ih]

theorem sumDuplicates_exact (l : List Entry) : ∀ (cur : Int) (ptr : Option Nat) (done : List Entry),
    sumDuplicates .exact cur ptr (done.map ofEntry) (l.map ofEntry) =
      (SparseVector.sumDuplicates cur ptr done l >>= fun r => .ok (r.map ofEntry)) := by
  induction l with
  | nil => intro cur ptr done; rfl
  | cons e r ih =>
    intro cur ptr done
    rw [List.map_cons]
    unfold sumDuplicates SparseVector.sumDuplicates
    by_cases h : e.index ≠ cur
    · rw [if_pos h, if_pos (show (ofEntry e).index ≠ cur from h), ← ih]
      simp [ofEntry]
    · rw [if_neg h, if_neg (show ¬ (ofEntry e).index ≠ cur from h)]
      cases ptr with
      | none => rfl
      | some p =>
        simp only
        rw [← ih, List.map_append, ← modify_exact]
        rfl

theorem isSortedWeak_exact (l : List Entry) : isSortedWeak (l.map ofEntry) = SparseVector.isSortedWeak l := by
  fun_induction SparseVector.isSortedWeak l with
  | case1 => rfl
  | case2 => rfl
  | case3 e f r ih => rw [← ih]; rfl

theorem filter_exact (l : List Entry) :
    (l.map ofEntry).filter (fun e => !Arith.exact.isZero e.value) =
      (l.filter (fun e => decide (e.value ≠ 0))).map ofEntry := by
  rw [List.filter_map]
  congr 1
  apply List.filter_congr
  intro e _
  show (!decide (e.value = 0)) = _
  rw [decide_not]

theorem dotWalk_exact (l1 l2 : List Entry) (p : ℚ) :
    dotWalk .exact (l1.map ofEntry) (l2.map ofEntry) p = SparseVector.dotWalk l1 l2 p := by
  fun_induction SparseVector.dotWalk l1 l2 p with
  | case1 a as b bs p h ih =>
    rw [List.map_cons, List.map_cons]
    unfold dotWalk
    rw [if_pos (show (ofEntry a).index = (ofEntry b).index from h), ← ih]; rfl
  | case2 a as b bs p h h2 ih =>
    rw [List.map_cons, List.map_cons]
    unfold dotWalk
    rw [if_neg (show ¬ (ofEntry a).index = (ofEntry b).index from h),
      if_pos (show (ofEntry a).index < (ofEntry b).index from h2), ← ih]; rfl
  | case3 a as b bs p h h2 ih =>
    rw [List.map_cons, List.map_cons]
    unfold dotWalk
    rw [if_neg (show ¬ (ofEntry a).index = (ofEntry b).index from h),
      if_neg (show ¬ (ofEntry a).index < (ofEntry b).index from h2), ← ih]; rfl
  | case4 l p => simp [dotWalk]
  | case5 e r p => simp [dotWalk]

/-- With exact arithmetic the operations are those of the model that computes with rationals. -/
theorem exact_agrees (v w : SparseVector) (i : Int) (x : ℚ) (f : Int → ℚ → ℚ) :
    (ofExact v).cleanUpIfNeeded .exact = ofExact v.cleanUpIfNeeded ∧
    (ofExact v).addEntry .exact i x = ofExact (v.addEntry i x) ∧
    (ofExact v).transform .exact f = ofExact (v.transform f) ∧
    (ofExact v).neg .exact = ofExact v.neg ∧
    (ofExact v).scale .exact x = ofExact (v.scale x) ∧
    (ofExact v).divide .exact x = ofExact (v.divide x) ∧
    (ofExact v).addMultiple .exact x (ofExact w) = (v.addMultiple x (some w) >>= fun r => .ok (ofExact r)) ∧
    (ofExact v).dotProduct .exact (ofExact w) = v.dotProduct w ∧
    (ofExact v).value .exact i = v.value i := by
  have hm : ∀ (g : Int → ℚ → ℚ) (l : List Entry), (l.map ofEntry).map (fun e => (⟨e.index, g e.index e.value⟩ : AEntry ℚ)) =
      (l.map fun e => (⟨e.index, g e.index e.value⟩ : Entry)).map ofEntry := by
    intro g l
    rw [List.map_map, List.map_map]; rfl
  refine ⟨?_, ?_, ?_, ?_, ?_, ?_, ?_, ?_, ?_⟩
  · unfold cleanUpIfNeeded SparseVector.cleanUpIfNeeded
    cases h : v.dirty with
    | true => simp [ofExact, h, stableSort_exact, compact_exact]
    | false => simp [ofExact, h]
  · have hl : (ofExact v).lastIndex = v.lastIndex := by
      unfold lastIndex SparseVector.lastIndex
      simp only [ofExact, List.getLast?_map]
      cases v.entries.getLast? <;> rfl
    unfold addEntry SparseVector.addEntry
    rw [hl]
    by_cases h1 : v.dirty = true
    · simp [ofExact, ofEntry, h1]
    · by_cases h2 : i ≤ v.lastIndex
      · simp [ofExact, ofEntry, h1, h2]
      · by_cases h3 : x = 0
        · simp [ofExact, Arith.exact, h1, h2, h3]
        · simp [ofExact, ofEntry, Arith.exact, h1, h2, h3]
  · unfold transform SparseVector.transform ofExact
    simp only
    rw [hm f, filter_exact]
  · unfold neg SparseVector.neg ofExact
    simp only
    exact congrArg (AVector.mk · _) (hm (fun _ x => -x) _)
  · unfold scale SparseVector.scale
    by_cases h : x = 0
    · simp [h, Arith.exact, ofExact]
    · simp only [h, if_false, Arith.exact, decide_false, Bool.false_eq_true, ofExact]
      exact congrArg (AVector.mk · _) (hm (fun _ y => y * x) _)
  · unfold divide SparseVector.divide ofExact
    simp only
    exact congrArg (AVector.mk · _) (hm (fun _ y => y / x) _)
  · unfold addMultiple SparseVector.addMultiple SparseVector.writeAt
    simp only [ofExact]
    have hl2 : (w.entries.map ofEntry).map (fun e => (⟨e.index, Arith.exact.mul e.value x⟩ : AEntry ℚ)) =
        (w.entries.map fun e => (⟨e.index, e.value * x⟩ : Entry)).map ofEntry := hm (fun _ y => y * x) _
    simp only [hl2, isSortedWeak_exact, mergeExact, List.length_append, List.length_replicate, List.length_map, le_refl, if_true, Outcome.bind_ok]
    have e1 : (v.entries ++ List.replicate w.entries.length Entry.default).drop
          (v.entries.length + w.entries.length) = [] := List.drop_of_length_le (by simp)
    simp only [e1, List.append_nil, List.take_left, List.drop_left]
    split
    · have := sumDuplicates_exact
        (List.merge v.entries (w.entries.map fun e => (⟨e.index, e.value * x⟩ : Entry))
          (fun a b => decide (a.index ≤ b.index))) (-1) none []
      rw [List.map_nil] at this
      rw [this]
      cases SparseVector.sumDuplicates (-1) none []
        (List.merge v.entries (w.entries.map fun e => (⟨e.index, e.value * x⟩ : Entry))
          (fun a b => decide (a.index ≤ b.index))) with
      | ok r => simp only [Outcome.bind_ok, Outcome.pure_eq]; rw [filter_exact]
      | error m => rfl
      | abort => rfl
      | ub => rfl
    · rfl
  · exact dotWalk_exact _ _ 0
  · unfold value SparseVector.value SparseVector.valueAt ofExact
    simp only [List.find?_map]
    rw [show ((fun e => decide (i ≤ e.index)) ∘ ofEntry) = fun e : Entry => decide (i ≤ e.index) from rfl]
    cases v.entries.find? fun e => decide (i ≤ e.index) <;> rfl

theorem lookup_of_mem {l : List (AEntry α)} (h : StrictSorted l) {d : AEntry α} (hd : d ∈ l) :
    lookup l d.index = some d.value := by
  induction l with
  | nil => simp at hd
  | cons a r ih =>
    rw [lookup_cons]
    have h' := List.pairwise_cons.1 h
    rcases List.mem_cons.1 hd with rfl | hd
    · rw [if_pos rfl]
    · rw [if_neg (by have := h'.1 d hd; omega), ih h'.2 hd]

/-! ## C87: the class invariant -/

/-- What the class relies on: the number `0.0` is zero, and negation keeps non-zeros. -/
structure Lawful (A : Arith α) : Prop where
  zero : A.isZero A.zero = true
  neg : ∀ x, A.isZero x = false → A.isZero (A.neg x) = false

theorem lawful_exact : Lawful .exact := ⟨by simp [Arith.exact], fun x h => by simpa [Arith.exact] using h⟩

theorem lawful_ieee : Lawful .ieee :=
  ⟨by simp [Arith.ieee, Dbl.eq], fun x h => by cases x <;> simp_all [Arith.ieee, Dbl.eq, Dbl.neg]⟩

/-- The vectors that callers can make without `operator*=` and `operator/=`: they respect the preconditions (DCHECKs) of
the class, that is, indices are not negative and vectors are clean when they have to be. -/
inductive Built (A : Arith α) : AVector α → Prop where
  | empty : Built A {}
  /-- the constructor from entries, and `mutable_entries` with any changes -/
  | entries (l : List (AEntry α)) : (∀ e ∈ l, 0 ≤ e.index) → Built A ⟨l, true⟩
  | addEntry {v} (i : Int) (x : α) : Built A v → 0 ≤ i → Built A (v.addEntry A i x)
  | cleanUp {v} : Built A v → Built A (v.cleanUpIfNeeded A)
  | transform {v} (f : Int → α → α) : Built A v → v.dirty = false → Built A (v.transform A f)
  | neg {v} : Built A v → v.dirty = false → Built A (v.neg A)
  | addMultiple {v w r} (s : α) : Built A v → v.dirty = false → Built A w → w.dirty = false →
      v.addMultiple A s w = .ok r → Built A r

theorem Built.inv {A : Arith α} (hA : Lawful A) {v : AVector α} (h : Built A v) :
    (∀ e ∈ v.entries, 0 ≤ e.index) ∧ (v.dirty = false → Clean A v.entries) := by
  induction h with
  | empty => exact ⟨by simp, fun _ => ⟨by simp [StrictSorted], by simp⟩⟩
  | entries l hl => exact ⟨hl, by simp⟩
  | @addEntry v i x _ hi ih =>
    unfold AVector.addEntry
    have hm : ∀ e ∈ v.entries ++ [(⟨i, x⟩ : AEntry α)], 0 ≤ e.index := by
      intro e he
      rcases List.mem_append.1 he with h | h
      · exact ih.1 e h
      · simp only [List.mem_singleton] at h; subst h; exact hi
    split
    · exact ⟨hm, by simp⟩
    · rename_i hd
      split
      · exact ⟨hm, by simp⟩
      · rename_i hlast
        split
        · exact ih
        · rename_i hz
          refine ⟨hm, fun _ => ?_⟩
          have hc := ih.2 (by simpa using hd)
          refine ⟨?_, ?_⟩
          · unfold StrictSorted
            rw [List.pairwise_append]
            refine ⟨hc.1, by simp, ?_⟩
            intro a ha b hb
            simp only [List.mem_singleton] at hb
            subst hb
            unfold lastIndex at hlast
            -- the last entry has the largest index
            have hne : v.entries ≠ [] := by rintro h; rw [h] at ha; simp at ha
            rw [List.getLast?_eq_some_getLast hne] at hlast
            simp only at hlast
            have hle : a.index ≤ (v.entries.getLast hne).index := by
              have hs := hc.1
              rw [← List.dropLast_append_getLast hne] at hs ha
              unfold StrictSorted at hs
              rw [List.pairwise_append] at hs
              rcases List.mem_append.1 ha with h | h
              · exact (hs.2.2 a h _ (by simp)).le
              · simp only [List.mem_singleton] at h; rw [h]
            simp only
            omega
          · intro e he
            refine ⟨?_, hm e he⟩
            rcases List.mem_append.1 he with h | h
            · exact (hc.2 e h).1
            · simp only [List.mem_singleton] at h; subst h; simpa using hz
  | @cleanUp v _ ih =>
    unfold AVector.cleanUpIfNeeded
    split
    · have hm : ∀ e ∈ compact A (stableSort v.entries), e ∈ v.entries ∧ A.isZero e.value = false := fun e he =>
        ⟨stableSort_mem.1 (compact_mem he).1, (compact_mem he).2⟩
      exact ⟨fun e he => ih.1 e (hm e he).1, fun _ => ⟨compact_sorted (stableSort_sorted _),
        fun e he => ⟨(hm e he).2, ih.1 e (hm e he).1⟩⟩⟩
    · exact ih
  | @transform v f _ hd ih =>
    have hc := ih.2 hd
    have key : ∀ e ∈ (v.transform A f).entries, A.isZero e.value = false ∧ 0 ≤ e.index := by
      intro e he
      obtain ⟨h1, h2⟩ := List.mem_filter.1 he
      obtain ⟨d, hd, rfl⟩ := List.mem_map.1 h1
      exact ⟨by simpa using h2, ih.1 d hd⟩
    exact ⟨fun e he => (key e he).2, fun _ =>
      ⟨List.Pairwise.filter _ (map_strictSorted hc.1 _ fun _ => rfl), key⟩⟩
  | @neg v _ hd ih =>
    have hc := ih.2 hd
    have key : ∀ e ∈ (v.neg A).entries, A.isZero e.value = false ∧ 0 ≤ e.index := by
      intro e he
      obtain ⟨d, hd, rfl⟩ := List.mem_map.1 he
      exact ⟨hA.neg _ (hc.2 d hd).1, ih.1 d hd⟩
    exact ⟨fun e he => (key e he).2, fun _ => ⟨map_strictSorted hc.1 _ fun _ => rfl, key⟩⟩
  | @addMultiple v w r s _ hvd _ hwd hr ihv ihw =>
    obtain ⟨l, h1, h2, -⟩ := addMultiple_spec hA.zero s (ihv.2 hvd) (ihw.2 hwd)
    rw [hr] at h1
    simp only [Outcome.ok.injEq] at h1
    subst h1
    exact ⟨fun e he => (h2.2 e he).2, fun _ => h2⟩

/-- **C87, invariant.**  In floating-point arithmetic, with rounding, underflow, overflow, infinities and NaN, and for
any sequence of calls that respect the preconditions and do not scale: a vector that does not ask for cleaning is clean
(indices strictly increasing, no zeros), and adding a multiple of one clean vector to another returns.

Missing for C87: scaling; see `C87_scaling_violated`. -/
theorem C87_invariant_partial (v : AVector Dbl) (h : Built .ieee v) :
    (v.isClean .ieee = true ∨ v.dirty = true) ∧ (v.cleanUpIfNeeded .ieee).isClean .ieee = true ∧
    ∀ (s : Dbl) (w : AVector Dbl), v.dirty = false → Built .ieee w → w.dirty = false →
      ∃ r, v.addMultiple .ieee s w = .ok r ∧ r.isClean .ieee = true ∧ r.dirty = false := by
  have hi := h.inv lawful_ieee
  refine ⟨?_, ?_, ?_⟩
  · cases hd : v.dirty with
    | true => exact Or.inr rfl
    | false => exact Or.inl ((isClean_iff _ _).2 (hi.2 hd))
  · rw [isClean_iff]
    refine ((Built.cleanUp h).inv lawful_ieee).2 ?_
    unfold cleanUpIfNeeded
    split
    · rfl
    · rename_i hd; simpa using hd
  · intro s w hd hw hwd
    obtain ⟨l, h1, h2, -⟩ := addMultiple_spec lawful_ieee.zero s (hi.2 hd) ((hw.inv lawful_ieee).2 hwd)
    exact ⟨_, h1, (isClean_iff _ _).2 h2, hd⟩

/-- The hypotheses of C87 and C88 hold: the vector with the entry 1/2 at index 3. -/
def exHalf : AVector Dbl := ({} : AVector Dbl).addEntry .ieee 3 (.fin (1 / 2))

theorem exHalf_built : Built .ieee exHalf := .addEntry 3 _ .empty (by norm_num)

theorem exHalf_eq : exHalf = ⟨[⟨3, .fin (1 / 2)⟩], false⟩ := by decide +kernel

example : (exHalf.cleanUpIfNeeded .ieee).isClean .ieee = true := (C87_invariant_partial _ exHalf_built).2.1

/-- **C87 fails for scaling.**  A vector whose only entry is the smallest positive double, scaled by one half (or
divided by two), keeps an entry with the value zero, and does not ask for cleaning. -/
theorem C87_scaling_violated :
    ∃ v : AVector Dbl, Built .ieee v ∧ v.isClean .ieee = true ∧ v.dirty = false ∧
      (v.scale .ieee (.fin (1 / 2))).entries = [⟨0, .fin 0⟩] ∧ (v.scale .ieee (.fin (1 / 2))).dirty = false ∧
      (v.scale .ieee (.fin (1 / 2))).isClean .ieee = false ∧
      (v.divide .ieee (.fin 2)).entries = [⟨0, .fin 0⟩] ∧ (v.divide .ieee (.fin 2)).isClean .ieee = false := by
  have hpos : (2 : ℚ) ^ (-1074 : ℤ) ≠ 0 := by positivity
  have hz : Arith.ieee.isZero (.fin (2 ^ (-1074 : ℤ))) = false := by
    simp only [Arith.ieee, Dbl.eq]
    exact decide_eq_false hpos
  have hb : ({} : AVector Dbl).addEntry .ieee 0 (.fin (2 ^ (-1074 : ℤ))) =
      ⟨[⟨0, .fin (2 ^ (-1074 : ℤ))⟩], false⟩ := by
    unfold addEntry
    rw [hz]
    simp [lastIndex]
  have hr : Ieee.round (2 ^ (-1074 : ℤ) / 2) = .fin 0 := by
    unfold Ieee.round
    rw [Ieee.rnd_eta, if_pos]
    rw [abs_zero]
    exact Ieee.le_maxFinite (x := 0) (by norm_num) |>.trans' (by simp)
  have e1 : AVector.scale .ieee ⟨[⟨0, .fin (2 ^ (-1074 : ℤ))⟩], false⟩ (.fin (1 / 2)) = ⟨[⟨0, .fin 0⟩], false⟩ := by
    unfold scale
    rw [if_neg (by simp [Arith.ieee, Dbl.eq])]
    simp only [List.map_cons, List.map_nil, Arith.ieee, Ieee.mul]
    rw [← hr, mul_one_div]
  have e2 : AVector.divide .ieee ⟨[⟨0, .fin (2 ^ (-1074 : ℤ))⟩], false⟩ (.fin 2) = ⟨[⟨0, .fin 0⟩], false⟩ := by
    unfold divide
    simp only [List.map_cons, List.map_nil, Arith.ieee, Ieee.div]
    rw [if_neg (by norm_num), hr]
  refine ⟨⟨[⟨0, .fin (2 ^ (-1074 : ℤ))⟩], false⟩, by rw [← hb]; exact .addEntry 0 _ .empty (by norm_num), ?_, rfl, ?_,
    ?_, ?_, ?_, ?_⟩
  · rw [isClean_iff]
    refine ⟨by simp [StrictSorted], fun e he => ?_⟩
    rw [List.mem_singleton] at he
    subst he
    exact ⟨hz, le_refl _⟩
  · rw [e1]
  · rw [e1]
  · rw [e1]; decide +kernel
  · rw [e2]
  · rw [e2]; decide +kernel

/-- **C87, scaling, what holds.**  Scaling a clean vector multiplies the value of every index, and the vector stays
clean if no product is smaller than the smallest positive double. -/
theorem C87_scaling_partial (v : AVector Dbl) (s : ℚ) (hv : v.isClean .ieee = true) (hs : s ≠ 0)
    (hbig : ∀ i x, v.value .ieee i = .fin x → x = 0 ∨ 2 ^ (-1074 : ℤ) ≤ |x * s|) :
    (v.scale .ieee (.fin s)).isClean .ieee = true ∧
    ∀ i, (v.scale .ieee (.fin s)).value .ieee i = Ieee.mul (v.value .ieee i) (.fin s) := by
  rw [isClean_iff] at hv
  have he : v.scale .ieee (.fin s) = ⟨v.entries.map fun e => ⟨e.index, Ieee.mul e.value (.fin s)⟩, v.dirty⟩ := by
    unfold scale
    rw [if_neg (by simpa [Arith.ieee, Dbl.eq] using hs)]
    rfl
  have hso : StrictSorted (v.entries.map fun e => (⟨e.index, Ieee.mul e.value (.fin s)⟩ : AEntry Dbl)) :=
    map_strictSorted hv.1 _ fun _ => rfl
  constructor
  · rw [isClean_iff, he]
    refine ⟨hso, fun e hmem => ?_⟩
    obtain ⟨d, hd, rfl⟩ := List.mem_map.1 hmem
    refine ⟨?_, (hv.2 d hd).2⟩
    have hval : v.value .ieee d.index = d.value := by
      rw [value_eq_lookup _ hv.1]
      rw [lookup_of_mem hv.1 hd]; rfl
    have hb := hbig d.index
    rw [hval] at hb
    have hz := (hv.2 d hd).1
    show Dbl.eq (Ieee.mul d.value (.fin s)) (.fin 0) = false
    cases hdv : d.value with
    | nan => rfl
    | pinf =>
      simp only [Ieee.mul, Ieee.infTimes, if_neg hs]
      split_ifs <;> rfl
    | ninf =>
      simp only [Ieee.mul, Ieee.infTimes, neg_eq_zero, if_neg hs]
      split_ifs <;> rfl
    | fin x =>
      rw [hdv] at hz hb
      rcases hb x rfl with h | h
      · subst h; simp [Arith.ieee, Dbl.eq] at hz
      · simp only [Ieee.mul, Ieee.round]
        have := Ieee.rnd_ne_zero h
        split_ifs
        · exact decide_eq_false this
        · rfl
        · rfl
  · intro i
    rw [he, value_eq_lookup _ hso, value_eq_lookup _ hv.1,
      lookup_map v.entries (fun _ x => Ieee.mul x (.fin s)) i]
    cases lookup v.entries i with
    | some x => rfl
    | none =>
      show Dbl.fin 0 = Ieee.mul (.fin 0) (.fin s)
      simp only [Ieee.mul, zero_mul, Ieee.round]
      rw [Ieee.rnd_zero, if_pos]
      rw [abs_zero]
      exact Ieee.le_maxFinite (x := 0) (by norm_num) |>.trans' (by simp)

example : (exHalf.scale .ieee (.fin 2)).isClean .ieee = true := by
  refine (C87_scaling_partial exHalf 2 ?_ (by norm_num) ?_).1
  · rw [exHalf_eq]; decide +kernel
  · intro i x h
    rw [exHalf_eq, value_eq_lookup _ (by simp [StrictSorted]), lookup_cons] at h
    by_cases hi : (3 : Int) = i
    · rw [if_pos hi] at h
      simp only [Option.getD_some, Dbl.fin.injEq] at h
      right
      rw [← h]
      have : (2 : ℚ) ^ (-1074 : ℤ) ≤ 2 ^ (0 : ℤ) := zpow_le_zpow_right₀ (by norm_num) (by norm_num)
      rw [zpow_zero] at this
      rw [show |(1 : ℚ) / 2 * 2| = 1 by norm_num]
      exact this
    · rw [if_neg hi] at h
      left
      simpa [lookup, Arith.ieee] using h.symm

/-! ## C88: accuracy -/

/-- **C88, rounding.**  The finite results of operations are those of IEEE 754: the result is a double, no double is
nearer to the exact value, of two nearest ones the result is the one with the even significand; results are infinite
only beyond the largest double. -/
theorem C88_rounding (x : ℚ) :
    (∀ z, Ieee.round x = .fin z → Ieee.IsDouble z ∧ (∀ y, Ieee.IsDouble y → |z - x| ≤ |y - x|) ∧
      (∀ y, Ieee.IsDouble y → y ≠ z → |y - x| = |z - x| →
        ∃ k n e : ℤ, z = 2 * k * 2 ^ e ∧ y = n * 2 ^ e ∧ |n - 2 * k| = 1)) ∧
    (|x| ≤ Ieee.maxFinite → ∃ z, Ieee.round x = .fin z) ∧
    (Ieee.round x = .pinf → Ieee.maxFinite < x) ∧ (Ieee.round x = .ninf → x < -Ieee.maxFinite) ∧
    Ieee.round x ≠ .nan := by
  have hmax : Ieee.Rep Ieee.maxFinite := ⟨2 ^ 53 - 1, 971, by norm_num, by norm_num, by
    unfold Ieee.maxFinite
    rw [show (971 : ℤ) = ((971 : ℕ) : ℤ) by norm_num, zpow_natCast]
    push_cast
    ring⟩
  have hpos : 0 < Ieee.maxFinite := by
    unfold Ieee.maxFinite
    exact mul_pos (by norm_num) (pow_pos (by norm_num) _)
  have hle : x ≤ Ieee.maxFinite → Ieee.rnd x ≤ Ieee.maxFinite := fun h => by
    have := Ieee.rnd_mono h
    rwa [Ieee.rnd_rep hmax] at this
  have hge : -Ieee.maxFinite ≤ x → -Ieee.maxFinite ≤ Ieee.rnd x := fun h => by
    have := Ieee.rnd_mono h
    rwa [Ieee.rnd_rep hmax.neg] at this
  refine ⟨?_, ?_, ?_, ?_, ?_⟩
  · intro z hz
    obtain ⟨rfl, hm⟩ := Ieee.round_eq_fin hz
    refine ⟨⟨Ieee.rep_rnd x, hm⟩, fun y hy => Ieee.rnd_le hy.1, fun y hy hne heq => ?_⟩
    obtain ⟨k, n, h1, h2, h3⟩ := Ieee.rnd_tie hy.1 hne heq
    exact ⟨k, n, Ieee.expOf x, h1, h2, h3⟩
  · intro h
    obtain ⟨h1, h2⟩ := abs_le.1 h
    exact ⟨_, if_pos (abs_le.2 ⟨hge h1, hle h2⟩)⟩
  · intro h
    by_contra hc
    push Not at hc
    unfold Ieee.round at h
    split_ifs at h with h1 h2
    exact h1 (abs_le.2 ⟨by have := Ieee.rnd_nonneg h2.le; linarith, hle hc⟩)
  · intro h
    by_contra hc
    push Not at hc
    unfold Ieee.round at h
    split_ifs at h with h1 h2
    exact h1 (abs_le.2 ⟨hge hc, by have := Ieee.rnd_nonpos (not_lt.1 h2); linarith⟩)
  · unfold Ieee.round
    split_ifs <;> simp

/-- A tie: the doubles next to `2 ^ 53 + 1` are `2 ^ 53` and `2 ^ 53 + 2`. -/
example : ∃ y : ℚ, Ieee.Rep y ∧ y ≠ 2 ^ 53 ∧ |y - (2 ^ 53 + 1)| = |(2 : ℚ) ^ 53 - (2 ^ 53 + 1)| :=
  ⟨2 ^ 53 + 2, ⟨2 ^ 52 + 1, 1, by norm_num, by norm_num, by norm_num⟩, by norm_num, by norm_num⟩

/-- A value that a `double` can have. -/
def Proper : Dbl → Prop
  | .fin q => Ieee.IsDouble q
  | _ => True

theorem add_zero_of_proper {x : Dbl} (h : Proper x) : Ieee.add x (.fin 0) = x := by
  cases x with
  | fin q =>
    show Ieee.round (q + 0) = _
    rw [_root_.add_zero, Ieee.round_rep h.1 h.2]
  | _ => rfl

theorem zero_add_of_proper {x : Dbl} (h : Proper x) : Ieee.add (.fin 0) x = x := by
  cases x with
  | fin q =>
    show Ieee.round (0 + q) = _
    rw [_root_.zero_add, Ieee.round_rep h.1 h.2]
  | _ => rfl

theorem proper_round (q : ℚ) : Proper (Ieee.round q) := by
  unfold Ieee.round
  split_ifs with h
  · exact ⟨Ieee.rep_rnd q, h⟩
  · trivial
  · trivial

theorem proper_mul (x : Dbl) (s : ℚ) : Proper (Ieee.mul x (.fin s)) := by
  cases x with
  | nan => trivial
  | fin q => exact proper_round _
  | pinf => simp only [Ieee.mul, Ieee.infTimes]; split_ifs <;> trivial
  | ninf => simp only [Ieee.mul, Ieee.infTimes]; split_ifs <;> trivial

theorem zero_mul_fin (s : ℚ) : Ieee.mul (.fin 0) (.fin s) = .fin 0 := by
  simp only [Ieee.mul, zero_mul, Ieee.round]
  rw [Ieee.rnd_zero, if_pos]
  rw [abs_zero]
  exact Ieee.le_maxFinite (x := 0) (by norm_num) |>.trans' (by simp)

theorem nonzero_getD (x : Dbl) : (nonzero .ieee x).getD (Arith.zero .ieee) = x := by
  unfold nonzero
  split
  · rename_i h
    cases x with
    | fin q => simp only [Arith.ieee, Dbl.eq, decide_eq_true_eq] at h; subst h; rfl
    | _ => simp [Arith.ieee, Dbl.eq] at h
  · rfl

/-- The values after adding a multiple of a sorted vector. -/
theorem addMultiple_value {v w : AVector Dbl} (s : ℚ) (hv : StrictSorted v.entries) (hvi : ∀ e ∈ v.entries, 0 ≤ e.index)
    (hw : StrictSorted w.entries) (hwi : ∀ e ∈ w.entries, 0 ≤ e.index) (hpv : ∀ e ∈ v.entries, Proper e.value) :
    ∃ l, v.addMultiple .ieee (.fin s) w = .ok ⟨l, v.dirty⟩ ∧ Clean .ieee l ∧
      ∀ i, AVector.value .ieee ⟨l, v.dirty⟩ i = Ieee.add (v.value .ieee i) (Ieee.mul (w.value .ieee i) (.fin s)) := by
  obtain ⟨l, h1, h2, h3⟩ := addMultiple_sorted lawful_ieee.zero (.fin s) hv hvi hw hwi
  refine ⟨l, h1, h2, ?_⟩
  intro i
  rw [value_eq_lookup _ h2.1, value_eq_lookup _ hv, value_eq_lookup _ hw, h3 i]
  cases hvi : lookup v.entries i with
  | none =>
    cases hwi : lookup w.entries i with
    | none =>
      show Dbl.fin 0 = Ieee.add (.fin 0) (Ieee.mul (.fin 0) (.fin s))
      rw [zero_mul_fin, add_zero_of_proper]
      exact ⟨⟨0, 0, by norm_num, by norm_num, by norm_num⟩, Ieee.le_maxFinite (by norm_num)⟩
    | some b =>
      show (nonzero .ieee (Ieee.mul b (.fin s))).getD _ = Ieee.add (.fin 0) (Ieee.mul b (.fin s))
      rw [nonzero_getD, zero_add_of_proper (proper_mul b s)]
  | some a =>
    cases hwi : lookup w.entries i with
    | none =>
      show (nonzero .ieee a).getD _ = Ieee.add a (Ieee.mul (.fin 0) (.fin s))
      rw [nonzero_getD, zero_mul_fin, add_zero_of_proper (hpv _ (lookup_mem hvi))]
    | some b =>
      show (nonzero .ieee (Ieee.add a (Ieee.mul b (.fin s)))).getD _ = _
      rw [nonzero_getD]; rfl

/-- **C88, adding a multiple.**  In floating-point arithmetic, adding `s` times a clean vector to a clean vector gives
for every index the rounded sum of the value there and the rounded product.  If that is finite, it is the exact value
up to a relative error of `2 ^ -53` for the sum and one for the product, and half the smallest positive double. -/
theorem C88_add_multiple (v w : AVector Dbl) (s : ℚ) (hv : v.isClean .ieee = true) (hw : w.isClean .ieee = true)
    (hpv : ∀ e ∈ v.entries, Proper e.value) :
    ∃ r, v.addMultiple .ieee (.fin s) w = .ok r ∧
      (∀ i, r.value .ieee i = Ieee.add (v.value .ieee i) (Ieee.mul (w.value .ieee i) (.fin s))) ∧
      ∀ i z, r.value .ieee i = .fin z → ∃ a b, v.value .ieee i = .fin a ∧ w.value .ieee i = .fin b ∧
        |z - (a + b * s)| ≤ Ieee.u * |a| + (2 * Ieee.u + Ieee.u ^ 2) * |b * s| + (1 + Ieee.u) * Ieee.eta := by
  rw [isClean_iff] at hv hw
  obtain ⟨l, h1, h2, hval⟩ := addMultiple_value s hv.1 (fun e he => (hv.2 e he).2) hw.1 (fun e he => (hw.2 e he).2) hpv
  refine ⟨_, h1, hval, fun i z hz => ?_⟩
  rw [hval i] at hz
  obtain ⟨a, m, ha, hm, rfl⟩ := Ieee.add_eq_fin hz
  obtain ⟨b, s', hb, hs', rfl⟩ := Ieee.mul_eq_fin hm
  simp only [Dbl.fin.injEq] at hs'
  subst hs'
  refine ⟨a, b, ha, hb, ?_⟩
  have hrep : Ieee.Rep a := by
    rw [value_eq_lookup _ hv.1] at ha
    cases hvi : lookup v.entries i with
    | none =>
      rw [hvi] at ha
      have : (0 : ℚ) = a := by simpa [Arith.ieee] using ha
      exact ⟨0, 0, by norm_num, by norm_num, by simp [← this]⟩
    | some x =>
      rw [hvi] at ha
      have hx : x = .fin a := by simpa using ha
      have := hpv _ (lookup_mem hvi)
      rw [hx] at this
      exact this.1
  have e1 := Ieee.rnd_add_error hrep (Ieee.rep_rnd (b * s))
  have e2 := Ieee.rnd_error (b * s)
  have hu : 0 ≤ Ieee.u := by unfold Ieee.u; positivity
  have heta : 0 ≤ Ieee.eta := by unfold Ieee.eta; positivity
  have e3 : |Ieee.rnd (b * s) - b * s| ≤ Ieee.u * |b * s| + Ieee.eta :=
    e2.trans (max_le (by linarith) (by nlinarith [abs_nonneg (b * s)]))
  have t1 : |Ieee.rnd (a + Ieee.rnd (b * s)) - (a + b * s)| ≤
      |Ieee.rnd (a + Ieee.rnd (b * s)) - (a + Ieee.rnd (b * s))| + |Ieee.rnd (b * s) - b * s| := by
    have := abs_add_le (Ieee.rnd (a + Ieee.rnd (b * s)) - (a + Ieee.rnd (b * s))) (Ieee.rnd (b * s) - b * s)
    rw [show Ieee.rnd (a + Ieee.rnd (b * s)) - (a + b * s) =
      Ieee.rnd (a + Ieee.rnd (b * s)) - (a + Ieee.rnd (b * s)) + (Ieee.rnd (b * s) - b * s) by ring]
    exact this
  have t2 : |a + Ieee.rnd (b * s)| ≤ |a| + |b * s| + |Ieee.rnd (b * s) - b * s| := by
    have h1 := abs_add_le a (Ieee.rnd (b * s))
    have h2 := abs_add_le (b * s) (Ieee.rnd (b * s) - b * s)
    rw [add_sub_cancel] at h2
    linarith
  have t3 := mul_le_mul_of_nonneg_left t2 hu
  have t4 := mul_le_mul_of_nonneg_left e3 hu
  nlinarith

example : ∃ r, exHalf.addMultiple .ieee (.fin 3) exHalf = .ok r :=
  (C88_add_multiple exHalf exHalf 3 (by rw [exHalf_eq]; decide +kernel) (by rw [exHalf_eq]; decide +kernel) (by
    intro e he
    rw [exHalf_eq] at he
    simp only [List.mem_singleton] at he
    subst he
    exact ⟨⟨1, -1, by norm_num, by norm_num, by norm_num⟩, Ieee.le_maxFinite (by norm_num)⟩)).imp fun _ h => h.1

/-! ### The dot product -/

/-- The pairs of values with the same index, in the order of `DotProduct`. -/
def matched (l1 l2 : List (AEntry α)) : List (α × α) :=
  l1.filterMap fun e => (lookup l2 e.index).map fun y => (e.value, y)

theorem matched_skip (l1 : List (AEntry α)) (b : AEntry α) (l2 : List (AEntry α))
    (h : ∀ e ∈ l1, b.index < e.index) : matched l1 (b :: l2) = matched l1 l2 := by
  unfold matched
  apply List.filterMap_congr
  intro e he
  rw [lookup_cons, if_neg (by have := h e he; omega)]

theorem dotWalk_eq (A : Arith α) (l1 l2 : List (AEntry α)) (p : α) (h1 : StrictSorted l1) (h2 : StrictSorted l2) :
    dotWalk A l1 l2 p = (matched l1 l2).foldl (fun p ab => A.add p (A.mul ab.1 ab.2)) p := by
  fun_induction dotWalk A l1 l2 p with
  | case1 a as b bs p h ih =>
    have h1' := List.pairwise_cons.1 h1
    have h2' := List.pairwise_cons.1 h2
    rw [ih h1'.2 h2'.2]
    have : matched (a :: as) (b :: bs) = (a.value, b.value) :: matched as bs := by
      rw [← matched_skip as b bs fun e he => by have := h1'.1 e he; omega]
      conv_lhs => unfold matched
      rw [List.filterMap_cons, lookup_cons, if_pos h.symm]
      rfl
    rw [this]; rfl
  | case2 a as b bs p h hlt ih =>
    have h1' := List.pairwise_cons.1 h1
    have h2' := List.pairwise_cons.1 h2
    rw [ih h1'.2 h2]
    have : matched (a :: as) (b :: bs) = matched as (b :: bs) := by
      conv_lhs => unfold matched
      rw [List.filterMap_cons, lookup_none fun e he => ?_]
      · rfl
      · rcases List.mem_cons.1 he with rfl | he
        · omega
        · have := h2'.1 e he; omega
    rw [this]
  | case3 a as b bs p h hlt ih =>
    have h1' := List.pairwise_cons.1 h1
    have h2' := List.pairwise_cons.1 h2
    rw [ih h1 h2'.2]
    rw [matched_skip]
    intro e he
    rcases List.mem_cons.1 he with rfl | he
    · omega
    · have := h1'.1 e he; omega
  | case4 l p => rfl
  | case5 e r p =>
    have : matched (e :: r) [] = [] := by
      unfold matched
      rw [List.filterMap_eq_nil_iff]
      intro e _; rfl
    rw [this]; rfl

/-- The finite value of a double, zero otherwise. -/
def toRat : Dbl → ℚ
  | .fin q => q
  | _ => 0

theorem dot_error (l : List (Dbl × Dbl)) : ∀ (k : ℕ) (p s T z : ℚ), Ieee.Rep p → |s| ≤ T →
    |p - s| ≤ ((1 + Ieee.u) ^ (k + 1) - 1) * T + k * (1 + Ieee.u) ^ k * Ieee.eta →
    l.foldl (fun p ab => Ieee.add p (Ieee.mul ab.1 ab.2)) (.fin p) = .fin z →
    (∀ ab ∈ l, ∃ a b, ab = (.fin a, .fin b)) ∧
    |z - (s + (l.map fun ab => toRat ab.1 * toRat ab.2).sum)| ≤
      ((1 + Ieee.u) ^ (k + l.length + 1) - 1) * (T + (l.map fun ab => |toRat ab.1 * toRat ab.2|).sum) +
        (k + l.length : ℕ) * (1 + Ieee.u) ^ (k + l.length) * Ieee.eta := by
  have hu : 0 ≤ Ieee.u := by unfold Ieee.u; positivity
  have heta : 0 ≤ Ieee.eta := by unfold Ieee.eta; positivity
  induction l with
  | nil =>
    intro k p s T z _ _ herr hz
    simp only [List.foldl_nil, Dbl.fin.injEq] at hz
    subst hz
    refine ⟨by simp, ?_⟩
    simpa using herr
  | cons ab r ih =>
    intro k p s T z hp hs herr hz
    rw [List.foldl_cons] at hz
    -- an infinity or NaN would stay
    have hfin : ∃ p', Ieee.add (.fin p) (Ieee.mul ab.1 ab.2) = .fin p' := by
      by_contra hc
      push Not at hc
      revert hz hc
      generalize Ieee.add (.fin p) (Ieee.mul ab.1 ab.2) = q
      clear ih
      intro hz hc
      induction r generalizing q with
      | nil => exact hc _ hz
      | cons ab' r' ih' =>
        rw [List.foldl_cons] at hz
        refine ih' _ hz fun y hy => ?_
        obtain ⟨a, b, ha, -⟩ := Ieee.add_eq_fin hy
        exact hc a ha
    obtain ⟨p', hp'⟩ := hfin
    rw [hp'] at hz
    obtain ⟨p0, m, h0, hm, rfl⟩ := Ieee.add_eq_fin hp'
    simp only [Dbl.fin.injEq] at h0
    subst h0
    obtain ⟨a, b, ha, hb, rfl⟩ := Ieee.mul_eq_fin hm
    have e1 := Ieee.rnd_add_error hp (Ieee.rep_rnd (a * b))
    have e2 := Ieee.rnd_error (a * b)
    have e3 : |Ieee.rnd (a * b) - a * b| ≤ Ieee.u * |a * b| + Ieee.eta :=
      e2.trans (max_le (by linarith) (by nlinarith [abs_nonneg (a * b)]))
    set m := Ieee.rnd (a * b) with hmdef
    set c := a * b with hcdef
    set w := (1 + Ieee.u) ^ k with hw
    have hw1 : 1 ≤ w := one_le_pow₀ (by linarith)
    have t1 : |Ieee.rnd (p + m) - (s + c)| ≤ |Ieee.rnd (p + m) - (p + m)| + |p - s| + |m - c| := by
      have h1 := abs_add_le (Ieee.rnd (p + m) - (p + m)) (p - s + (m - c))
      have h2 := abs_add_le (p - s) (m - c)
      have : Ieee.rnd (p + m) - (s + c) = Ieee.rnd (p + m) - (p + m) + (p - s + (m - c)) := by ring
      rw [this]; linarith
    have t2 : |p + m| ≤ |s| + |c| + |p - s| + |m - c| := by
      have h1 := abs_add_le (s + c) (p - s + (m - c))
      have h2 := abs_add_le (p - s) (m - c)
      have h3 := abs_add_le s c
      have : p + m = s + c + (p - s + (m - c)) := by ring
      rw [this]; linarith
    have hT : 0 ≤ T := le_trans (abs_nonneg _) hs
    have key : |Ieee.rnd (p + m) - (s + c)| ≤ ((1 + Ieee.u) ^ (k + 1 + 1) - 1) * (T + |c|) +
        ((k + 1 : ℕ) : ℚ) * (1 + Ieee.u) ^ (k + 1) * Ieee.eta := by
      have h5 : |Ieee.rnd (p + m) - (s + c)| ≤ (1 + Ieee.u) * (|p - s| + |m - c|) + Ieee.u * (T + |c|) := by
        have := mul_le_mul_of_nonneg_left t2 hu
        have h6 : Ieee.u * |s| ≤ Ieee.u * T := mul_le_mul_of_nonneg_left hs hu
        nlinarith
      have h7 : (1 + Ieee.u) * (|p - s| + |m - c|) ≤ (1 + Ieee.u) *
          (((1 + Ieee.u) ^ (k + 1) - 1) * T + k * (1 + Ieee.u) ^ k * Ieee.eta + (Ieee.u * |c| + Ieee.eta)) :=
        mul_le_mul_of_nonneg_left (by linarith) (by linarith)
      have hexp1 : (1 + Ieee.u) ^ (k + 1) = w * (1 + Ieee.u) := by rw [pow_succ]
      have hexp2 : (1 + Ieee.u) ^ (k + 1 + 1) = w * (1 + Ieee.u) * (1 + Ieee.u) := by rw [pow_succ, pow_succ]
      rw [hexp1, ← hw] at h7
      rw [hexp1, hexp2]
      push_cast
      have hc0 := abs_nonneg c
      have h8 : (1 + Ieee.u) * (1 + Ieee.u) * |c| ≤ w * (1 + Ieee.u) * (1 + Ieee.u) * |c| := by
        have : (1 + Ieee.u) * (1 + Ieee.u) * 1 ≤ (1 + Ieee.u) * (1 + Ieee.u) * w :=
          mul_le_mul_of_nonneg_left hw1 (mul_nonneg (by linarith) (by linarith))
        have := mul_le_mul_of_nonneg_right this hc0
        nlinarith
      have h9 : (1 + Ieee.u) * Ieee.eta ≤ w * (1 + Ieee.u) * Ieee.eta := by
        have : 1 * ((1 + Ieee.u) * Ieee.eta) ≤ w * ((1 + Ieee.u) * Ieee.eta) :=
          mul_le_mul_of_nonneg_right hw1 (mul_nonneg (by linarith) heta)
        linarith
      nlinarith
    obtain ⟨r1, r2⟩ := ih (k + 1) (Ieee.rnd (p + m)) (s + c) (T + |c|) z (Ieee.rep_rnd _)
      ((abs_add_le _ _).trans (by linarith)) key hz
    refine ⟨?_, ?_⟩
    · intro x hx
      rcases List.mem_cons.1 hx with rfl | hx
      · exact ⟨a, b, Prod.ext ha hb⟩
      · exact r1 x hx
    · have ec : toRat ab.1 * toRat ab.2 = c := by rw [ha, hb]; rfl
      rw [List.map_cons, List.map_cons, List.sum_cons, List.sum_cons, ec, List.length_cons]
      rw [show k + (r.length + 1) = k + 1 + r.length by ring]
      rw [← add_assoc, ← add_assoc]
      exact r2

theorem sum_matched (g : ℚ → ℚ) (hg : g 0 = 0) (l1 : List (AEntry Dbl)) (w : AVector Dbl)
    (h1 : StrictSorted l1) (h2 : StrictSorted w.entries) (S : Finset Int) (hS : ∀ e ∈ l1, e.index ∈ S) (d : Bool) :
    ((matched l1 w.entries).map fun ab => g (toRat ab.1 * toRat ab.2)).sum =
      ∑ i ∈ S, g (toRat (AVector.value .ieee ⟨l1, d⟩ i) * toRat (w.value .ieee i)) := by
  have hval : ∀ i, AVector.value .ieee ⟨l1, d⟩ i = (lookup l1 i).getD (.fin 0) := fun i => value_eq_lookup _ h1 i
  simp only [hval]
  clear hval
  induction l1 with
  | nil =>
    symm
    apply Finset.sum_eq_zero
    intro i _
    show g (0 * _) = 0
    rw [zero_mul, hg]
  | cons e r ih =>
    have h1' := List.pairwise_cons.1 h1
    have ih' := ih h1'.2 (fun x hx => hS x (by simp [hx]))
    have hmem := hS e (by simp)
    rw [← Finset.add_sum_erase S _ hmem] at ih' ⊢
    have hr0 : lookup r e.index = none := lookup_none fun x hx => by have := h1'.1 x hx; omega
    rw [lookup_cons, if_pos rfl]
    have hrest : ∑ i ∈ S.erase e.index, g (toRat ((lookup (e :: r) i).getD (.fin 0)) * toRat (w.value .ieee i)) =
        ∑ i ∈ S.erase e.index, g (toRat ((lookup r i).getD (.fin 0)) * toRat (w.value .ieee i)) := by
      apply Finset.sum_congr rfl
      intro i hi
      rw [lookup_cons, if_neg (Finset.ne_of_mem_erase hi).symm]
    rw [hrest]
    have hz : g (toRat ((lookup r e.index).getD (.fin 0)) * toRat (w.value .ieee e.index)) = 0 := by
      rw [hr0]; show g (0 * _) = 0; rw [zero_mul, hg]
    rw [hz, _root_.zero_add] at ih'
    rw [← ih', value_eq_lookup _ h2]
    unfold matched
    rw [List.filterMap_cons]
    cases hl : lookup w.entries e.index with
    | none =>
      simp only [Option.map_none, Option.getD_none]
      show _ = g (_ * 0) + _
      rw [mul_zero, hg, _root_.zero_add]
    | some y =>
      simp only [Option.map_some, List.map_cons, List.sum_cons, Option.getD_some]

/-- **C88, dot product.**  Let `n` be the number of entries of the first vector and `u = 2 ^ -53`.  If the computed dot
product of two clean vectors is finite, then it differs from the exact one by at most `(1 + u) ^ (n + 1) - 1` times the
sum of the absolute values of the products, and `n * (1 + u) ^ n` times half the smallest positive double; and all
values at common indices are finite. -/
theorem C88_dot_product (v w : AVector Dbl) (hv : v.isClean .ieee = true) (hw : w.isClean .ieee = true) (z : ℚ)
    (hz : v.dotProduct .ieee w = .fin z) (S : Finset Int) (hS : ∀ e ∈ v.entries, e.index ∈ S) :
    |z - ∑ i ∈ S, toRat (v.value .ieee i) * toRat (w.value .ieee i)| ≤
      ((1 + 1 / 2 ^ 53) ^ (v.entries.length + 1) - 1) *
          ∑ i ∈ S, |toRat (v.value .ieee i) * toRat (w.value .ieee i)| +
        v.entries.length * (1 + 1 / 2 ^ 53) ^ v.entries.length * Ieee.eta ∧
    ∀ e ∈ v.entries, ∀ d ∈ w.entries, e.index = d.index → (∃ a, e.value = .fin a) ∧ ∃ b, d.value = .fin b := by
  rw [isClean_iff] at hv hw
  unfold dotProduct at hz
  rw [dotWalk_eq _ _ _ _ hv.1 hw.1] at hz
  obtain ⟨h1, h2⟩ := dot_error (matched v.entries w.entries) 0 0 0 0 z
    ⟨0, 0, by norm_num, by norm_num, by norm_num⟩ (by simp) (by simp) hz
  have hu : (0 : ℚ) ≤ Ieee.u := by unfold Ieee.u; positivity
  have heta : 0 ≤ Ieee.eta := by unfold Ieee.eta; positivity
  have hlen : (matched v.entries w.entries).length ≤ v.entries.length := List.length_filterMap_le _ _
  rw [_root_.zero_add, _root_.zero_add, _root_.zero_add] at h2
  rw [show (1 : ℚ) / 2 ^ 53 = Ieee.u from rfl]
  have e1 := sum_matched id rfl v.entries w hv.1 hw.1 S hS v.dirty
  have e2 := sum_matched (fun x => |x|) (by simp) v.entries w hv.1 hw.1 S hS v.dirty
  simp only [id] at e1
  rw [e1, e2] at h2
  refine ⟨h2.trans ?_, ?_⟩
  · have hs : 0 ≤ ∑ i ∈ S, |toRat (v.value .ieee i) * toRat (w.value .ieee i)| :=
      Finset.sum_nonneg fun i _ => abs_nonneg _
    have p1 : (1 + Ieee.u) ^ ((matched v.entries w.entries).length + 1) ≤ (1 + Ieee.u) ^ (v.entries.length + 1) :=
      pow_le_pow_right₀ (by linarith) (by omega)
    have p2 : (1 + Ieee.u) ^ (matched v.entries w.entries).length ≤ (1 + Ieee.u) ^ v.entries.length :=
      pow_le_pow_right₀ (by linarith) hlen
    have p3 : ((matched v.entries w.entries).length : ℚ) ≤ v.entries.length := by exact_mod_cast hlen
    have p4 : ((matched v.entries w.entries).length : ℚ) * (1 + Ieee.u) ^ (matched v.entries w.entries).length ≤
        v.entries.length * (1 + Ieee.u) ^ v.entries.length :=
      mul_le_mul p3 p2 (pow_nonneg (by linarith) _) (Nat.cast_nonneg _)
    have p5 := mul_le_mul_of_nonneg_right p4 heta
    have p6 := mul_le_mul_of_nonneg_right (sub_le_sub_right p1 1) hs
    exact add_le_add p6 p5
  · intro e he d hd hed
    have : (e.value, d.value) ∈ matched v.entries w.entries := by
      unfold matched
      rw [List.mem_filterMap]
      exact ⟨e, he, by rw [hed, lookup_of_mem hw.1 hd]; rfl⟩
    obtain ⟨a, b, hab⟩ := h1 _ this
    simp only [Prod.mk.injEq] at hab
    exact ⟨⟨a, hab.1⟩, b, hab.2⟩

example : ∃ z, exHalf.dotProduct .ieee exHalf = .fin z := by
  refine ⟨Ieee.rnd (0 + Ieee.rnd (1 / 2 * (1 / 2))), ?_⟩
  have h1 : Ieee.Rep (1 / 2 * (1 / 2)) := ⟨1, -2, by norm_num, by norm_num, by norm_num⟩
  have h2 : Ieee.round (1 / 2 * (1 / 2)) = .fin (1 / 2 * (1 / 2)) :=
    Ieee.round_rep h1 (Ieee.le_maxFinite (by rw [abs_of_nonneg] <;> norm_num))
  rw [exHalf_eq]
  simp only [dotProduct, dotWalk, if_true, Arith.ieee, Ieee.mul]
  have hp : Proper (.fin (1 / 2 * (1 / 2))) := ⟨h1, Ieee.le_maxFinite (by rw [abs_of_nonneg] <;> norm_num)⟩
  rw [h2, zero_add_of_proper hp, _root_.zero_add, Ieee.rnd_rep h1, Ieee.rnd_rep h1]

end AVector
end MiniMip
