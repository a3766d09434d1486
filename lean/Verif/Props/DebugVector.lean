import Verif.Model.DebugVector
import Verif.Props.ArithVector

/-!
# Property C125: the assertions of the sparse vector
-/

namespace MiniMip
namespace AVector
variable {α : Type}

/-- The class invariant: no index is negative, and a vector that is not marked for cleaning is clean. -/
def Valid (A : Arith α) (v : AVector α) : Prop :=
  (∀ e ∈ v.entries, 0 ≤ e.index) ∧ (v.dirty = false → Clean A v.entries)

/-- Calls that need a vector that is not marked for cleaning. -/
def Call.NeedsClean : Call α → Prop
  | .addEntry _ _ => False
  | .cleanUp => False
  | .clear => False
  | .mayNeedCleaning => False
  | _ => True

/-- The vector passed as argument is marked for cleaning. -/
def Call.ArgumentMarked : Call α → Prop
  | .addMultiple _ w => w.dirty = true
  | .dotProduct w => w.dirty = true
  | _ => False

/-- The divisor is zero. -/
def Call.DividesByZero (A : Arith α) : Call α → Prop
  | .divide s => A.isZero s = true
  | _ => False

/-- What the caller has to see to, apart from cleaning and divisors: indices are not negative, arguments satisfy the
invariant, and no product or quotient of a non-zero entry underflows. -/
def Call.Legal (A : Arith α) (v : AVector α) : Call α → Prop
  | .addEntry i _ => 0 ≤ i
  | .mutate l => ∀ e ∈ l, 0 ≤ e.index
  | .scale s => A.isZero s = false → ∀ e ∈ v.entries, A.isZero e.value = false → A.isZero (A.mul e.value s) = false
  | .divide s => A.isZero s = false → ∀ e ∈ v.entries, A.isZero e.value = false → A.isZero (A.div e.value s) = false
  | .addMultiple _ w => Valid A w
  | .dotProduct w => Valid A w
  | _ => True

/-- A history each call of which is legal when its turn comes. -/
def LegalHistory (A : Arith α) (v : AVector α) : List (Call α) → Prop
  | [] => True
  | c :: r => c.Legal A v ∧ ∀ v' a, v.release A c = .ok (v', a) → LegalHistory A v' r

theorem Valid.addEntry {A : Arith α} {v : AVector α} (h : Valid A v) {i : Int} (hi : 0 ≤ i) (x : α) :
    Valid A (v.addEntry A i x) := by
  unfold AVector.addEntry
  have hm : ∀ e ∈ v.entries ++ [(⟨i, x⟩ : AEntry α)], 0 ≤ e.index := by
    intro e he
    rcases List.mem_append.1 he with h' | h'
    · exact h.1 e h'
    · simp only [List.mem_singleton] at h'; subst h'; exact hi
  split
  · exact ⟨hm, by simp⟩
  · rename_i hd
    split
    · exact ⟨hm, by simp⟩
    · rename_i hlast
      split
      · exact h
      · rename_i hz
        refine ⟨hm, fun _ => ?_⟩
        have hc := h.2 (by simpa using hd)
        refine ⟨?_, ?_⟩
        · unfold StrictSorted
          rw [List.pairwise_append]
          refine ⟨hc.1, by simp, ?_⟩
          intro a ha b hb
          simp only [List.mem_singleton] at hb
          subst hb
          unfold AVector.lastIndex at hlast
          have hne : v.entries ≠ [] := by rintro h; rw [h] at ha; simp at ha
          rw [List.getLast?_eq_some_getLast hne] at hlast
          simp only at hlast
          have hle : a.index ≤ (v.entries.getLast hne).index := by
            have hs := hc.1
            rw [← List.dropLast_append_getLast hne] at hs ha
            unfold StrictSorted at hs
            rw [List.pairwise_append] at hs
            rcases List.mem_append.1 ha with h | h
            · exact (hs.2.2 a h _ (by simp)).le
            · simp only [List.mem_singleton] at h; rw [h]
          simp only
          omega
        · intro e he
          refine ⟨?_, hm e he⟩
          rcases List.mem_append.1 he with h | h
          · exact (hc.2 e h).1
          · simp only [List.mem_singleton] at h; subst h; simpa using hz

theorem Valid.cleanUp {A : Arith α} {v : AVector α} (h : Valid A v) : Valid A (v.cleanUpIfNeeded A) := by
  unfold cleanUpIfNeeded
  split
  · have hm : ∀ e ∈ compact A (stableSort v.entries), e ∈ v.entries ∧ A.isZero e.value = false := fun e he =>
      ⟨stableSort_mem.1 (compact_mem he).1, (compact_mem he).2⟩
    exact ⟨fun e he => h.1 e (hm e he).1, fun _ => ⟨compact_sorted (stableSort_sorted _),
      fun e he => ⟨(hm e he).2, h.1 e (hm e he).1⟩⟩⟩
  · exact h

theorem Valid.map {A : Arith α} {v : AVector α} (h : Valid A v) (f : AEntry α → α)
    (hf : ∀ e ∈ v.entries, A.isZero e.value = false → A.isZero (f e) = false) :
    Valid A ⟨v.entries.map fun e => ⟨e.index, f e⟩, v.dirty⟩ := by
  refine ⟨fun e he => ?_, fun hd => ⟨map_strictSorted (h.2 hd).1 _ fun _ => rfl, fun e he => ?_⟩⟩
  · obtain ⟨d, hd, rfl⟩ := List.mem_map.1 he
    exact h.1 d hd
  · obtain ⟨d, hd', rfl⟩ := List.mem_map.1 he
    exact ⟨hf d hd' ((h.2 hd).2 d hd').1, h.1 d hd'⟩

/-- The invariant gives the first assertion of `MayNeedCleaning`. -/
theorem Valid.mayNeed {A : Arith α} {v : AVector α} (h : Valid A v) : v.debugMayNeed A = .ok v.dirty := by
  unfold debugMayNeed
  cases hd : v.dirty with
  | true => simp [Outcome.check, Outcome.pure_eq]
  | false => simp [Outcome.check, Outcome.pure_eq, (isClean_iff A v).2 (h.2 hd)]

theorem Valid.assertClean {A : Arith α} {v : AVector α} (h : Valid A v) :
    v.debugAssertClean A = if v.dirty = true then .abort else .ok () := by
  unfold debugAssertClean
  rw [h.mayNeed]
  cases hd : v.dirty <;> simp [Outcome.check]

open Classical in
/-- The assertions of a call on a valid vector. -/
theorem Valid.assertions {A : Arith α} {v : AVector α} (h : Valid A v) (c : Call α) :
    v.assertions A c =
      if (c.NeedsClean ∧ v.dirty = true) ∨ c.ArgumentMarked ∨ c.DividesByZero A then .abort else .ok () := by
  cases c <;> simp only [AVector.assertions, Call.NeedsClean, Call.ArgumentMarked, Call.DividesByZero, h.assertClean,
    h.mayNeed, Outcome.bind_ok, Outcome.pure_eq, false_and, true_and, or_false, if_false]
  case divide s =>
    cases hd : v.dirty <;> cases hs : A.isZero s <;> simp [Outcome.check]
  case addMultiple s w =>
    cases hd : v.dirty <;> cases hs : w.dirty <;> simp [Outcome.check]
  case dotProduct w =>
    cases hd : v.dirty <;> cases hs : w.dirty <;> simp [Outcome.check]
  all_goals cases hd : v.dirty <;> simp [Outcome.check]

/-- A legal call keeps the invariant. -/
theorem Valid.step {A : Arith α} (hA : Lawful A) {v v' : AVector α} {c : Call α} {a : Answer α} (h : Valid A v)
    (hl : c.Legal A v) (hn : ¬ ((c.NeedsClean ∧ v.dirty = true) ∨ c.ArgumentMarked ∨ c.DividesByZero A))
    (hr : v.release A c = .ok (v', a)) : Valid A v' := by
  cases c <;> simp only [release, Outcome.ok.injEq, Prod.mk.injEq] at hr
  case addEntry i x => obtain ⟨rfl, -⟩ := hr; exact h.addEntry hl x
  case cleanUp => obtain ⟨rfl, -⟩ := hr; exact h.cleanUp
  case clear => obtain ⟨rfl, -⟩ := hr; exact ⟨by simp, fun _ => ⟨by simp [StrictSorted], by simp⟩⟩
  case mutate l => obtain ⟨rfl, -⟩ := hr; exact ⟨hl, by simp⟩
  case transform f =>
    obtain ⟨rfl, -⟩ := hr
    have key : ∀ e ∈ (v.transform A f).entries, A.isZero e.value = false ∧ 0 ≤ e.index := by
      intro e he
      obtain ⟨h1, h2⟩ := List.mem_filter.1 he
      obtain ⟨d, hd, rfl⟩ := List.mem_map.1 h1
      exact ⟨by simpa using h2, h.1 d hd⟩
    exact ⟨fun e he => (key e he).2, fun hd =>
      ⟨List.Pairwise.filter _ (map_strictSorted (h.2 hd).1 _ fun _ => rfl), key⟩⟩
  case neg =>
    obtain ⟨rfl, -⟩ := hr
    exact h.map _ fun e _ he => hA.neg _ he
  case scale s =>
    obtain ⟨rfl, -⟩ := hr
    unfold AVector.scale
    split
    · exact ⟨by simp, fun _ => ⟨by simp [StrictSorted], by simp⟩⟩
    · rename_i hs
      exact h.map _ fun e he hz => hl (by simpa using hs) e he hz
  case divide s =>
    obtain ⟨rfl, -⟩ := hr
    have hs : A.isZero s = false := by
      cases hs : A.isZero s
      · rfl
      · exact absurd (Or.inr (Or.inr hs)) hn
    exact h.map _ fun e he hz => hl hs e he hz
  case addMultiple s w =>
    have hv : v.dirty = false := by
      cases hd : v.dirty
      · rfl
      · exact absurd (Or.inl ⟨trivial, hd⟩) hn
    have hw : w.dirty = false := by
      cases hd : w.dirty
      · rfl
      · exact absurd (Or.inr (Or.inl hd)) hn
    have hl' : Valid A w := hl
    obtain ⟨l, h1, h2, -⟩ := addMultiple_spec hA.zero s (h.2 hv) (hl'.2 hw)
    rw [h1] at hr
    simp only [Outcome.bind_ok, Outcome.pure_eq, Outcome.ok.injEq, Prod.mk.injEq] at hr
    obtain ⟨rfl, -⟩ := hr
    exact ⟨fun e he => (h2.2 e he).2, fun _ => h2⟩
  all_goals (obtain ⟨rfl, -⟩ := hr; exact h)

/-- A legal call that raises no assertion returns. -/
theorem Valid.returns {A : Arith α} (hA : Lawful A) {v : AVector α} {c : Call α} (h : Valid A v)
    (hl : c.Legal A v) (hn : ¬ ((c.NeedsClean ∧ v.dirty = true) ∨ c.ArgumentMarked ∨ c.DividesByZero A)) :
    ∃ v' a, v.release A c = .ok (v', a) := by
  cases c
  case addMultiple s w =>
    have hv : v.dirty = false := by
      cases hd : v.dirty
      · rfl
      · exact absurd (Or.inl ⟨trivial, hd⟩) hn
    have hw : w.dirty = false := by
      cases hd : w.dirty
      · rfl
      · exact absurd (Or.inr (Or.inl hd)) hn
    have hl' : Valid A w := hl
    obtain ⟨l, h1, -⟩ := addMultiple_spec hA.zero s (h.2 hv) (hl'.2 hw)
    exact ⟨⟨l, v.dirty⟩, .nothing, by simp only [release]; rw [h1]; rfl⟩
  all_goals exact ⟨_, _, rfl⟩

/-- The vectors that the histories without a failed assertion lead to. -/
inductive Reached (A : Arith α) : AVector α → Prop where
  | empty : Reached A {}
  | call {v v' : AVector α} {a : Answer α} (c : Call α) : Reached A v → c.Legal A v → v.debug A c = .ok (v', a) → Reached A v'

theorem Reached.valid {A : Arith α} (hA : Lawful A) {v : AVector α} (h : Reached A v) : Valid A v := by
  induction h with
  | empty => exact ⟨by simp, fun _ => ⟨by simp [StrictSorted], by simp⟩⟩
  | @call v v' a c _ hl hr ih =>
    classical
    unfold debug at hr
    rw [ih.assertions] at hr
    by_cases hn : (c.NeedsClean ∧ v.dirty = true) ∨ c.ArgumentMarked ∨ c.DividesByZero A
    · rw [if_pos hn] at hr
      cases hr
    · rw [if_neg hn] at hr
      exact ih.step hA hl hn hr

/-- **C125**, the next call.  After any history of legal calls, in exact or in double arithmetic, a legal call on a vector in
the build with assertions aborts exactly if it needs a vector not marked for cleaning and the vector is marked, its
argument is marked, or it divides by zero; otherwise it returns what the build without assertions returns. -/
theorem C125_next_call_partial {A : Arith α} (hA : Lawful A) {v : AVector α} (h : Reached A v) (c : Call α) (hl : c.Legal A v) :
    (((c.NeedsClean ∧ v.dirty = true) ∨ c.ArgumentMarked ∨ c.DividesByZero A) → v.debug A c = .abort) ∧
    (¬ ((c.NeedsClean ∧ v.dirty = true) ∨ c.ArgumentMarked ∨ c.DividesByZero A) →
      ∃ v' a, v.debug A c = .ok (v', a) ∧ v.release A c = .ok (v', a)) := by
  classical
  have hv := h.valid hA
  unfold debug
  rw [hv.assertions]
  refine ⟨fun hc => by rw [if_pos hc]; rfl, fun hc => ?_⟩
  obtain ⟨v', a, hr⟩ := hv.returns hA hl hc
  rw [if_neg hc]
  exact ⟨v', a, hr, hr⟩

theorem dirty_cleanUp (A : Arith α) (v : AVector α) : (v.cleanUpIfNeeded A).dirty = false := by
  unfold cleanUpIfNeeded
  split
  · rfl
  · rename_i h; simpa using h

/-- **C125**, histories.  A caller that cleans the vector before every call, passes vectors that are not marked and divides
by numbers other than zero never runs into an assertion: the whole history returns, with the answers and the vector of the
build without assertions. -/
theorem C125_clean_first_partial {A : Arith α} (hA : Lawful A) (calls : List (Call α)) (v : AVector α) (h : Reached A v)
    (hl : LegalHistory A v (calls.flatMap fun c => [.cleanUp, c]))
    (harg : ∀ c ∈ calls, ¬ c.ArgumentMarked ∧ ¬ c.DividesByZero A) :
    ∃ r, run (debug A) v (calls.flatMap fun c => [.cleanUp, c]) = .ok r ∧
      run (release A) v (calls.flatMap fun c => [.cleanUp, c]) = .ok r := by
  induction calls generalizing v with
  | nil => exact ⟨_, rfl, rfl⟩
  | cons c r ih =>
    simp only [List.flatMap_cons, List.cons_append, List.nil_append] at hl ⊢
    obtain ⟨h1, h2⟩ := hl
    obtain ⟨h3, h4⟩ := h2 _ _ rfl
    obtain ⟨v1, a1, d1, r1⟩ := (C125_next_call_partial hA h .cleanUp h1).2 (by
      simp [Call.NeedsClean, Call.ArgumentMarked, Call.DividesByZero])
    have e1 : v1 = v.cleanUpIfNeeded A := by
      simp only [release, Outcome.ok.injEq, Prod.mk.injEq] at r1
      exact r1.1.symm
    subst e1
    have hre := Reached.call .cleanUp h h1 d1
    obtain ⟨ha1, ha2⟩ := harg c (by simp)
    obtain ⟨v2, a2, d2, r2⟩ := (C125_next_call_partial hA hre c h3).2 (by
      simp [ha1, ha2, dirty_cleanUp])
    obtain ⟨res, d3, r3⟩ := ih v2 (Reached.call c hre h3 d2) (h4 _ _ r2) fun c hc => harg c (by simp [hc])
    refine ⟨(res.1, a1 :: a2 :: res.2), ?_, ?_⟩
    · simp only [run, d1, d2, d3, Outcome.bind_ok, Outcome.pure_eq]
    · simp only [run, r1, r2, r3, Outcome.bind_ok, Outcome.pure_eq]

/-- In exact arithmetic nothing underflows. -/
theorem legal_exact (v : AVector ℚ) (s : ℚ) : (Call.scale s).Legal .exact v ∧ (Call.divide s).Legal .exact v := by
  refine ⟨fun hs e _ he => ?_, fun hs e _ he => ?_⟩ <;> simp_all [Arith.exact]

/-- The last entry with the index `i`. -/
def lastEntry (l : List (AEntry α)) (i : Int) : Option (AEntry α) := l.reverse.find? fun e => decide (e.index = i)

theorem lastEntry_cons (e : AEntry α) (r : List (AEntry α)) (i : Int) :
    lastEntry (e :: r) i = (lastEntry r i).or (if e.index = i then some e else none) := by
  unfold lastEntry
  rw [List.reverse_cons, List.find?_append]
  by_cases h : e.index = i <;> simp [h]

theorem lastEntry_index {l : List (AEntry α)} {i : Int} {e : AEntry α} (h : lastEntry l i = some e) : e.index = i := by
  simpa using List.find?_some h

theorem lastEntry_mem {l : List (AEntry α)} {i : Int} {e : AEntry α} (h : lastEntry l i = some e) : e ∈ l := by
  simpa using List.mem_of_find?_eq_some h

theorem lastEntry_isSome {l : List (AEntry α)} {e : AEntry α} (h : e ∈ l) : (lastEntry l e.index).isSome := by
  unfold lastEntry
  rw [List.find?_isSome]
  exact ⟨e, by simpa using h, by simp⟩

theorem lastEntry_insertStable (e : AEntry α) (l : List (AEntry α)) (i : Int) :
    lastEntry (insertStable e l) i = lastEntry (e :: l) i := by
  induction l with
  | nil => rfl
  | cons f r ih =>
    unfold insertStable
    split
    · rfl
    · rename_i h
      rw [lastEntry_cons, ih, lastEntry_cons, lastEntry_cons, lastEntry_cons]
      cases lastEntry r i with
      | some d => rfl
      | none =>
        by_cases h1 : e.index = i <;> by_cases h2 : f.index = i <;> simp [h1, h2]
        omega

theorem lastEntry_stableSort (l : List (AEntry α)) (i : Int) : lastEntry (stableSort l) i = lastEntry l i := by
  induction l with
  | nil => rfl
  | cons e r ih => rw [stableSort, lastEntry_insertStable, lastEntry_cons, ih, ← lastEntry_cons]

theorem compact_iff {A : Arith α} {l : List (AEntry α)} (h : l.Pairwise fun a b => a.index ≤ b.index) (e : AEntry α) :
    e ∈ compact A l ↔ lastEntry l e.index = some e ∧ A.isZero e.value = false := by
  induction l with
  | nil => simp [compact, lastEntry]
  | cons d r ih =>
    rw [List.pairwise_cons] at h
    cases r with
    | nil =>
      rw [lastEntry_cons]
      simp only [compact, lastEntry, List.reverse_nil, List.find?_nil, Option.none_or]
      by_cases hz : A.isZero d.value = true
      · rw [if_pos hz]
        simp only [List.not_mem_nil, false_iff, not_and]
        intro h1 h2
        split at h1
        · simp only [Option.some.injEq] at h1
          subst h1
          rw [hz] at h2
          cases h2
        · cases h1
      · rw [if_neg hz]
        simp only [List.mem_singleton]
        constructor
        · rintro rfl
          simpa using hz
        · rintro ⟨h1, -⟩
          split at h1
          · simpa using h1.symm
          · cases h1
    | cons f r =>
      have ih := ih h.2
      unfold compact
      rw [lastEntry_cons]
      by_cases hi : d.index = f.index
      · rw [if_pos hi, ih]
        by_cases hd : d.index = e.index
        · have : (lastEntry (f :: r) e.index).isSome := by
            rw [← hd, hi]
            exact lastEntry_isSome (by simp)
          obtain ⟨x, hx⟩ := Option.isSome_iff_exists.1 this
          rw [hx, Option.some_or]
        · rw [if_neg hd, Option.or_none]
      · rw [if_neg hi]
        have hlt : ∀ x ∈ f :: r, d.index < x.index := by
          intro x hx
          have h1 := h.1 f (by simp)
          rcases List.mem_cons.1 hx with rfl | hx
          · omega
          · have := (List.pairwise_cons.1 h.2).1 x hx
            omega
        have hnone : lastEntry (f :: r) d.index = none := by
          cases hl : lastEntry (f :: r) d.index with
          | none => rfl
          | some x =>
            have h1 := hlt x (lastEntry_mem hl)
            have h2 := lastEntry_index hl
            omega
        by_cases hd : d.index = e.index
        · rw [if_pos hd, ← hd, hnone, Option.none_or]
          have hne : e ∉ compact A (f :: r) := fun he => by
            have := hlt e (compact_mem he).1
            omega
          by_cases hz : A.isZero d.value = true
          · rw [if_pos hz]
            simp only [hne, false_iff, not_and, Option.some.injEq]
            rintro rfl
            simp [hz]
          · rw [if_neg hz, List.mem_cons]
            simp only [hne, or_false, Option.some.injEq]
            constructor
            · rintro rfl
              exact ⟨rfl, by simpa using hz⟩
            · rintro ⟨rfl, -⟩
              rfl
        · rw [if_neg hd, Option.or_none]
          have hne : e ≠ d := fun h => hd (by rw [h])
          by_cases hz : A.isZero d.value = true
          · rw [if_pos hz, ih]
          · rw [if_neg hz, List.mem_cons, ih]
            simp [hne]

/-- **C125**, the constructor.  Making a vector from a list of entries aborts exactly if the last entry with some negative
index is not zero, and otherwise returns what it returns in the build without assertions. -/
theorem C125_constructor {A : Arith α} (l : List (AEntry α)) :
    (debugOfEntries A l = .abort ↔ ∃ i < 0, ∃ x, (l.reverse.find? fun e => decide (e.index = i)) = some ⟨i, x⟩ ∧
      A.isZero x = false) ∧
    (debugOfEntries A l ≠ .abort → debugOfEntries A l = .ok ((⟨l, true⟩ : AVector α).cleanUpIfNeeded A)) := by
  have he : debugOfEntries A l = if ((⟨l, true⟩ : AVector α).cleanUpIfNeeded A).isClean A = true
      then .ok ((⟨l, true⟩ : AVector α).cleanUpIfNeeded A) else .abort := by
    simp only [debugOfEntries, debugMayNeed, Bool.or_true, Outcome.check, if_true, Outcome.bind_ok, Outcome.pure_eq]
    by_cases h : ((⟨l, true⟩ : AVector α).cleanUpIfNeeded A).isClean A = true
    · rw [if_pos h, if_pos h]; rfl
    · rw [if_neg h, if_neg h]; rfl
  have hc : ((⟨l, true⟩ : AVector α).cleanUpIfNeeded A).isClean A = true ↔
      ∀ e, lastEntry l e.index = some e → A.isZero e.value = false → 0 ≤ e.index := by
    rw [isClean_iff]
    show Clean A (compact A (stableSort l)) ↔ _
    constructor
    · intro h e h1 h2
      exact (h.2 e ((compact_iff (stableSort_sorted l) e).2 ⟨by rw [lastEntry_stableSort]; exact h1, h2⟩)).2
    · intro h
      refine ⟨compact_sorted (stableSort_sorted l), fun e he => ?_⟩
      obtain ⟨h1, h2⟩ := (compact_iff (stableSort_sorted l) e).1 he
      rw [lastEntry_stableSort] at h1
      exact ⟨h2, h e h1 h2⟩
  constructor
  · rw [he]
    constructor
    · intro h
      have h' : ¬ ∀ e, lastEntry l e.index = some e → A.isZero e.value = false → 0 ≤ e.index := by
        rw [← hc]
        intro hh
        rw [if_pos hh] at h
        cases h
      push_neg at h'
      obtain ⟨e, h1, h2, h3⟩ := h'
      exact ⟨e.index, h3, e.value, h1, h2⟩
    · rintro ⟨i, hi, x, h1, h2⟩
      rw [if_neg]
      rw [hc]
      intro h
      have := h ⟨i, x⟩ h1 h2
      simp only at this
      omega
  · rw [he]
    intro h
    by_cases hh : ((⟨l, true⟩ : AVector α).cleanUpIfNeeded A).isClean A = true
    · rw [if_pos hh]
    · rw [if_neg hh] at h
      exact absurd rfl h

/-! ## Underflow -/

/-- Violated: "the build with assertions does what the build without does, if indices are not negative, vectors are cleaned
and divisors are not zero".  The vector with the entry `2⁻⁶⁰⁰`, scaled by `2⁻⁶⁰⁰` and cleaned: the product underflows, the
zero stays stored without a mark, and asking for the entries aborts, as does cleaning. -/
theorem C125_underflow_violated :
    let calls : List (Call Dbl) := [.addEntry 0 (.fin (1 / 2 ^ 600)), .cleanUp, .scale (.fin (1 / 2 ^ 600))]
    (∃ v, run (debug .ieee) {} calls = .ok (v, [.nothing, .nothing, .nothing]) ∧ v.dirty = false) ∧
      run (debug .ieee) {} (calls ++ [.entries]) = .abort ∧
      run (debug .ieee) {} (calls ++ [.cleanUp]) = .abort ∧
      run (release .ieee) {} (calls ++ [.cleanUp, .entries]) =
        .ok (⟨[⟨0, .fin 0⟩], false⟩, [.nothing, .nothing, .nothing, .nothing, .entries [⟨0, .fin 0⟩]]) := by
  refine ⟨⟨⟨[⟨0, .fin 0⟩], false⟩, ?_, rfl⟩, ?_, ?_, ?_⟩ <;> decide +kernel

/-- Non-vacuity of `C125_clean_first_partial` and `C125_next_call_partial`: entries out of order, scaled, divided,
negated and read. -/
example : ∃ r, run (debug .ieee) {} (([.addEntry 4 (.fin 1), .addEntry 2 (.fin 3), .scale (.fin 2), .divide (.fin 4),
      .neg, .entries] : List (Call Dbl)).flatMap fun c => [.cleanUp, c]) = .ok r ∧
    r.1.entries = [⟨2, .fin (-3 / 2)⟩, ⟨4, .fin (-1 / 2)⟩] := by
  refine ⟨(⟨[⟨2, .fin (-3 / 2)⟩, ⟨4, .fin (-1 / 2)⟩], false⟩, [.nothing, .nothing, .nothing, .nothing, .nothing, .nothing,
    .nothing, .nothing, .nothing, .nothing, .nothing, .entries [⟨2, .fin (-3 / 2)⟩, ⟨4, .fin (-1 / 2)⟩]]), ?_, rfl⟩
  decide +kernel

example : LegalHistory .ieee {} (([.addEntry 4 (.fin 1), .scale (.fin 2)] : List (Call Dbl)).flatMap fun c => [.cleanUp, c]) := by
  simp only [List.flatMap_cons, List.flatMap_nil, List.cons_append, List.nil_append, List.append_nil, LegalHistory]
  refine ⟨trivial, fun v1 a1 h1 => ⟨by norm_num [Call.Legal], fun v2 a2 h2 => ⟨trivial, fun v3 a3 h3 => ⟨?_, fun _ _ _ => trivial⟩⟩⟩⟩
  simp only [release, Outcome.ok.injEq, Prod.mk.injEq] at h1 h2 h3
  have e1 : v1 = {} := by rw [← h1.1]; rfl
  have e2 : v2 = ⟨[⟨4, .fin 1⟩], false⟩ := by rw [← h2.1, e1]; decide +kernel
  have e3 : v3 = ⟨[⟨4, .fin 1⟩], false⟩ := by rw [← h3.1, e2]; rfl
  rw [e3]
  intro _ e he _
  simp only [List.mem_singleton] at he
  subst he
  decide +kernel

/-- Non-vacuity of `C125_constructor`: a negative index overwritten by zero is accepted, one that is not is refused. -/
example : debugOfEntries .exact [⟨-3, 5⟩, ⟨1, 2⟩, ⟨-3, 0⟩] = .ok ⟨[⟨1, 2⟩], false⟩ ∧
    debugOfEntries .exact [⟨1, 2⟩, ⟨-3, 5⟩] = .abort := by
  constructor <;> decide +kernel

end AVector
end MiniMip
