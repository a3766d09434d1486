import Verif.Model.CutRegistry
import Verif.Props.SparseVector

/-!
# Properties C19, C20: the cut registry

Specification: cuts carry the ordinal number of the `AddCut` that brought them in.  The
registry is a list of (ordinal, content) pairs, removal takes one pair out, activation
remembers an ordinal.
-/

namespace MiniMip
namespace CutRegistry

/-- Registry calls.  The argument of `remove` is not a reference into the registry. -/
inductive Op where
  | add (c : CutData)
  | activate (i : Int)
  | remove (i : Int)
  | update (lpOptimum : SparseVector)

/-- One call on the model. -/
noncomputable def step (r : CutRegistry) : Op → Outcome CutRegistry
  | .add c => do let p ← r.addCut c; return p.1
  | .activate i => .ok (r.activateCut i)
  | .remove i => r.removeCut (.value i)
  | .update x => .ok (r.updateCutEfficacy x)

/-- A history of calls on the model. -/
noncomputable def run (r : CutRegistry) : List Op → Outcome CutRegistry
  | [] => .ok r
  | op :: ops => do let r ← step r op; run r ops

/-- The specification state: surviving cuts with the ordinal of their insertion, the number
of insertions so far, and the ordinals of activated cuts. -/
structure Spec where
  items : List (Nat × CutData) := []
  next : Nat := 0
  activated : List Nat := []

/-- Everything a cut records apart from its index. -/
def content (c : CutData) : CutData := { c with index := none }

/-- The specified effect of a call. -/
noncomputable def Spec.step (s : Spec) : Op → Spec
  | .add c => { s with items := s.items ++ [(s.next, content c)], next := s.next + 1 }
  | .activate i => match s.items[i.toNat]? with
    | some p => { s with activated := s.activated ++ [p.1] }
    | none => s
  | .remove i => match s.items[i.toNat]? with
    | some p =>
      { s with
        items := s.items.filter (fun q => q.1 ≠ p.1)
        activated := s.activated.filter (fun k => k ≠ p.1) }
    | none => s
  | .update x =>
    { s with items := s.items.map fun p =>
        (p.1, { p.2 with efficacy := computeEfficacy p.2.row p.2.rhs x }) }

/-- The specified effect of a history. -/
noncomputable def Spec.run (s : Spec) : List Op → Spec
  | [] => s
  | op :: ops => Spec.run (s.step op) ops

/-- The index passed to a call denotes a cut. -/
def Spec.Valid (s : Spec) : Op → Prop
  | .activate i => 0 ≤ i ∧ i < s.items.length
  | .remove i => 0 ≤ i ∧ i < s.items.length
  | _ => True

/-- Every call of the history has a valid index. -/
def Spec.AllValid (s : Spec) : List Op → Prop
  | [] => True
  | op :: ops => s.Valid op ∧ Spec.AllValid (s.step op) ops

/-- No cut is activated while it is active. -/
def Spec.Once (s : Spec) : List Op → Prop
  | [] => True
  | op :: ops =>
    (∀ i, op = .activate i → ∀ p, s.items[i.toNat]? = some p → p.1 ∉ s.activated) ∧
      Spec.Once (s.step op) ops

/-- The model state represents the specification state (cuts). -/
structure Rel (r : CutRegistry) (s : Spec) : Prop where
  len : r.cuts.length = s.items.length
  cut : ∀ (i : Nat) (c : CutData) (p : Nat × CutData), r.cuts[i]? = some c → s.items[i]? = some p →
    c.index = some (i : Int) ∧ content c = p.2
  sorted : s.items.Pairwise (fun a b => a.1 < b.1)
  bound : ∀ p ∈ s.items, p.1 < s.next

theorem Rel.init : Rel {} {} := ⟨rfl, by simp, by simp, by simp⟩

theorem ids_inj {l : List (Nat × CutData)} (h : l.Pairwise (fun a b => a.1 < b.1)) {i j : Nat}
    {p q : Nat × CutData} (hp : l[i]? = some p) (hq : l[j]? = some q) (he : p.1 = q.1) : i = j := by
  rw [List.pairwise_iff_getElem] at h
  obtain ⟨hi, rfl⟩ := List.getElem?_eq_some_iff.1 hp
  obtain ⟨hj, rfl⟩ := List.getElem?_eq_some_iff.1 hq
  rcases Nat.lt_trichotomy i j with hlt | rfl | hlt
  · have := h i j hi hj hlt; omega
  · rfl
  · have := h j i hj hi hlt; omega

theorem filter_eq_eraseIdx {l : List (Nat × CutData)} (h : l.Pairwise (fun a b => a.1 < b.1))
    {i : Nat} {p : Nat × CutData} (hp : l[i]? = some p) :
    l.filter (fun q => q.1 ≠ p.1) = l.eraseIdx i := by
  induction l generalizing i with
  | nil => simp at hp
  | cons a l ih =>
    rw [List.pairwise_cons] at h
    cases i with
    | zero =>
      simp only [List.getElem?_cons_zero, Option.some.injEq] at hp
      subst hp
      rw [List.filter_cons_of_neg (by simp), List.eraseIdx_cons_zero]
      apply List.filter_eq_self.2
      intro q hq
      have := h.1 q hq
      simp; omega
    | succ i =>
      simp only [List.getElem?_cons_succ] at hp
      have := h.1 p (List.mem_of_getElem? hp)
      rw [List.filter_cons_of_pos (by simp; omega), ih h.2 hp, List.eraseIdx_cons_succ]

theorem decrementFrom_ok {l : List CutData} {f : Nat → Int} (k : Nat)
    (h : ∀ (i : Nat) (c : CutData), l[i]? = some c → c.index = some (f i)) :
    ∃ l', decrementFrom k l = .ok l' ∧ l'.length = l.length ∧
      ∀ (i : Nat) (c' : CutData), l'[i]? = some c' → ∃ c, l[i]? = some c ∧
        c'.index = some (if k ≤ i then f i - 1 else f i) ∧ content c' = content c := by
  induction l generalizing f k with
  | nil => exact ⟨[], by simp [decrementFrom]⟩
  | cons a l ih =>
    have h0 := h 0 a (by simp)
    have hs : ∀ (i : Nat) (c : CutData), l[i]? = some c → c.index = some (f (i + 1)) :=
      fun i c hc => h (i + 1) c (by simpa using hc)
    cases k with
    | zero =>
      obtain ⟨l', h1, h2, h3⟩ := ih 0 hs
      refine ⟨a.setIndex (f 0 - 1) :: l', ?_, by simp [h2], ?_⟩
      · simp [decrementFrom, decrement, CutData.getIndex, h0, h1]
      · intro i c' hc'
        cases i with
        | zero =>
          simp only [List.getElem?_cons_zero, Option.some.injEq] at hc'
          subst hc'
          exact ⟨a, by simp, by simp [CutData.setIndex], by simp [CutData.setIndex, content]⟩
        | succ i =>
          simp only [List.getElem?_cons_succ] at hc'
          obtain ⟨c, hc1, hc2, hc3⟩ := h3 i c' hc'
          exact ⟨c, by simpa using hc1, by simpa using hc2, hc3⟩
    | succ k =>
      obtain ⟨l', h1, h2, h3⟩ := ih k hs
      refine ⟨a :: l', ?_, by simp [h2], ?_⟩
      · simp [decrementFrom, h1]
      · intro i c' hc'
        cases i with
        | zero =>
          simp only [List.getElem?_cons_zero, Option.some.injEq] at hc'
          subst hc'
          exact ⟨a, by simp, by simpa using h0, rfl⟩
        | succ i =>
          simp only [List.getElem?_cons_succ] at hc'
          obtain ⟨c, hc1, hc2, hc3⟩ := h3 i c' hc'
          exact ⟨c, by simpa using hc1, by simpa using hc2, hc3⟩

/-- What `RemoveCut` by value does on a represented state. -/
theorem Rel.remove {r : CutRegistry} {s : Spec} (h : Rel r s) {i : Int}
    (hv : s.Valid (.remove i)) :
    ∃ r', r.removeCut (.value i) = .ok r' ∧ Rel r' (s.step (.remove i)) ∧
      r'.activeIndices = (r.activeIndices.erase i).map (fun j => if j > i then j - 1 else j) := by
  obtain ⟨h0, h1⟩ := hv
  obtain ⟨k, rfl⟩ := Int.eq_ofNat_of_zero_le h0
  have hk : k < s.items.length := by omega
  have hp : s.items[k]? = some s.items[k] := by simp [hk]
  have hidx : ∀ (j : Nat) (c : CutData), (r.cuts.eraseIdx k)[j]? = some c →
      c.index = some ((fun j : Nat => if j < k then (j : Int) else (j : Int) + 1) j) := by
    intro j c hc
    rw [List.getElem?_eraseIdx] at hc
    simp only
    split at hc
    · have hj : j < s.items.length := by rw [← h.len]; exact (List.getElem?_eq_some_iff.1 hc).1
      rw [(h.cut j c s.items[j] hc (by simp [hj])).1]; simp [*]
    · have hj : j + 1 < s.items.length := by rw [← h.len]; exact (List.getElem?_eq_some_iff.1 hc).1
      rw [(h.cut (j + 1) c s.items[j + 1] hc (by simp [hj])).1]; simp [*]
  obtain ⟨l', hl1, hl2, hl3⟩ := decrementFrom_ok k hidx
  refine ⟨⟨l', (r.activeIndices.erase (k : Int)).map (fun j => if j > (k : Int) then j - 1 else j)⟩,
    ?_, ?_, rfl⟩
  · have hlen := h.len
    simp only [removeCut, Arg.read, Outcome.bind_ok]
    rw [if_neg (show ¬ ((k : Int) < 0 ∨ (r.cuts.length : Int) ≤ k) by omega),
      if_neg (show ¬ ((k : Int) < 0) by omega)]
    simp only [Int.toNat_natCast, hl1, Outcome.bind_ok, Outcome.pure_eq]
  · simp only [Spec.step, Int.toNat_natCast, hp]
    rw [filter_eq_eraseIdx h.sorted hp]
    refine ⟨?_, ?_, h.sorted.sublist (List.eraseIdx_sublist ..), ?_⟩
    · simp only [hl2]
      rw [List.length_eraseIdx, List.length_eraseIdx, h.len]
    · intro j c p hc hpj
      simp only at hc hpj
      obtain ⟨c0, hc1, hc2, hc3⟩ := hl3 j c hc
      refine ⟨?_, ?_⟩
      · rw [hc2]
        by_cases hjk : k ≤ j
        · simp [hjk, Nat.not_lt.2 hjk]
        · simp [hjk, Nat.lt_of_not_le hjk]
      · rw [hc3]
        rw [List.getElem?_eraseIdx] at hc1 hpj
        split at hc1
        · rw [if_pos (by assumption)] at hpj; exact (h.cut _ _ _ hc1 hpj).2
        · rw [if_neg (by assumption)] at hpj; exact (h.cut _ _ _ hc1 hpj).2
    · intro p hp
      exact h.bound p ((List.eraseIdx_sublist ..).subset hp)

theorem Rel.step {r : CutRegistry} {s : Spec} (h : Rel r s) {op : Op} (hv : s.Valid op) :
    ∃ r', r.step op = .ok r' ∧ Rel r' (s.step op) := by
  cases op with
  | add c =>
    refine ⟨{ r with cuts := r.cuts ++ [c.setIndex r.cuts.length] },
      by simp [CutRegistry.step, addCut, CutData.setIndex, CutData.getIndex], ?_, ?_, ?_, ?_⟩
    · simp [Spec.step, h.len]
    · intro i c' p hc hp
      simp only [Spec.step, List.getElem?_append, h.len] at hc hp
      split at hc
      · rw [if_pos (by assumption)] at hp; exact h.cut i c' p hc hp
      · rw [if_neg (by assumption)] at hp
        simp only [List.getElem?_singleton] at hc hp
        split at hc
        · rw [if_pos (by assumption)] at hp
          simp only [Option.some.injEq] at hc hp
          subst hc hp
          refine ⟨?_, rfl⟩
          simp only [CutData.setIndex, Option.some.injEq]; omega
        · simp at hc
    · simp only [Spec.step]
      rw [List.pairwise_append]
      refine ⟨h.sorted, by simp, ?_⟩
      intro a ha b hb
      simp only [List.mem_singleton] at hb; subst hb
      exact h.bound a ha
    · intro p hp
      simp only [Spec.step, List.mem_append, List.mem_singleton] at hp ⊢
      rcases hp with hp | rfl
      · have := h.bound p hp; omega
      · simp
  | activate i =>
    refine ⟨_, rfl, ?_⟩
    simp only [Spec.step]
    split
    · exact ⟨h.len, h.cut, h.sorted, h.bound⟩
    · exact ⟨h.len, h.cut, h.sorted, h.bound⟩
  | remove i =>
    obtain ⟨r', h1, h2, -⟩ := h.remove hv
    exact ⟨r', h1, h2⟩
  | update x =>
    refine ⟨_, rfl, ?_, ?_, ?_, ?_⟩
    · simp [Spec.step, updateCutEfficacy, h.len]
    · intro i c p hc hp
      simp only [Spec.step, updateCutEfficacy, List.getElem?_map, Option.map_eq_some_iff] at hc hp
      obtain ⟨c0, hc0, rfl⟩ := hc
      obtain ⟨p0, hp0, rfl⟩ := hp
      obtain ⟨h1, h2⟩ := h.cut i c0 p0 hc0 hp0
      refine ⟨h1, ?_⟩
      simp only [← h2]
      rfl
    · simpa [Spec.step, List.pairwise_map] using h.sorted
    · intro p hp
      simp only [Spec.step, List.mem_map] at hp ⊢
      obtain ⟨q, hq, rfl⟩ := hp
      exact h.bound q hq

theorem Rel.run {r : CutRegistry} {s : Spec} (h : Rel r s) (ops : List Op) (hv : s.AllValid ops) :
    ∃ r', r.run ops = .ok r' ∧ Rel r' (s.run ops) := by
  induction ops generalizing r s with
  | nil => exact ⟨r, rfl, h⟩
  | cons op ops ih =>
    obtain ⟨r1, h1, h2⟩ := h.step hv.1
    obtain ⟨r2, h3, h4⟩ := ih h2 hv.2
    exact ⟨r2, by simp [CutRegistry.run, h1, h3], h4⟩

/-! ## C19 -/

/-- **C19.**  Every history of registry calls with valid indices succeeds, and afterwards
the registry holds exactly the surviving cuts, in insertion order: `GetCut(i)` returns the
`i`-th survivor, with its content as added (efficacy as last updated) and with recorded
index `i`. -/
theorem C19_index_is_position (ops : List Op) (hv : Spec.AllValid {} ops) :
    ∃ r, run {} ops = .ok r ∧ r.cuts.length = (Spec.run {} ops).items.length ∧
      ((Spec.run {} ops).items.Pairwise fun a b => a.1 < b.1) ∧
      ∀ (i : Nat) (p : Nat × CutData), (Spec.run {} ops).items[i]? = some p →
        ∃ c, r.getCut i = .ok c ∧ c.getIndex = .ok (i : Int) ∧ content c = p.2 := by
  obtain ⟨r, h1, h2⟩ := Rel.init.run ops hv
  refine ⟨r, h1, h2.len, h2.sorted, fun i p hp => ?_⟩
  have hi : i < r.cuts.length := by rw [h2.len]; exact (List.getElem?_eq_some_iff.1 hp).1
  have hc : r.cuts[i]? = some r.cuts[i] := by simp [hi]
  obtain ⟨h3, h4⟩ := h2.cut i _ p hc hp
  exact ⟨r.cuts[i], by simp [getCut, hi], by simp [CutData.getIndex, h3], h4⟩

/-- C19: `AddCut` returns the position at which the new cut is found. -/
theorem C19_addCut_returns_position (r : CutRegistry) (c : CutData) :
    ∃ r' i, r.addCut c = .ok (r', i) ∧ i = r.cuts.length ∧
      ∃ c', r'.getCut i = .ok c' ∧ content c' = content c ∧ c'.getIndex = .ok i ∧
        ∀ j c0, r.getCut j = .ok c0 → r'.getCut j = .ok c0 := by
  refine ⟨_, _, rfl, rfl, c.setIndex r.cuts.length, ?_, rfl, rfl, ?_⟩
  · simp [getCut]
  · intro j c0 h
    unfold getCut at h ⊢
    split at h
    · simp at h
    · rw [if_neg (by assumption)]
      split at h
      · rename_i hc
        rw [List.getElem?_append_left (List.getElem?_eq_some_iff.1 hc).1, hc]; exact h
      · simp at h

/-- A cut used in the examples. -/
noncomputable def exCut (x : ℚ) : CutData :=
  createCut ⟨[⟨0, 1⟩], false⟩ (fun i => i == 0) {} ⟨[⟨0, x⟩], false⟩ 5 "cut" false

/-- A non-trivial valid history: three cuts, removal in the middle, activation. -/
noncomputable def exOps : List Op :=
  [.add (exCut 1), .add (exCut 2), .activate 1, .add (exCut 3), .activate 2, .remove 0, .update {},
   .add (exCut 4)]

example : Spec.AllValid {} exOps ∧ Spec.Once {} exOps ∧
    (Spec.run {} exOps).items.map (·.1) = [1, 2, 3] ∧ (Spec.run {} exOps).activated = [1, 2] := by
  simp [exOps, Spec.AllValid, Spec.Once, Spec.Valid, Spec.step, Spec.run]

/-! ## C20 -/

/-- The ordinal of the cut that index `i` denotes. -/
def Spec.denotes (s : Spec) (i : Int) : Option Nat :=
  if i < 0 then none else (s.items[i.toNat]?).map (·.1)

/-- The active indices denote exactly the activated survivors, in activation order. -/
def ActiveAgree (r : CutRegistry) (s : Spec) : Prop :=
  r.activeIndices.map s.denotes = s.activated.map some

/-- A cut is activated twice and then removed: its second active index survives and denotes
another cut, which was never activated.  So C20 fails. -/
theorem C20_active_set_violated :
    ∃ ops, Spec.AllValid {} ops ∧ ∃ r, run {} ops = .ok r ∧ r.activeIndices = [0] ∧
      (Spec.run {} ops).activated = [] ∧ (Spec.run {} ops).denotes 0 = some 1 := by
  refine ⟨[.add (exCut 1), .add (exCut 2), .activate 0, .activate 0, .remove 0], ?_, ?_⟩
  · simp [Spec.AllValid, Spec.Valid, Spec.step]
  · refine ⟨⟨[(exCut 2).setIndex 0], [0]⟩, ?_, rfl, ?_, ?_⟩
    · simp [run, step, addCut, CutData.setIndex, CutData.getIndex, activateCut,
        removeCut, Arg.read, decrementFrom, decrement]
    · simp [Spec.run, Spec.step]
    · simp [Spec.run, Spec.step, Spec.denotes]

/-- `RemoveCut(active_cuts()[0])` on three cuts of which the first and the last are active:
the argument changes while it is used, the indices of the remaining cuts are not adjusted
(position 0 records index 1), and the remaining active index is out of range. -/
theorem C20_aliased_argument_violated :
    ∃ r, run {} [.add (exCut 1), .add (exCut 2), .add (exCut 3), .activate 0, .activate 2] = .ok r ∧
      ∃ r' c, r.removeCut (.activeSlot 0) = .ok r' ∧ r'.getCut 0 = .ok c ∧ c.getIndex = .ok 1 ∧
        r'.activeIndices = [2] ∧ r'.cuts.length = 2 := by
  refine ⟨⟨[(exCut 1).setIndex 0, (exCut 2).setIndex 1, (exCut 3).setIndex 2], [0, 2]⟩,
    by simp [run, step, addCut, CutData.setIndex, CutData.getIndex, activateCut],
    ⟨[(exCut 2).setIndex 1, (exCut 3).setIndex 2], [2]⟩, (exCut 2).setIndex 1, ?_, ?_, ?_, rfl, rfl⟩
  · simp [removeCut, Arg.read, decrementFrom]
  · simp [getCut]
  · simp [CutData.getIndex, CutData.setIndex]

/-- Removing the cut denoted by the last active index through a reference to that very
index is undefined behaviour in every registry (the reference dangles after the erase). -/
theorem C20_aliased_last_undefined (r : CutRegistry) (h : r.activeIndices ≠ []) :
    r.removeCut (.activeSlot (r.activeIndices.length - 1)) = .ub := by
  have hl : r.activeIndices.length - 1 < r.activeIndices.length := by
    have := List.length_pos_of_ne_nil h; omega
  have h1 : r.activeIndices[r.activeIndices.length - 1]? =
      some r.activeIndices[r.activeIndices.length - 1] := by simp [hl]
  generalize hx : r.activeIndices[r.activeIndices.length - 1] = x at h1
  have hmem : x ∈ r.activeIndices := List.mem_of_getElem? h1
  have h2 : (r.activeIndices.erase x)[r.activeIndices.length - 1]? = none := by
    rw [List.getElem?_eq_none_iff, List.length_erase_of_mem hmem]
  simp only [removeCut, Arg.read, h1, h2, Outcome.bind_ok, Outcome.bind_ub]
  split <;> rfl

theorem denotes_lt {s : Spec} {j : Int} {k : Nat} (h : s.denotes j = some k) :
    0 ≤ j ∧ ∃ p, s.items[j.toNat]? = some p ∧ p.1 = k := by
  unfold Spec.denotes at h
  split at h
  · simp at h
  · simp only [Option.map_eq_some_iff] at h
    obtain ⟨p, hp, hk⟩ := h
    exact ⟨by omega, p, hp, hk⟩

theorem active_remove {s s' : Spec} (hs : s.items.Pairwise (fun a b => a.1 < b.1)) {i : Int}
    {p : Nat × CutData} (h0 : 0 ≤ i) (hp : s.items[i.toNat]? = some p)
    (hi : s'.items = s.items.eraseIdx i.toNat) (A : List Int) (L : List Nat)
    (h : A.map s.denotes = L.map some) :
    ((A.filter (fun j => j ≠ i)).map (fun j => if j > i then j - 1 else j)).map s'.denotes =
      (L.filter (fun k => k ≠ p.1)).map some := by
  induction A generalizing L with
  | nil => cases L <;> simp_all
  | cons a A ih =>
    cases L with
    | nil => simp at h
    | cons k L =>
      simp only [List.map_cons, List.cons.injEq] at h
      obtain ⟨ha, hA⟩ := h
      have ih := ih L hA
      obtain ⟨ha0, q, hq, hk⟩ := denotes_lt ha
      by_cases hai : a = i
      · subst hai
        rw [hp] at hq
        simp only [Option.some.injEq] at hq
        subst hq
        rw [List.filter_cons_of_neg (by simp), List.filter_cons_of_neg (by simp [hk]), ih]
      · have hkp : k ≠ p.1 := by
          intro hkp
          have := ids_inj hs hq hp (by omega)
          omega
        rw [List.filter_cons_of_pos (by simpa using hai),
          List.filter_cons_of_pos (by simpa using hkp)]
        simp only [List.map_cons, List.cons.injEq]
        refine ⟨?_, ih⟩
        split
        · unfold Spec.denotes
          rw [if_neg (by omega), hi, List.getElem?_eraseIdx, if_neg (by omega),
            show (a - 1).toNat + 1 = a.toNat by omega, hq]
          simp [hk]
        · unfold Spec.denotes
          rw [if_neg (by omega), hi, List.getElem?_eraseIdx, if_pos (by omega), hq]
          simp [hk]

/-- One call keeps the active indices in step. -/
theorem ActiveAgree.step {r r' : CutRegistry} {s : Spec} {op : Op} (hr : Rel r s)
    (h : ActiveAgree r s) (hn : s.activated.Nodup) (hv : s.Valid op)
    (ho : ∀ i, op = .activate i → ∀ p, s.items[i.toNat]? = some p → p.1 ∉ s.activated)
    (hstep : r.step op = .ok r') :
    ActiveAgree r' (s.step op) ∧ (s.step op).activated.Nodup := by
  cases op with
  | add c =>
    simp only [CutRegistry.step, addCut, CutData.setIndex, CutData.getIndex, Outcome.bind_ok,
      Outcome.pure_eq, Outcome.ok.injEq] at hstep
    subst hstep
    refine ⟨?_, hn⟩
    unfold ActiveAgree at h ⊢
    simp only [Spec.step]
    rw [← h]
    apply List.map_congr_left
    intro j hj
    have : s.denotes j ∈ s.activated.map some := by rw [← h]; exact List.mem_map_of_mem hj
    simp only [List.mem_map] at this
    obtain ⟨k, -, hk⟩ := this
    obtain ⟨h0, p, hp, -⟩ := denotes_lt hk.symm
    unfold Spec.denotes
    rw [if_neg (by omega), if_neg (by omega),
      List.getElem?_append_left (List.getElem?_eq_some_iff.1 hp).1]
  | activate i =>
    simp only [CutRegistry.step, Outcome.ok.injEq] at hstep
    subst hstep
    obtain ⟨h0, h1⟩ := hv
    have hp : s.items[i.toNat]? = some (s.items[i.toNat]'(by omega)) := by simp
    generalize s.items[i.toNat]'(by omega) = p at hp
    simp only [Spec.step, hp]
    refine ⟨?_, ?_⟩
    · unfold ActiveAgree at h ⊢
      simp only [activateCut, List.map_append, List.map_cons, List.map_nil]
      refine congrArg₂ _ h ?_
      simp only [Spec.denotes, hp, List.cons.injEq, and_true]
      rw [if_neg (by omega)]; rfl
    · rw [List.nodup_append]
      refine ⟨hn, by simp, ?_⟩
      intro a ha b hb hab
      simp only [List.mem_singleton] at hb
      subst hb hab
      exact ho i rfl p hp ha
  | remove i =>
    obtain ⟨r1, h1, -, h3⟩ := hr.remove hv
    simp only [CutRegistry.step] at hstep
    rw [h1] at hstep
    simp only [Outcome.ok.injEq] at hstep
    subst hstep
    obtain ⟨h0, hlt⟩ := hv
    have hp : s.items[i.toNat]? = some (s.items[i.toNat]'(by omega)) := by simp
    generalize s.items[i.toNat]'(by omega) = p at hp
    simp only [Spec.step, hp]
    refine ⟨?_, hn.filter _⟩
    have hA : r.activeIndices.Nodup := by
      apply List.Nodup.of_map s.denotes
      rw [h]
      exact hn.map (Option.some_injective _)
    unfold ActiveAgree at h ⊢
    rw [h3, hA.erase_eq_filter]
    have := active_remove (s' := ⟨s.items.filter (fun q => q.1 ≠ p.1), s.next,
      s.activated.filter (fun k => k ≠ p.1)⟩) hr.sorted h0 hp (filter_eq_eraseIdx hr.sorted hp) _ _ h
    simpa [bne, beq_eq_decide] using this
  | update x =>
    simp only [CutRegistry.step, Outcome.ok.injEq] at hstep
    subst hstep
    refine ⟨?_, hn⟩
    unfold ActiveAgree at h ⊢
    simp only [Spec.step]
    rw [← h]
    apply List.map_congr_left
    intro j _
    simp only [Spec.denotes, List.getElem?_map, Option.map_map]
    rfl

/-- **C20**, proved part: if no cut is activated while it is already active and `RemoveCut`
is not handed a reference into the active list, then after every history the active indices
denote, in activation order, exactly the surviving activated cuts, each once.
Missing (and false, see the `_violated` theorems): repeated activation, aliased arguments. -/
theorem C20_active_set_partial (ops : List Op) (hv : Spec.AllValid {} ops)
    (ho : Spec.Once {} ops) :
    ∃ r, run {} ops = .ok r ∧
      r.activeIndices.map (Spec.run {} ops).denotes = (Spec.run {} ops).activated.map some ∧
      (Spec.run {} ops).activated.Nodup := by
  suffices H : ∀ (ops : List Op) (r : CutRegistry) (s : Spec), Rel r s → ActiveAgree r s →
      s.activated.Nodup → s.AllValid ops → s.Once ops → ∃ r', r.run ops = .ok r' ∧
        ActiveAgree r' (s.run ops) ∧ (s.run ops).activated.Nodup from
    H ops {} {} Rel.init rfl (by simp) hv ho
  intro ops
  induction ops with
  | nil => intro r s _ h2 h3 _ _; exact ⟨r, rfl, h2, h3⟩
  | cons op ops ih =>
    intro r s h1 h2 h3 h4 h5
    obtain ⟨r1, hr1, hrel⟩ := h1.step h4.1
    obtain ⟨h6, h7⟩ := h2.step h1 h3 h4.1 h5.1 hr1
    obtain ⟨r2, hr2, h8⟩ := ih r1 _ hrel h6 h7 h4.2 h5.2
    exact ⟨r2, by simp [CutRegistry.run, hr1, hr2], h8⟩

/-- The registry never touches `is_active()`: an activated cut still reports `false`
(cuts_data.cc:87-92 only records the index), although cuts_data.h:81-84 says the flag
indicates whether the cut is active in the LP. -/
theorem C20_active_flag_violated :
    ∃ ops, Spec.AllValid {} ops ∧ ∃ r c, run {} ops = .ok r ∧ 0 ∈ r.activeIndices ∧
      r.getCut 0 = .ok c ∧ c.active = false := by
  refine ⟨[.add (exCut 1), .activate 0], by simp [Spec.AllValid, Spec.Valid, Spec.step],
    ⟨[(exCut 1).setIndex 0], [0]⟩, (exCut 1).setIndex 0, ?_, by simp, by simp [getCut], rfl⟩
  simp [run, step, addCut, CutData.setIndex, CutData.getIndex, activateCut]

end CutRegistry
end MiniMip
