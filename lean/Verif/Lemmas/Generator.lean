import Verif.Model.Generator
import Verif.Props.MipData
import Verif.Props.Efficacy
import Verif.Lemmas.Rounding

/-! Helper lemmas about the cut generator model. -/

namespace MiniMip
open SparseVector (Clean Inv StrictSorted)

theorem listAt_eq_ok {α : Type} {l : List α} {i : Int} {a : α} :
    listAt l i = .ok a ↔ 0 ≤ i ∧ l[i.toNat]? = some a := by
  unfold listAt
  split
  · simp only [reduceCtorEq, false_iff]; omega
  · split
    · rename_i h1 _ h2; simp [h2]; omega
    · rename_i h1 h2; simp [h2]

theorem listAt_ok_or_ub {α : Type} (l : List α) (i : Int) : (∃ a, listAt l i = .ok a) ∨ listAt l i = .ub := by
  unfold listAt
  split
  · simp
  · split <;> simp

theorem listAt_of_lt {α : Type} {l : List α} {i : Int} (h0 : 0 ≤ i) (h : i < l.length) :
    ∃ a, listAt l i = .ok a ∧ l[i.toNat]? = some a := by
  have : i.toNat < l.length := by omega
  exact ⟨l[i.toNat], listAt_eq_ok.2 ⟨h0, by simp [this]⟩, by simp [this]⟩

/-- Clean and not marked as needing cleaning. -/
def SparseVector.Good (v : SparseVector) : Prop := Clean v.entries ∧ v.dirty = false

theorem SparseVector.Good.empty : SparseVector.Good {} := ⟨by simp [Clean, StrictSorted], rfl⟩

theorem eval_eq_sum {v : SparseVector} (h : Clean v.entries) (x : Int → ℚ) (S : Finset Int)
    (hS : ∀ e ∈ v.entries, e.index ∈ S) : v.eval x = ∑ i ∈ S, v.value i * x i :=
  SparseVector.sum_map_eq_finset h.1 x S hS

theorem eval_congr {v : SparseVector} {x y : Int → ℚ} (h : ∀ e ∈ v.entries, x e.index = y e.index) :
    v.eval x = v.eval y := by
  unfold SparseVector.eval evalEntries
  congr 1
  exact List.map_congr_left fun e he => by rw [h e he]

theorem eval_addMultiple {v w r : SparseVector} {s : ℚ} (hv : v.Good) (hw : Clean w.entries)
    (h : v.addMultiple s (some w) = .ok r) :
    r.Good ∧ (∀ x, r.eval x = v.eval x + s * w.eval x) ∧
      ∀ i, r.value i = v.value i + s * w.value i := by
  obtain ⟨r', h1, h2, h3, h4⟩ := SparseVector.C03_addMultiple_pointwise v w s hv.1 hv.2 hw
  rw [h1] at h; simp only [Outcome.ok.injEq] at h; subst h
  refine ⟨⟨h2, h3⟩, fun x => ?_, h4⟩
  set S := ((r'.entries ++ v.entries ++ w.entries).map (·.index)).toFinset with hS
  have hm : ∀ e, e ∈ r'.entries ∨ e ∈ v.entries ∨ e ∈ w.entries → e.index ∈ S := by
    intro e he
    simp only [hS, List.mem_toFinset, List.mem_map, List.mem_append]
    exact ⟨e, by tauto, rfl⟩
  rw [eval_eq_sum h2 x S (fun e he => hm e (by tauto)), eval_eq_sum hv.1 x S (fun e he => hm e (by tauto)),
    eval_eq_sum hw x S (fun e he => hm e (by tauto)), Finset.mul_sum, ← Finset.sum_add_distrib]
  exact Finset.sum_congr rfl fun i _ => by rw [h4]; ring

theorem addMultiple_ok {v w : SparseVector} (s : ℚ) (hv : v.Good) (hw : Clean w.entries) :
    ∃ r, v.addMultiple s (some w) = .ok r := by
  obtain ⟨r', h1, -⟩ := SparseVector.C03_addMultiple_pointwise v w s hv.1 hv.2 hw
  exact ⟨r', h1⟩

theorem eval_scale (v : SparseVector) (s : ℚ) (x) : (v.scale s).eval x = s * v.eval x := by
  unfold SparseVector.scale SparseVector.eval
  split
  · rename_i h; simp [evalEntries, h]
  · simp only [evalEntries, List.map_map]
    rw [← List.sum_map_mul_left]
    congr 1
    apply List.map_congr_left
    intro e _; simp only [Function.comp]; ring

theorem scale_clean {v : SparseVector} (h : Clean v.entries) (s : ℚ) : Clean (v.scale s).entries := by
  unfold SparseVector.scale
  split
  · simp [Clean, StrictSorted]
  · rename_i h0
    exact h.map (fun _ => rfl) (fun e he => mul_ne_zero he h0)

/-- Adding an entry behind all others appends it. -/
theorem addEntry_append {v : SparseVector} (h : v.Good) {i : Int} (hi : 0 ≤ i)
    (hlt : ∀ e ∈ v.entries, e.index < i) (x : ℚ) :
    v.addEntry i x = if x = 0 then v else ⟨v.entries ++ [⟨i, x⟩], false⟩ := by
  obtain ⟨hc, hd⟩ := h
  have hl := (SparseVector.lastIndex_lt_iff hc hi).2 hlt
  rw [SparseVector.addEntry, hd, if_neg (by simp), if_neg (by omega)]

theorem good_append {v : SparseVector} (h : v.Good) {i : Int} (hi : 0 ≤ i)
    (hlt : ∀ e ∈ v.entries, e.index < i) {x : ℚ} (hx : x ≠ 0) :
    SparseVector.Good ⟨v.entries ++ [⟨i, x⟩], false⟩ := by
  refine ⟨⟨?_, ?_⟩, rfl⟩
  · refine List.pairwise_append.2 ⟨h.1.1, by simp, ?_⟩
    intro a ha b hb
    simp only [List.mem_singleton] at hb; subst hb
    exact hlt a ha
  · intro e he
    rcases List.mem_append.1 he with he | he
    · exact h.1.2 e he
    · simp only [List.mem_singleton] at he; subst he; exact ⟨hx, hi⟩

/-! ### Reading the LP -/

/-- Row `i` of the LP (empty outside the range). -/
def LpView.rowAt (lp : LpView) (i : Int) : SparseVector := (lp.rows[i.toNat]?).getD {}

/-- The side of row `i` selected by `useRhs` (NaN outside the range). -/
def LpView.sideAt (lp : LpView) (useRhs : List Bool) (i : Int) : Dbl :=
  if useRhs[i.toNat]? = some true then (lp.rhs[i.toNat]?).getD .nan else (lp.lhs[i.toNat]?).getD .nan

/-- The sign of the slack of row `i`: `row + s = rhs` or `row - s = lhs`. -/
def signAt (useRhs : List Bool) (i : Int) : ℚ := if useRhs[i.toNat]? = some true then 1 else -1

theorem signAt_cases (u : List Bool) (i) : signAt u i = 1 ∨ signAt u i = -1 := by
  unfold signAt; split <;> simp

theorem signAt_sq (u : List Bool) (i) : signAt u i * signAt u i = 1 := by
  rcases signAt_cases u i with h | h <;> rw [h] <;> norm_num

namespace Generator

theorem chosenSide_ok {lp : LpView} {u : List Bool} {i : Int} {p : Dbl × ℚ}
    (h : chosenSide lp u i = .ok p) : p = (lp.sideAt u i, signAt u i) := by
  unfold chosenSide at h
  obtain ⟨b, hb, h⟩ := Outcome.bind_eq_ok.1 h
  obtain ⟨s, hs, h⟩ := Outcome.bind_eq_ok.1 h
  simp only [Outcome.pure_eq, Outcome.ok.injEq] at h
  subst h
  have hb := (listAt_eq_ok.1 hb).2
  have hs := (listAt_eq_ok.1 hs).2
  cases b <;> simp_all [LpView.sideAt, signAt]

theorem rowAt_ok {lp : LpView} {i : Int} {r : SparseVector} (h : listAt lp.rows i = .ok r) :
    lp.rowAt i = r := by
  simp [LpView.rowAt, (listAt_eq_ok.1 h).2]

/-- All rows of the LP are clean. -/
def RowsClean (lp : LpView) : Prop := ∀ r ∈ lp.rows, SparseVector.Good r

theorem RowsClean.rowAt {lp : LpView} (h : RowsClean lp) (i) : (lp.rowAt i).Good := by
  unfold LpView.rowAt
  rcases hh : lp.rows[i.toNat]? with _ | r
  · exact SparseVector.Good.empty
  · exact h r (List.mem_of_getElem? hh)

/-- Sum of the right-hand sides, if all are finite. -/
def addSides (lp : LpView) (u : List Bool) : List Entry → Option ℚ → Option ℚ
  | [], r => r
  | e :: l, r => addSides lp u l (addSide r e.value (lp.sideAt u e.index))

/-- The state of the aggregation loop. -/
theorem aggregateLoop_spec {lp : LpView} (hr : RowsClean lp) {u : List Bool} (l : List Entry)
    (hl : Clean l) {a a' : AggRow} (h : aggregateLoop lp u a l = .ok a')
    (hv : a.vars.Good) (hc : a.slackCoefs.Good) (hs : a.slackSigns.Good) (hd : a.sideValues.Good)
    (lc : ∀ e ∈ a.slackCoefs.entries, ∀ f ∈ l, e.index < f.index)
    (ls : ∀ e ∈ a.slackSigns.entries, ∀ f ∈ l, e.index < f.index)
    (ld : ∀ e ∈ a.sideValues.entries, ∀ f ∈ l, e.index < f.index) :
    a'.vars.Good ∧ a'.slackCoefs.Good ∧ a'.slackSigns.Good ∧ a'.sideValues.Good ∧
    (∀ x, a'.vars.eval x = a.vars.eval x + (l.map fun e => e.value * (lp.rowAt e.index).eval x).sum) ∧
    (∀ j, a'.vars.value j = a.vars.value j +
      (l.map fun e => e.value * (lp.rowAt e.index).value j).sum) ∧
    a'.slackCoefs.entries = a.slackCoefs.entries ++
      l.map (fun e => ⟨e.index, signAt u e.index * e.value⟩) ∧
    a'.slackSigns.entries = a.slackSigns.entries ++ l.map (fun e => ⟨e.index, signAt u e.index⟩) ∧
    a'.sideValues.entries = a.sideValues.entries ++
      (l.map (fun e => (⟨e.index, finPart (lp.sideAt u e.index)⟩ : Entry))).filter
        (fun e => decide (e.value ≠ 0)) ∧
    a'.rhs = addSides lp u l a.rhs := by
  induction l generalizing a with
  | nil =>
    simp only [aggregateLoop, Outcome.ok.injEq] at h; subst h
    exact ⟨hv, hc, hs, hd, by simp, by simp, by simp, by simp, by simp, rfl⟩
  | cons e l ih =>
    simp only [aggregateLoop] at h
    obtain ⟨a1, h1, h⟩ := Outcome.bind_eq_ok.1 h
    unfold aggregateStep at h1
    obtain ⟨p, hp, h1a⟩ := Outcome.bind_eq_ok.1 h1
    clear h1
    have hp := chosenSide_ok hp; subst hp
    obtain ⟨r, hrow, h1b⟩ := Outcome.bind_eq_ok.1 h1a
    have hrow := rowAt_ok hrow; subst hrow
    obtain ⟨v, hvv, h1c⟩ := Outcome.bind_eq_ok.1 h1b
    have h1 := Outcome.ok.inj h1c
    obtain ⟨g1, g2, g3⟩ := eval_addMultiple hv (hr.rowAt e.index).1 hvv
    have he := hl.2 e (by simp)
    have hl' : Clean l := ⟨(List.pairwise_cons.1 hl.1).2, fun f hf => hl.2 f (by simp [hf])⟩
    have hle := (List.pairwise_cons.1 hl.1).1
    have hsg : signAt u e.index ≠ 0 := by
      rcases signAt_cases u e.index with h | h <;> rw [h] <;> norm_num
    have ac := addEntry_append hc he.2 (fun f hf => lc f hf e (by simp)) (signAt u e.index * e.value)
    rw [if_neg (mul_ne_zero hsg he.1)] at ac
    have as := addEntry_append hs he.2 (fun f hf => ls f hf e (by simp)) (signAt u e.index)
    rw [if_neg hsg] at as
    have ad := addEntry_append hd he.2 (fun f hf => ld f hf e (by simp)) (finPart (lp.sideAt u e.index))
    have gd : (a.sideValues.addEntry e.index (finPart (lp.sideAt u e.index))).Good ∧
        (a.sideValues.addEntry e.index (finPart (lp.sideAt u e.index))).entries =
          a.sideValues.entries ++ [(⟨e.index, finPart (lp.sideAt u e.index)⟩ : Entry)].filter
            (fun e => decide (e.value ≠ 0)) := by
      rw [ad]
      split
      · rename_i h0; exact ⟨hd, by simp [h0]⟩
      · rename_i h0; exact ⟨good_append hd he.2 (fun f hf => ld f hf e (by simp)) h0, by simp [h0]⟩
    have step := ih hl' (a := a1) h
      (by rw [← h1]; exact g1)
      (by rw [← h1]; simp only; rw [ac]
          exact good_append hc he.2 (fun f hf => lc f hf e (by simp)) (mul_ne_zero hsg he.1))
      (by rw [← h1]; simp only; rw [as]
          exact good_append hs he.2 (fun f hf => ls f hf e (by simp)) hsg)
      (by rw [← h1]; exact gd.1)
      (by rw [← h1]; simp only; rw [ac]
          intro d hd f hf
          rcases List.mem_append.1 hd with hd | hd
          · exact lc d hd f (by simp [hf])
          · simp only [List.mem_singleton] at hd; subst hd; exact hle f hf)
      (by rw [← h1]; simp only; rw [as]
          intro d hd f hf
          rcases List.mem_append.1 hd with hd | hd
          · exact ls d hd f (by simp [hf])
          · simp only [List.mem_singleton] at hd; subst hd; exact hle f hf)
      (by rw [← h1]; simp only; rw [gd.2]
          intro d hd f hf
          rcases List.mem_append.1 hd with hd | hd
          · exact ld d hd f (by simp [hf])
          · have hd := List.mem_of_mem_filter hd
            simp only [List.mem_singleton] at hd; subst hd; exact hle f hf)
    obtain ⟨k1, k2, k3, k4, k5, k6, k7, k8, k9, k10⟩ := step
    rw [← h1] at k5 k6 k7 k8 k9 k10
    simp only at k5 k6 k7 k8 k9 k10
    refine ⟨k1, k2, k3, k4, fun x => ?_, fun j => ?_, ?_, ?_, ?_, ?_⟩
    · rw [k5, g2]; simp only [List.map_cons, List.sum_cons]; ring
    · rw [k6, g3]; simp only [List.map_cons, List.sum_cons]; ring
    · rw [k7, ac]; simp
    · rw [k8, as]; simp
    · rw [k9, gd.2, List.append_assoc, ← List.filter_append]; rfl
    · rw [k10]; rfl

theorem cleanUp_of_good {v : SparseVector} (h : v.Good) : v.cleanUpIfNeeded = v := by
  unfold SparseVector.cleanUpIfNeeded; rw [h.2]; simp

/-- Everything about the aggregated row. -/
structure IsAggregate (lp : LpView) (u : List Bool) (w : SparseVector) (a : AggRow) : Prop where
  vars : a.vars.Good
  slackCoefs : a.slackCoefs.Good
  slackSigns : a.slackSigns.Good
  sideValues : a.sideValues.Good
  eval : ∀ x, a.vars.eval x = (w.entries.map fun e => e.value * (lp.rowAt e.index).eval x).sum
  value : ∀ j, a.vars.value j = (w.entries.map fun e => e.value * (lp.rowAt e.index).value j).sum
  coefs : a.slackCoefs.entries = w.entries.map (fun e => ⟨e.index, signAt u e.index * e.value⟩)
  signs : a.slackSigns.entries = w.entries.map (fun e => ⟨e.index, signAt u e.index⟩)
  sides : a.sideValues.entries =
    (w.entries.map (fun e => (⟨e.index, finPart (lp.sideAt u e.index)⟩ : Entry))).filter
      (fun e => decide (e.value ≠ 0))
  rhs : a.rhs = addSides lp u w.entries (some 0)

theorem aggregate_spec {lp : LpView} (hr : RowsClean lp) {u : List Bool} {w : SparseVector}
    (hw : Clean w.entries) {a : AggRow} (h : aggregateByWeight lp w u = .ok a) :
    IsAggregate lp u w a := by
  unfold aggregateByWeight at h
  obtain ⟨a1, h1, h⟩ := Outcome.bind_eq_ok.1 h
  simp only [Outcome.pure_eq, Outcome.ok.injEq] at h
  have ge := SparseVector.Good.empty
  obtain ⟨k1, k2, k3, k4, k5, k6, k7, k8, k9, k10⟩ := aggregateLoop_spec hr w.entries hw h1
    ge ge ge ge (by simp) (by simp) (by simp)
  subst h
  exact { vars := k1
          slackCoefs := by simp only; rw [cleanUp_of_good k2]; exact k2
          slackSigns := by simp only; rw [cleanUp_of_good k3]; exact k3
          sideValues := by simp only; rw [cleanUp_of_good k4]; exact k4
          eval := fun x => by rw [k5]; simp [SparseVector.eval, evalEntries]
          value := fun j => by rw [k6]; simp [SparseVector.value, SparseVector.valueAt_nil]
          coefs := by simp only; rw [cleanUp_of_good k2, k7]; simp
          signs := by simp only; rw [cleanUp_of_good k3, k8]; simp
          sides := by simp only; rw [cleanUp_of_good k4, k9]; simp
          rhs := k10 }

theorem addSides_none (lp : LpView) (u : List Bool) (l) : addSides lp u l none = none := by
  induction l with
  | nil => rfl
  | cons e l ih =>
    rw [addSides]
    have : addSide none e.value (lp.sideAt u e.index) = none := by
      unfold addSide; split <;> rfl
    rw [this, ih]

theorem addSides_some {lp : LpView} {u : List Bool} {l : List Entry} {r b : ℚ} :
    addSides lp u l (some r) = some b ↔
      (∀ e ∈ l, ∃ q, lp.sideAt u e.index = .fin q) ∧
      b = r + (l.map fun e => e.value * finPart (lp.sideAt u e.index)).sum := by
  induction l generalizing r with
  | nil => simp [addSides, eq_comm]
  | cons e l ih =>
    rw [addSides]
    rcases hs : lp.sideAt u e.index with _ | _ | q | _
    · simp [addSide, addSides_none, hs]
    · simp [addSide, addSides_none, hs]
    · simp only [addSide, Option.map_some, ih]
      simp only [List.mem_cons, forall_eq_or_imp, List.map_cons, List.sum_cons, hs, finPart,
        Dbl.fin.injEq, exists_eq', true_and]
      constructor <;> rintro ⟨h1, h2⟩ <;> exact ⟨h1, by rw [h2]; ring⟩
    · simp [addSide, addSides_none, hs]

/-- The stored sign and side value of every row of the aggregation. -/
theorem IsAggregate.lookup {lp : LpView} {u : List Bool} {w : SparseVector} {a : AggRow}
    (h : IsAggregate lp u w a) {e : Entry} (he : e ∈ w.entries) :
    a.slackSigns.value e.index = signAt u e.index ∧
      a.sideValues.value e.index = finPart (lp.sideAt u e.index) := by
  constructor
  · have hm : (⟨e.index, signAt u e.index⟩ : Entry) ∈ a.slackSigns.entries := by
      rw [h.signs]; exact List.mem_map.2 ⟨e, he, rfl⟩
    exact value_of_mem h.slackSigns.1 hm
  · by_cases h0 : finPart (lp.sideAt u e.index) = 0
    · rw [h0]
      by_contra hc
      rw [SparseVector.value, SparseVector.valueAt_eq_sumAt h.sideValues.1.1] at hc
      apply hc
      apply SparseVector.sumAt_eq_zero
      intro f hf hfe
      rw [h.sides] at hf
      obtain ⟨hf, hne⟩ := List.mem_filter.1 hf
      obtain ⟨d, hd, rfl⟩ := List.mem_map.1 hf
      simp only at hfe hne
      rw [hfe, h0] at hne
      simp at hne
    · have hm : (⟨e.index, finPart (lp.sideAt u e.index)⟩ : Entry) ∈ a.sideValues.entries := by
        rw [h.sides]
        exact List.mem_filter.2 ⟨List.mem_map.2 ⟨e, he, rfl⟩, by simpa using h0⟩
      exact value_of_mem h.sideValues.1 hm

/-! ### Shifting -/

/-- The shift used for column `j`. -/
def shiftAt (lp : LpView) (j : Int) : Shift :=
  match shiftOf lp j with
  | .ok s => s
  | _ => .keep

theorem shiftAt_ok {lp : LpView} {j : Int} {s : Shift} (h : shiftOf lp j = .ok s) :
    shiftAt lp j = s := by rw [shiftAt, h]

/-- The value of the shifted variable. -/
def Shift.point : Shift → ℚ → ℚ
  | .lower lb, x => x - lb
  | .upper ub, x => ub - x
  | _, x => x

/-- The point in the shifted variables. -/
def shiftPoint (lp : LpView) (x : Int → ℚ) (j : Int) : ℚ := (shiftAt lp j).point (x j)

theorem shiftEntries_none {lp : LpView} {rc} (hrc : ∀ c s, rc c s none = none) (l : List Entry)
    {l' rhs' ok} (h : shiftEntries lp rc l none = .ok (l', rhs', ok)) : rhs' = none := by
  induction l generalizing l' rhs' ok with
  | nil => simp only [shiftEntries, Outcome.ok.injEq, Prod.mk.injEq] at h; exact h.2.1.symm
  | cons e l ih =>
    simp only [shiftEntries] at h
    obtain ⟨s, hs, h⟩ := Outcome.bind_eq_ok.1 h
    obtain ⟨⟨l2, r2, o2⟩, h2, h⟩ := Outcome.bind_eq_ok.1 h
    simp only [Outcome.pure_eq, Outcome.ok.injEq, Prod.mk.injEq] at h
    rw [hrc] at h2
    rw [← h.2.1]; exact ih h2

theorem shiftEntries_list {lp : LpView} {rc : ℚ → Shift → Option ℚ → Option ℚ} (l : List Entry)
    {b : Option ℚ} {l' rhs' ok} (h : shiftEntries lp rc l b = .ok (l', rhs', ok)) :
    l' = l.map (fun e => ⟨e.index, (shiftAt lp e.index).coef e.value⟩) ∧
    (ok = true ↔ ∀ e ∈ l, (shiftAt lp e.index).isFree = false) ∧
    ∀ e ∈ l, ∃ s, shiftOf lp e.index = .ok s := by
  induction l generalizing b l' rhs' ok with
  | nil =>
    simp only [shiftEntries, Outcome.ok.injEq, Prod.mk.injEq] at h
    obtain ⟨rfl, rfl, rfl⟩ := h
    simp
  | cons e l ih =>
    simp only [shiftEntries] at h
    obtain ⟨s, hs, h⟩ := Outcome.bind_eq_ok.1 h
    obtain ⟨⟨l2, r2, o2⟩, h2, h⟩ := Outcome.bind_eq_ok.1 h
    simp only [Outcome.pure_eq, Outcome.ok.injEq, Prod.mk.injEq] at h
    obtain ⟨i1, i2, i3⟩ := ih h2
    obtain ⟨rfl, rfl, rfl⟩ := h
    refine ⟨?_, ?_, ?_⟩
    · rw [i1, List.map_cons, shiftAt_ok hs]
    · simp only [Bool.and_eq_true, Bool.not_eq_true', i2, List.mem_cons, forall_eq_or_imp, shiftAt_ok hs]
    · intro f hf
      rcases List.mem_cons.1 hf with rfl | hf
      · exact ⟨s, hs⟩
      · exact i3 f hf

theorem shiftEntries_rhs {lp : LpView} {rc : ℚ → Shift → Option ℚ → Option ℚ}
    (hnone : ∀ c s, rc c s none = none) {delta : ℚ → Shift → ℚ}
    (hrc : ∀ c s r r', rc c s (some r) = some r' → r' = r + delta c s)
    (hbad : ∀ c r, rc c .bad r = none) (l : List Entry) {b b' : ℚ} {l' ok}
    (h : shiftEntries lp rc l (some b) = .ok (l', some b', ok)) :
    b' = b + (l.map fun e => delta e.value (shiftAt lp e.index)).sum ∧
      ∀ e ∈ l, shiftAt lp e.index ≠ .bad := by
  induction l generalizing b l' ok with
  | nil =>
    simp only [shiftEntries, Outcome.ok.injEq, Prod.mk.injEq, Option.some.injEq] at h
    simp [h.2.1]
  | cons e l ih =>
    simp only [shiftEntries] at h
    obtain ⟨s, hs, h⟩ := Outcome.bind_eq_ok.1 h
    obtain ⟨⟨l2, r2, o2⟩, h2, h⟩ := Outcome.bind_eq_ok.1 h
    simp only [Outcome.pure_eq, Outcome.ok.injEq, Prod.mk.injEq] at h
    obtain ⟨-, rfl, -⟩ := h
    rcases hr : rc e.value s (some b) with _ | b1
    · rw [hr] at h2
      have hn := shiftEntries_none hnone l h2
      cases hn
    · rw [hr] at h2
      obtain ⟨j1, j2⟩ := ih h2
      refine ⟨?_, ?_⟩
      · rw [j1, hrc _ _ _ _ hr]; simp only [List.map_cons, List.sum_cons, shiftAt_ok hs]; ring
      · intro f hf
        rcases List.mem_cons.1 hf with rfl | hf
        · intro hc; rw [shiftAt_ok hs] at hc; rw [hc, hbad] at hr; cases hr
        · exact j2 f hf

theorem evalEntries_filter (l : List Entry) (x) :
    evalEntries (l.filter fun e => decide (e.value ≠ 0)) x = evalEntries l x := by
  induction l with
  | nil => rfl
  | cons e l ih =>
    rw [List.filter_cons]
    split
    · simp only [evalEntries, List.map_cons, List.sum_cons] at ih ⊢; rw [ih]
    · rename_i h
      have h0 : e.value = 0 := by simpa using h
      rw [ih]; simp [evalEntries, h0]

theorem coef_ne_zero {s : Shift} {c : ℚ} (h : c ≠ 0) : s.coef c ≠ 0 := by
  cases s <;> simpa [Shift.coef] using h

/-- The vector part of both transformations. -/
theorem shiftRow_vars {lp : LpView} {rc} {a a' : AggRow} {ok : Bool} (hv : a.vars.Good)
    (h : shiftRow lp rc a = .ok (a', ok)) :
    a'.vars.Good ∧
    a'.vars.entries = a.vars.entries.map (fun e => ⟨e.index, (shiftAt lp e.index).coef e.value⟩) ∧
    a'.slackCoefs = a.slackCoefs ∧ a'.slackSigns = a.slackSigns ∧ a'.sideValues = a.sideValues ∧
    (ok = true ↔ ∀ e ∈ a.vars.entries, (shiftAt lp e.index).isFree = false) ∧
    ∃ l, shiftEntries lp rc a.vars.entries a.rhs = .ok (l, a'.rhs, ok) := by
  unfold shiftRow at h
  obtain ⟨⟨l, r, o⟩, h1, h2⟩ := Outcome.bind_eq_ok.1 h
  have h3 := Outcome.ok.inj h2
  simp only [Prod.mk.injEq] at h3
  clear h2 h
  obtain ⟨h, rfl⟩ := h3
  obtain ⟨i1, i2, -⟩ := shiftEntries_list _ h1
  have hf : l.filter (fun e => decide (e.value ≠ 0)) = l := by
    rw [List.filter_eq_self]
    intro e he
    rw [i1] at he
    obtain ⟨d, hd, rfl⟩ := List.mem_map.1 he
    simpa using coef_ne_zero (hv.1.2 d hd).1
  subst h
  refine ⟨?_, ?_, rfl, rfl, rfl, i2, l, h1⟩
  · refine ⟨?_, hv.2⟩
    rw [hf, i1]
    exact hv.1.map (fun _ => rfl) (fun e he => coef_ne_zero he)
  · rw [hf, i1]

/-- Transformation to non-negative variables. -/
theorem toNonNegative_spec {lp : LpView} {a a' : AggRow} {ok : Bool} (hv : a.vars.Good)
    (h : toNonNegative lp a = .ok (a', ok)) :
    (∀ b', a'.rhs = some b' → ∃ b, a.rhs = some b ∧
      (∀ e ∈ a.vars.entries, shiftAt lp e.index ≠ .bad) ∧
      ∀ x, a'.vars.eval (shiftPoint lp x) - b' = a.vars.eval x - b) := by
  intro b' hb'
  obtain ⟨-, hent, -, -, -, -, l, hl⟩ := shiftRow_vars hv h
  have hnone : ∀ c s, Shift.toRhs c s none = none := by
    intro c s; cases s <;> rfl
  rcases hb : a.rhs with _ | b
  · rw [hb] at hl
    rw [hb'] at hl
    have := shiftEntries_none hnone _ hl
    cases this
  · refine ⟨b, rfl, ?_⟩
    rw [hb, hb'] at hl
    obtain ⟨j1, j2⟩ := shiftEntries_rhs hnone
      (delta := fun c s => match s with
        | .lower lb => -(c * lb)
        | .upper ub => -(c * ub)
        | _ => 0) (by
        intro c s r r' hr
        cases s <;> simp only [Shift.toRhs, Option.map_some, Option.some.injEq, reduceCtorEq] at hr <;>
          simp only <;> linarith) (by intro c r; rfl) _ hl
    refine ⟨j2, fun x => ?_⟩
    rw [j1, SparseVector.eval, SparseVector.eval, hent]
    generalize a.vars.entries = m
    induction m with
    | nil => simp [evalEntries]
    | cons e m ih =>
      simp only [evalEntries, List.map_cons, List.sum_cons, List.map_map] at ih ⊢
      have : (shiftAt lp e.index).coef e.value * shiftPoint lp x e.index -
          (match shiftAt lp e.index with
            | .lower lb => -(e.value * lb)
            | .upper ub => -(e.value * ub)
            | _ => 0) = e.value * x e.index := by
        unfold shiftPoint
        cases shiftAt lp e.index <;> simp only [Shift.coef, Shift.point] <;> ring
      linarith

/-- Transformation back. -/
theorem toOriginal_spec {lp : LpView} {a a' : AggRow} {ok : Bool} (hv : a.vars.Good)
    (h : toOriginal lp a = .ok (a', ok)) :
    (∀ b', a'.rhs = some b' → ∃ b, a.rhs = some b ∧
      ∀ x, a'.vars.eval x - b' = a.vars.eval (shiftPoint lp x) - b) := by
  intro b' hb'
  obtain ⟨-, hent, -, -, -, -, l, hl⟩ := shiftRow_vars hv h
  have hnone : ∀ c s, Shift.backRhs c s none = none := by
    intro c s; cases s <;> rfl
  rcases hb : a.rhs with _ | b
  · rw [hb] at hl
    rw [hb'] at hl
    have := shiftEntries_none hnone _ hl
    cases this
  · refine ⟨b, rfl, fun x => ?_⟩
    rw [hb, hb'] at hl
    obtain ⟨j1, -⟩ := shiftEntries_rhs hnone
      (delta := fun c s => match s with
        | .lower lb => c * lb
        | .upper ub => -(c * ub)
        | _ => 0) (by
        intro c s r r' hr
        cases s <;> simp only [Shift.backRhs, Option.map_some, Option.some.injEq, reduceCtorEq] at hr <;>
          simp only <;> linarith) (by intro c r; rfl) _ hl
    rw [j1, SparseVector.eval, SparseVector.eval, hent]
    generalize a.vars.entries = m
    induction m with
    | nil => simp [evalEntries]
    | cons e m ih =>
      simp only [evalEntries, List.map_cons, List.sum_cons, List.map_map] at ih ⊢
      have : (shiftAt lp e.index).coef e.value * x e.index -
          (match shiftAt lp e.index with
            | .lower lb => e.value * lb
            | .upper ub => -(e.value * ub)
            | _ => 0) = e.value * shiftPoint lp x e.index := by
        unfold shiftPoint
        cases shiftAt lp e.index <;> simp only [Shift.coef, Shift.point] <;> ring
      linarith

/-! ### Slack substitution -/

theorem substituteLoop_spec {lp : LpView} (hr : RowsClean lp) {signs sides : SparseVector}
    (l : List Entry) {v v' : SparseVector} {r r' : Option ℚ} (hv : v.Good)
    (h : substituteLoop lp signs sides l v r = .ok (v', r')) :
    v'.Good ∧ (∀ b', r' = some b' → ∃ b, r = some b ∧
      ∀ x, v'.eval x - b' = v.eval x - b +
        (l.map fun e => e.value * (signs.value e.index *
          (sides.value e.index - (lp.rowAt e.index).eval x))).sum) := by
  induction l generalizing v r with
  | nil =>
    simp only [substituteLoop, Outcome.ok.injEq, Prod.mk.injEq] at h
    obtain ⟨rfl, rfl⟩ := h
    exact ⟨hv, fun b' hb' => ⟨b', hb', fun x => by simp⟩⟩
  | cons e l ih =>
    simp only [substituteLoop] at h
    obtain ⟨row, hrow, h⟩ := Outcome.bind_eq_ok.1 h
    have hrow := rowAt_ok hrow; subst hrow
    obtain ⟨w, hw, h⟩ := Outcome.bind_eq_ok.1 h
    obtain ⟨g1, g2, -⟩ := eval_addMultiple hv (scale_clean (hr.rowAt e.index).1 _) hw
    obtain ⟨i1, i2⟩ := ih g1 h
    refine ⟨i1, fun b' hb' => ?_⟩
    obtain ⟨b1, hb1, hx⟩ := i2 b' hb'
    rcases r with _ | b
    · simp at hb1
    · simp only [Option.map_some, Option.some.injEq] at hb1
      refine ⟨b, rfl, fun x => ?_⟩
      rw [hx, g2, eval_scale, ← hb1]
      simp only [List.map_cons, List.sum_cons]; ring

theorem substituteSlacks_spec {lp : LpView} (hr : RowsClean lp) {a a' : AggRow} (hv : a.vars.Good)
    (h : substituteSlacks lp a = .ok a') :
    a'.vars.Good ∧ (∀ b', a'.rhs = some b' → ∃ b, a.rhs = some b ∧
      ∀ x, a'.vars.eval x - b' = a.vars.eval x + a.slackCoefs.eval (fun i =>
        a.slackSigns.value i * (a.sideValues.value i - (lp.rowAt i).eval x)) - b) := by
  unfold substituteSlacks at h
  obtain ⟨⟨v, r⟩, h1, h⟩ := Outcome.bind_eq_ok.1 h
  have h := Outcome.ok.inj h
  subst h
  obtain ⟨i1, i2⟩ := substituteLoop_spec hr _ hv h1
  refine ⟨i1, fun b' hb' => ?_⟩
  obtain ⟨b, hb, hx⟩ := i2 b' hb'
  refine ⟨b, hb, fun x => ?_⟩
  rw [hx]; simp only [SparseVector.eval, evalEntries]; ring

/-! ### Rounding -/

theorem transformM_spec {f : Int → ℚ → Outcome ℚ} {l l' : List Entry} (hl : Clean l)
    (h : transformM f l = .ok l') {g : Int → ℚ → ℚ}
    (hg : ∀ e ∈ l, ∀ y, f e.index e.value = .ok y → y = g e.index e.value) :
    Clean l' ∧ (∀ e ∈ l', ∃ d ∈ l, d.index = e.index) ∧
      (∀ x, evalEntries l' x = (l.map fun e => g e.index e.value * x e.index).sum) ∧
      ∀ e ∈ l, ∃ y, f e.index e.value = .ok y := by
  induction l generalizing l' with
  | nil => simp only [transformM, Outcome.ok.injEq] at h; subst h; simp [evalEntries, Clean, StrictSorted]
  | cons e l ih =>
    simp only [transformM] at h
    obtain ⟨y, hy, h⟩ := Outcome.bind_eq_ok.1 h
    obtain ⟨m, hm, h⟩ := Outcome.bind_eq_ok.1 h
    simp only [Outcome.pure_eq, Outcome.ok.injEq] at h
    have hl2 : Clean l := ⟨(List.pairwise_cons.1 hl.1).2, fun f hf => hl.2 f (by simp [hf])⟩
    obtain ⟨i1, i2, i3, i4⟩ := ih hl2 hm (fun d hd => hg d (by simp [hd]))
    have hyg := hg e (by simp) y hy
    have hlt := (List.pairwise_cons.1 hl.1).1
    refine ⟨?_, ?_, ?_, ?_⟩
    · rw [← h]
      split
      · rename_i hne
        refine ⟨List.pairwise_cons.2 ⟨?_, i1.1⟩, ?_⟩
        · intro d hd
          obtain ⟨c, hc, hcd⟩ := i2 d hd
          rw [← hcd]; exact hlt c hc
        · intro d hd
          rcases List.mem_cons.1 hd with rfl | hd
          · exact ⟨hne, (hl.2 e (by simp)).2⟩
          · exact i1.2 d hd
      · exact i1
    · rw [← h]
      intro d hd
      split at hd
      · rcases List.mem_cons.1 hd with rfl | hd
        · exact ⟨e, by simp, rfl⟩
        · obtain ⟨c, hc, hcd⟩ := i2 d hd; exact ⟨c, by simp [hc], hcd⟩
      · obtain ⟨c, hc, hcd⟩ := i2 d hd; exact ⟨c, by simp [hc], hcd⟩
    · intro x
      rw [List.map_cons, List.sum_cons, ← i3 x, ← h]
      split
      · simp [evalEntries, hyg]
      · rename_i h0
        have h0 : y = 0 := by simpa using h0
        rw [← hyg, h0]; ring
    · intro d hd
      rcases List.mem_cons.1 hd with rfl | hd
      · exact ⟨y, hy⟩
      · exact i4 d hd

theorem transform_spec {v : SparseVector} (hv : v.Good) (f : Int → ℚ → ℚ) :
    (v.transform f).Good ∧ (∀ e ∈ (v.transform f).entries, ∃ d ∈ v.entries, d.index = e.index) ∧
      ∀ x, (v.transform f).eval x = (v.entries.map fun e => f e.index e.value * x e.index).sum := by
  obtain ⟨h1, h2, -⟩ := SparseVector.C06_transform v hv.1 hv.2 f
  refine ⟨⟨h1, h2⟩, ?_, fun x => ?_⟩
  · intro e he
    simp only [SparseVector.transform, List.mem_filter, List.mem_map] at he
    obtain ⟨⟨d, hd, rfl⟩, -⟩ := he
    exact ⟨d, hd, rfl⟩
  · have : (v.transform f).eval x =
        evalEntries (v.entries.map fun e => ⟨e.index, f e.index e.value⟩) x := by
      rw [← evalEntries_filter]; rfl
    rw [this]; simp only [evalEntries, List.map_map]; rfl

/-- `tol`-rounding of a number does not move it upwards. -/
def RoundsDown (tol v : ℚ) : Prop := |v - roundAway v| ≤ tol → (roundAway v : ℚ) ≤ v
/-- `tol`-rounding of a number does not move it downwards. -/
def RoundsUp (tol v : ℚ) : Prop := |v - roundAway v| ≤ tol → v ≤ roundAway v

theorem near_iff (tol v : ℚ) : isIntegerWithinTolerance tol v = true ↔ |v - roundAway v| ≤ tol := by
  simp [isIntegerWithinTolerance]

theorem abs_sub_round (v : ℚ) : |v - roundAway v| ≤ 1 / 2 := by
  have h := abs_sub_roundAway_le v ⌊v + 1 / 2⌋
  have h1 := Int.floor_le (v + 1 / 2)
  have h2 := Int.lt_floor_add_one (v + 1 / 2)
  refine h.trans ?_
  rw [abs_le]; constructor <;> linarith

theorem round_eq_floor {v : ℚ} (h : (roundAway v : ℚ) ≤ v) : roundAway v = ⌊v⌋ := by
  symm
  rw [Int.floor_eq_iff]
  have := abs_le.1 (abs_sub_round v)
  exact ⟨h, by linarith⟩

/-- The rounded coefficient of an integer variable under a harmless tolerance. -/
theorem floorTol_of_roundsDown {tol v : ℚ} (h : RoundsDown tol v) :
    floorWithTolerance tol v = ⌊v⌋ ∧
      (fractionality tol v = 0 ∨ fractionality tol v = v - ⌊v⌋) := by
  unfold floorWithTolerance fractionality
  by_cases hn : isIntegerWithinTolerance tol v = true
  · have := round_eq_floor (h ((near_iff _ _).1 hn))
    simp [hn, this]
  · simp [hn]

theorem mirRoundInteger_term {tol c f0 : ℚ} (hc : RoundsDown tol c) (hf0 : 0 ≤ f0) :
    mirRoundInteger tol c f0 ≤ ⌊c⌋ ∨
      (f0 < c - ⌊c⌋ ∧ mirRoundInteger tol c f0 ≤ ⌊c⌋ + (c - ⌊c⌋ - f0) / (1 - f0)) := by
  obtain ⟨h1, h2⟩ := floorTol_of_roundsDown hc
  unfold mirRoundInteger
  simp only
  split
  · left; rw [h1]
  · rename_i hlt
    right
    rcases h2 with h2 | h2
    · rw [h2] at hlt; exact absurd hf0 hlt
    · rw [h2] at hlt ⊢
      exact ⟨not_le.1 hlt, by rw [h1]⟩

theorem cgRoundInteger_term {tol c k f0 : ℚ} (hc : RoundsDown tol c) (hf0 : 0 ≤ f0) :
    cgRoundInteger tol c k f0 ≤ ⌊c⌋ ∨
      (f0 < c - ⌊c⌋ ∧
        cgRoundInteger tol c k f0 ≤ ⌊c⌋ + (⌈k * (c - ⌊c⌋ - f0) / (1 - f0)⌉ : ℚ) / (k + 1)) := by
  obtain ⟨h1, h2⟩ := floorTol_of_roundsDown hc
  unfold cgRoundInteger
  simp only
  split
  · left; rw [h1]; simp
  · rename_i hlt
    right
    rcases h2 with h2 | h2
    · rw [h2] at hlt; exact absurd hf0 hlt
    · rw [h2] at hlt ⊢
      exact ⟨not_le.1 hlt, by rw [h1]⟩

/-- The right-hand side used in the rounding argument: itself, or the integer it is rounded
to. -/
theorem rhs_rounding {tol b : ℚ} (h : RoundsUp tol b) :
    ∃ b', b ≤ b' ∧ floorWithTolerance tol b = ⌊b'⌋ ∧ fractionality tol b = b' - ⌊b'⌋ := by
  unfold floorWithTolerance fractionality
  by_cases hn : isIntegerWithinTolerance tol b = true
  · exact ⟨roundAway b, h ((near_iff _ _).1 hn), by simp [hn], by simp [hn]⟩
  · exact ⟨b, le_refl _, by simp [hn], by simp [hn]⟩

/-- What is known about the point, as seen from the transformed row: all variables and slacks
are non-negative, and integer where the generator takes them to be. -/
structure PointOk (c : GenContext) (a : AggRow) (x s : Int → ℚ) : Prop where
  varsNonneg : ∀ e ∈ a.vars.entries, 0 ≤ x e.index
  varsInt : ∀ e ∈ a.vars.entries, c.isInteger e.index = true → ∃ k : Int, x e.index = k
  slacksNonneg : ∀ e ∈ a.slackCoefs.entries, 0 ≤ s e.index
  slacksInt : ∀ e ∈ a.slackCoefs.entries, c.integralRow[e.index.toNat]? = some true →
    ∃ k : Int, s e.index = k

/-- The tolerance only relaxes the row. -/
structure HarmlessTolerance (tol : ℚ) (a : AggRow) : Prop where
  vars : ∀ e ∈ a.vars.entries, RoundsDown tol e.value
  slacks : ∀ e ∈ a.slackCoefs.entries, RoundsDown tol e.value
  rhs : ∀ b, a.rhs = some b → RoundsUp tol b

open Rounding in
/-- The terms of an aggregated row with a given rounding. -/
def terms (c : GenContext) (a : AggRow) (x s : Int → ℚ) (fv fs : Int → ℚ → ℚ) : List Term :=
  a.vars.entries.map (fun e => ⟨c.isInteger e.index, e.value, fv e.index e.value, x e.index⟩) ++
  a.slackCoefs.entries.map (fun e =>
    ⟨c.integralRow[e.index.toNat]? == some true, e.value, fs e.index e.value, s e.index⟩)

theorem terms_lhs (c : GenContext) (a : AggRow) (x s fv fs) :
    Rounding.lhs (terms c a x s fv fs) = a.vars.eval x + a.slackCoefs.eval s := by
  simp [Rounding.lhs, terms, SparseVector.eval, evalEntries, List.map_map, Function.comp_def]

theorem terms_rounded (c : GenContext) (a : AggRow) (x s fv fs) :
    Rounding.lhsRounded (terms c a x s fv fs) =
      (a.vars.entries.map fun e => fv e.index e.value * x e.index).sum +
      (a.slackCoefs.entries.map fun e => fs e.index e.value * s e.index).sum := by
  simp [Rounding.lhsRounded, terms, List.map_map, Function.comp_def]

/-- What a rounder must achieve. -/
structure Rounded (a r : AggRow) : Prop where
  vars : r.vars.Good
  slacks : r.slackCoefs.Good
  varIdx : ∀ e ∈ r.vars.entries, ∃ d ∈ a.vars.entries, d.index = e.index
  slackIdx : ∀ e ∈ r.slackCoefs.entries, ∃ d ∈ a.slackCoefs.entries, d.index = e.index
  signs : r.slackSigns = a.slackSigns
  sides : r.sideValues = a.sideValues

theorem mirRound_spec {c : GenContext} {a r : AggRow} (hv : a.vars.Good) (hs : a.slackCoefs.Good)
    (h : mirRound c a = .ok (some r)) :
    ∃ b b', a.rhs = some b ∧ r.rhs = some b' ∧ Rounded a r ∧
      (∀ e ∈ a.slackCoefs.entries, ∃ f, listAt c.integralRow e.index = .ok f) ∧
      (HarmlessTolerance c.tol a → ∀ x s, PointOk c a x s → a.vars.eval x + a.slackCoefs.eval s ≤ b →
        r.vars.eval x + r.slackCoefs.eval s ≤ b') := by
  unfold mirRound at h
  split at h
  · obtain ⟨_, -, h⟩ := Outcome.bind_eq_ok.1 h
    simp at h
  rename_i b hb
  simp only at h
  obtain ⟨l, hl, h2⟩ := Outcome.bind_eq_ok.1 h
  have h3 := Option.some.inj (Outcome.ok.inj h2)
  clear h2 h
  set f0 := fractionality c.tol b with hf0
  set fv : Int → ℚ → ℚ := fun col x =>
    if c.isInteger col = true then mirRoundInteger c.tol x f0 else mirRoundContinuous x f0 with hfv
  set fs : Int → ℚ → ℚ := fun row x =>
    if c.integralRow[row.toNat]? = some true then mirRoundInteger c.tol x f0
    else mirRoundContinuous x f0 with hfs
  obtain ⟨t1, t2, t3⟩ := transform_spec hv fv
  obtain ⟨s1, s2, s3, s4⟩ := transformM_spec hs.1 hl (g := fs) (by
    intro e _ y hy
    obtain ⟨i, hi, hy⟩ := Outcome.bind_eq_ok.1 hy
    have hi := (listAt_eq_ok.1 hi).2
    have hy := Outcome.ok.inj hy
    rw [← hy, hfs]; simp only [hi, Option.some.injEq])
  refine ⟨b, floorWithTolerance c.tol b, hb, by rw [← h3], ?_, ?_, ?_⟩
  · rw [← h3]
    exact { vars := t1
            slacks := ⟨s1, hs.2⟩
            varIdx := t2
            slackIdx := s2
            signs := rfl
            sides := rfl }
  · intro e he
    obtain ⟨y, hy⟩ := s4 e he
    obtain ⟨i, hi, -⟩ := Outcome.bind_eq_ok.1 hy
    exact ⟨i, hi⟩
  · intro htol x s hp hle
    obtain ⟨b1, hb1, hfl, hfr⟩ := rhs_rounding (htol.rhs b hb)
    have hf00 : 0 ≤ f0 := by rw [hf0, hfr]; have := Int.floor_le b1; linarith
    have key := Rounding.mir_valid b1 (terms c a x s fv fs) (by
      rw [← hfr, ← hf0]
      intro t ht
      unfold terms at ht
      rcases List.mem_append.1 ht with ht | ht
      · obtain ⟨e, he, rfl⟩ := List.mem_map.1 ht
        refine ⟨hp.varsNonneg e he, ?_⟩
        simp only
        by_cases hi : c.isInteger e.index = true
        · left
          refine ⟨hi, hp.varsInt e he hi, ?_⟩
          simp only [hfv, hi, if_true]
          exact mirRoundInteger_term (htol.vars e he) hf00
        · right
          simp only [hfv, hi, mirRoundContinuous, Bool.false_eq_true, if_false]
          split
          · rename_i h0; exact Or.inl ⟨h0, le_refl _⟩
          · rename_i h0; exact Or.inr ⟨not_le.1 h0, le_refl _⟩
      · obtain ⟨e, he, rfl⟩ := List.mem_map.1 ht
        refine ⟨hp.slacksNonneg e he, ?_⟩
        simp only
        by_cases hi : c.integralRow[e.index.toNat]? = some true
        · left
          refine ⟨by simp [hi], hp.slacksInt e he hi, ?_⟩
          simp only [hfs, hi, if_true]
          exact mirRoundInteger_term (htol.slacks e he) hf00
        · right
          simp only [hfs, hi, mirRoundContinuous, if_false]
          split
          · rename_i h0; exact Or.inl ⟨h0, le_refl _⟩
          · rename_i h0; exact Or.inr ⟨not_le.1 h0, le_refl _⟩)
      (by rw [terms_lhs]; linarith)
    rw [terms_rounded] at key
    rw [hfl, ← h3]
    have e1 := t3 s
    have e2 := s3 s
    simp only [SparseVector.eval] at *
    rw [t3 x, s3 s]; exact key

theorem slacksAllowCG_spec {c : GenContext} {l : List Entry} (h : slacksAllowCG c l = .ok true) :
    ∀ e ∈ l, c.integralRow[e.index.toNat]? = some true ∧ 0 ≤ e.index ∧ 0 ≤ e.value := by
  induction l with
  | nil => simp
  | cons e l ih =>
    simp only [slacksAllowCG] at h
    obtain ⟨i, hi, h⟩ := Outcome.bind_eq_ok.1 h
    split at h
    · rename_i hc
      simp only [Bool.and_eq_true, decide_eq_true_eq] at hc
      obtain ⟨rfl, h0⟩ := hc
      intro d hd
      rcases List.mem_cons.1 hd with rfl | hd
      · exact ⟨(listAt_eq_ok.1 hi).2, (listAt_eq_ok.1 hi).1, h0⟩
      · exact ih h d hd
    · simp at h

theorem strongCGRound_spec {c : GenContext} {a r : AggRow} (hv : a.vars.Good) (hs : a.slackCoefs.Good)
    (h : strongCGRound c a = .ok (some r)) :
    ∃ b b', a.rhs = some b ∧ r.rhs = some b' ∧ Rounded a r ∧
      (∀ e ∈ a.slackCoefs.entries, c.integralRow[e.index.toNat]? = some true ∧ 0 ≤ e.index) ∧
      (HarmlessTolerance c.tol a →
        (∀ e ∈ a.vars.entries, c.isInteger e.index = false → 0 ≤ e.value) →
        ∀ x s, PointOk c a x s → a.vars.eval x + a.slackCoefs.eval s ≤ b →
        r.vars.eval x + r.slackCoefs.eval s ≤ b') := by
  unfold strongCGRound at h
  obtain ⟨ok, hok, h⟩ := Outcome.bind_eq_ok.1 h
  cases ok with
  | false => simp at h
  | true =>
  have hsl := slacksAllowCG_spec hok
  simp only [Bool.not_true, Bool.false_eq_true, if_false] at h
  split at h
  · simp at h
  rename_i hvars
  split at h
  · simp at h
  rename_i b hb
  split at h
  · simp at h
  rename_i hnan
  obtain ⟨l, hl, h2⟩ := Outcome.bind_eq_ok.1 h
  have h3 := Option.some.inj (Outcome.ok.inj h2)
  clear h2 h
  set f0 := fractionality c.tol b with hf0
  set k : ℚ := ⌈1 / f0⌉ - 1 with hk
  set rd : ℚ → ℚ := fun x => if f0 = 0 then floorWithTolerance c.tol x else cgRoundInteger c.tol x k f0
    with hrd
  set fv : Int → ℚ → ℚ := fun col x => if c.isInteger col = true then rd x else 0 with hfv
  set fs : Int → ℚ → ℚ := fun row x => if c.integralRow[row.toNat]? = some true then rd x else 0 with hfs
  obtain ⟨t1, t2, t3⟩ := transform_spec hv fv
  obtain ⟨s1, s2, s3, s4⟩ := transformM_spec hs.1 hl (g := fs) (by
    intro e _ y hy
    obtain ⟨i, hi, hy⟩ := Outcome.bind_eq_ok.1 hy
    have hi := (listAt_eq_ok.1 hi).2
    have hy := Outcome.ok.inj hy
    rw [← hy, hfs]; simp only [hi, Option.some.injEq, hrd])
  refine ⟨b, floorWithTolerance c.tol b, hb, by rw [← h3], ?_, fun e he => ⟨(hsl e he).1, (hsl e he).2.1⟩, ?_⟩
  · rw [← h3]
    exact { vars := t1
            slacks := ⟨s1, hs.2⟩
            varIdx := t2
            slackIdx := s2
            signs := rfl
            sides := rfl }
  · intro htol hcont x s hp hle
    obtain ⟨b1, hb1, hfl, hfr⟩ := rhs_rounding (htol.rhs b hb)
    have hf00 : 0 ≤ f0 := by rw [hf0, hfr]; have := Int.floor_le b1; linarith
    have goal : Rounding.lhsRounded (terms c a x s fv fs) ≤ floorWithTolerance c.tol b := by
      by_cases hz : f0 = 0
      · -- no fraction: the coefficients are rounded down
        have hb2 : (⌊b1⌋ : ℚ) = b1 := by rw [hf0, hfr] at hz; linarith
        rw [hfl, hb2]
        refine le_trans ?_ hb1
        refine le_trans ?_ hle
        rw [← terms_lhs c a x s fv fs]
        unfold Rounding.lhsRounded Rounding.lhs
        apply List.sum_le_sum
        intro t ht
        unfold terms at ht
        have rdle : ∀ v, RoundsDown c.tol v → rd v ≤ v := by
          intro v hv
          simp only [hrd, hz, if_true]
          rw [(floorTol_of_roundsDown hv).1]; exact Int.floor_le v
        rcases List.mem_append.1 ht with ht | ht
        · obtain ⟨e, he, rfl⟩ := List.mem_map.1 ht
          apply mul_le_mul_of_nonneg_right _ (hp.varsNonneg e he)
          simp only [hfv]
          split
          · exact rdle _ (htol.vars e he)
          · rename_i hi; exact hcont e he (by simpa using hi)
        · obtain ⟨e, he, rfl⟩ := List.mem_map.1 ht
          apply mul_le_mul_of_nonneg_right _ (hp.slacksNonneg e he)
          simp only [hfs]
          split
          · exact rdle _ (htol.slacks e he)
          · exact (hsl e he).2.2
      · have hpos : 0 < b1 - ⌊b1⌋ := by
          rw [← hfr, ← hf0]; exact lt_of_le_of_ne hf00 (Ne.symm hz)
        rw [hfl]
        apply Rounding.cg_valid b1 k hpos (by rw [hk, ← hfr])
        · rw [← hfr, ← hf0]
          intro t ht
          unfold terms at ht
          rcases List.mem_append.1 ht with ht | ht
          · obtain ⟨e, he, rfl⟩ := List.mem_map.1 ht
            refine ⟨hp.varsNonneg e he, ?_⟩
            simp only
            by_cases hi : c.isInteger e.index = true
            · left
              refine ⟨hi, hp.varsInt e he hi, ?_⟩
              simp only [hfv, hi, if_true, hrd, hz, if_false]
              exact cgRoundInteger_term (htol.vars e he) hf00
            · right
              simp only [hfv, hi]
              exact ⟨hcont e he (by simpa using hi), by simp⟩
          · obtain ⟨e, he, rfl⟩ := List.mem_map.1 ht
            refine ⟨hp.slacksNonneg e he, ?_⟩
            simp only
            left
            have hi := (hsl e he).1
            refine ⟨by simp [hi], hp.slacksInt e he hi, ?_⟩
            simp only [hfs, hi, if_true, hrd, hz, if_false]
            exact cgRoundInteger_term (htol.slacks e he) hf00
        · rw [terms_lhs]; linarith
    rw [terms_rounded] at goal
    rw [← h3]
    simp only [SparseVector.eval] at *
    rw [t3 x, s3 s]; exact goal

end Generator
end MiniMip
