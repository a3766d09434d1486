import Verif.Model.MipData
import Verif.Props.Problem
import Verif.Props.SparseMatrix

/-!
# Properties C09-C11: `MipData`

Points assign a rational value to every variable index.
-/

namespace MiniMip
open SparseVector (Clean Inv)

/-- The value of the linear form with the given entries at a point. -/
def evalEntries (l : List Entry) (x : Int → ℚ) : ℚ := (l.map fun e => e.value * x e.index).sum

/-- The value of a sparse vector, as a linear form, at a point. -/
def SparseVector.eval (v : SparseVector) (x : Int → ℚ) : ℚ := evalEntries v.entries x

/-- The user's constraint at a point: the sum over the listed terms. -/
def Constraint.activity (c : Constraint) (x : Int → ℚ) : ℚ :=
  ((c.varIndices.zip c.coefficients).map fun t => t.2 * x t.1).sum

/-- The user's objective at a point, without the offset: variable `j` is the `j`-th one. -/
def objectiveFrom (k : Nat) : List Variable → (Int → ℚ) → ℚ
  | [], _ => 0
  | v :: r, x => v.objective * x k + objectiveFrom (k + 1) r x

/-- The user's objective with offset. -/
def Problem.userObjective (p : Problem) (x : Int → ℚ) : ℚ := objectiveFrom 0 p.vars x + p.offset

/-! ### Lemmas on linear forms -/

theorem evalEntries_append (l m : List Entry) (x) :
    evalEntries (l ++ m) x = evalEntries l x + evalEntries m x := by simp [evalEntries]

theorem eval_addEntry (v : SparseVector) (i : Int) (a : ℚ) (x) :
    (v.addEntry i a).eval x = v.eval x + a * x i := by
  unfold SparseVector.addEntry SparseVector.eval
  split
  · simp [evalEntries]
  · split
    · simp [evalEntries]
    · split
      · rename_i h; simp [h]
      · simp [evalEntries]

theorem evalEntries_insertStable (e : Entry) (l x) :
    evalEntries (SparseVector.insertStable e l) x = e.value * x e.index + evalEntries l x := by
  induction l with
  | nil => simp [SparseVector.insertStable, evalEntries]
  | cons f r ih =>
    simp only [SparseVector.insertStable]
    split
    · simp [evalEntries]
    · simp only [evalEntries, List.map_cons, List.sum_cons] at ih ⊢
      rw [ih]; ring

theorem evalEntries_stableSort (l x) :
    evalEntries (SparseVector.stableSort l) x = evalEntries l x := by
  induction l with
  | nil => rfl
  | cons e r ih =>
    rw [SparseVector.stableSort, evalEntries_insertStable, ih]; simp [evalEntries]

theorem insertStable_perm (e : Entry) (l) : (SparseVector.insertStable e l).Perm (e :: l) := by
  induction l with
  | nil => simp [SparseVector.insertStable]
  | cons f r ih =>
    simp only [SparseVector.insertStable]
    split
    · rfl
    · exact (ih.cons f).trans (List.Perm.swap ..)

theorem stableSort_perm (l) : (SparseVector.stableSort l).Perm l := by
  induction l with
  | nil => rfl
  | cons e r ih => exact (insertStable_perm e _).trans (ih.cons e)

theorem evalEntries_compact {l : List Entry} (h : (l.map (·.index)).Nodup) (x) :
    evalEntries (SparseVector.compact l) x = evalEntries l x := by
  induction l using SparseVector.compact.induct with
  | case1 => rfl
  | case2 e hz => simp [SparseVector.compact, hz, evalEntries]
  | case3 e hz => simp [SparseVector.compact, hz, evalEntries]
  | case4 e f r heq ih => simp [heq] at h
  | case5 e f r hne hz ih =>
    rw [SparseVector.compact, if_neg hne, if_pos hz, ih (by simp at h ⊢; tauto)]
    simp [evalEntries, hz]
  | case6 e f r hne hz ih =>
    rw [SparseVector.compact, if_neg hne, if_neg hz]
    have := ih (by simp at h ⊢; tauto)
    simp only [evalEntries, List.map_cons, List.sum_cons] at this ⊢
    rw [this]

/-- Cleaning a vector without duplicate indices does not change the linear form. -/
theorem eval_cleanUp {v : SparseVector} (h : (v.entries.map (·.index)).Nodup) (x) :
    v.cleanUpIfNeeded.eval x = v.eval x := by
  unfold SparseVector.cleanUpIfNeeded SparseVector.eval
  split
  · rw [evalEntries_compact, evalEntries_stableSort]
    exact ((stableSort_perm v.entries).map _).nodup_iff.2 h
  · rfl

theorem addEntry_indices_sublist (v : SparseVector) (i : Int) (a : ℚ) :
    ((v.addEntry i a).entries).Sublist (v.entries ++ [⟨i, a⟩]) := by
  unfold SparseVector.addEntry
  split
  · simp
  · split
    · simp
    · split
      · simp
      · simp

/-! ### The loops of the constructor -/

namespace MipData

/-- The linear form, the indices and the invariant of the row built from a constraint. -/
theorem buildRow_spec (is : List Int) (as : List ℚ) (v : SparseVector)
    (hlen : is.length = as.length) (hv : Inv v) (hpos : ∀ i ∈ is, 0 ≤ i) :
    ∃ w, buildRow v is as = .ok w ∧ Inv w ∧
      w.entries.Sublist (v.entries ++ (is.zip as).map fun t => ⟨t.1, t.2⟩) ∧
      (∀ t ∈ is.zip as, t.2 ≠ 0 → ⟨t.1, t.2⟩ ∈ w.entries) ∧ (∀ e ∈ v.entries, e ∈ w.entries) ∧
      ∀ x, w.eval x = v.eval x + ((is.zip as).map fun t => t.2 * x t.1).sum := by
  induction is generalizing as v with
  | nil => exact ⟨v, rfl, hv, by simp, by simp, by simp, by simp⟩
  | cons i is ih =>
    cases as with
    | nil => simp at hlen
    | cons a as =>
      obtain ⟨w, h1, h2, h3, h4, h5, h6⟩ := ih as (v.addEntry i a) (by simpa using hlen)
        (SparseVector.Inv.addEntry hv (hpos i (by simp)) a) (fun j hj => hpos j (by simp [hj]))
      refine ⟨w, h1, h2, ?_, ?_, ?_, ?_⟩
      · refine h3.trans ?_
        have := (addEntry_indices_sublist v i a).append_right
          ((is.zip as).map fun t => (⟨t.1, t.2⟩ : Entry))
        simpa using this
      · intro t ht hne
        simp only [List.zip_cons_cons, List.mem_cons] at ht
        rcases ht with rfl | ht
        · apply h5
          unfold SparseVector.addEntry
          split
          · simp
          · split
            · simp
            · have : a ≠ 0 := hne
              simp [this]
        · exact h4 t ht hne
      · intro e he
        apply h5
        unfold SparseVector.addEntry
        split
        · simp [he]
        · split
          · simp [he]
          · split
            · exact he
            · simp [he]
      · intro x
        rw [h6, eval_addEntry]
        simp; ring

theorem mem_insertInt {l : List Int} {i j : Int} : j ∈ insertInt l i ↔ j ∈ l ∨ j = i := by
  unfold insertInt
  split
  · constructor
    · exact Or.inl
    · rintro (h | rfl) <;> assumption
  · simp

theorem nodup_insertInt {l : List Int} (h : l.Nodup) (i : Int) : (insertInt l i).Nodup := by
  unfold insertInt
  split
  · exact h
  · rename_i hi
    rw [List.nodup_append]
    exact ⟨h, by simp, fun a ha b hb => by simp at hb; subst hb; rintro rfl; exact hi ha⟩

/-- Everything about the loop over the variables. -/
theorem addVariables_spec (vs : List Variable) (d : MipData) (k : Nat)
    (hI : Inv d.objective) (hlt : ∀ e ∈ d.objective.entries, e.index < k)
    (hnd : (d.objective.entries.map (·.index)).Nodup) (hn : d.integerVariables.Nodup)
    (hb : ∀ v ∈ vs, v.isInteger = true → Dbl.le v.lower v.upper = true) :
    ∃ d', addVariables d k vs = .ok d' ∧
      d'.lower = d.lower ++ vs.map (·.lower) ∧ d'.upper = d.upper ++ vs.map (·.upper) ∧
      d'.isIntegerType = d.isIntegerType ++ vs.map (·.isInteger) ∧
      d'.variableNames = d.variableNames ++ vs.map (·.name) ∧
      (∀ j, j ∈ d'.integerVariables ↔ j ∈ d.integerVariables ∨
        ∃ (n : Nat) (v : Variable), vs[n]? = some v ∧ v.isInteger = true ∧ j = ((k + n : Nat) : Int)) ∧
      d'.integerVariables.Nodup ∧
      Inv d'.objective ∧ (∀ e ∈ d'.objective.entries, e.index < k + vs.length) ∧
      (d'.objective.entries.map (·.index)).Nodup ∧
      (∀ x, d'.objective.eval x = d.objective.eval x + objectiveFrom k vs x) ∧
      d'.matrix = d.matrix ∧ d'.offset = d.offset ∧ d'.name = d.name ∧
      d'.wasMaximization = d.wasMaximization ∧ d'.lhs = d.lhs ∧ d'.rhs = d.rhs ∧
      d'.constraintNames = d.constraintNames ∧ d'.isIntegralConstraint = d.isIntegralConstraint := by
  induction vs generalizing d k with
  | nil =>
    exact ⟨d, rfl, by simp, by simp, by simp, by simp, by simp, hn, hI, by simpa using hlt, hnd,
      by simp [objectiveFrom], rfl, rfl, rfl, rfl, rfl, rfl, rfl, rfl⟩
  | cons v vs ih =>
    have hchk : (!v.isInteger || Dbl.le v.lower v.upper) = true := by
      have := hb v (by simp)
      cases hv : v.isInteger <;> simp_all
    have hsub : ∀ e ∈ (if v.objective ≠ 0 then d.objective.addEntry k v.objective
        else d.objective).entries, e ∈ d.objective.entries ∨ e.index = k := by
      intro e he
      split at he
      · exact SparseMatrix.addEntry_mem he
      · exact Or.inl he
    have hI' : Inv (if v.objective ≠ 0 then d.objective.addEntry k v.objective else d.objective) := by
      split
      · exact SparseVector.Inv.addEntry hI (by omega) _
      · exact hI
    have hnd' : ((if v.objective ≠ 0 then d.objective.addEntry k v.objective
        else d.objective).entries.map (·.index)).Nodup := by
      split
      · refine List.Nodup.sublist ((addEntry_indices_sublist d.objective k v.objective).map _) ?_
        rw [List.map_append, List.nodup_append]
        refine ⟨hnd, by simp, ?_⟩
        intro a ha b hb'
        simp only [List.map_cons, List.map_nil, List.mem_singleton] at hb'
        subst hb'
        obtain ⟨e, he, rfl⟩ := List.mem_map.1 ha
        have := hlt e he; omega
      · exact hnd
    have hn' : (if v.isInteger = true then insertInt d.integerVariables k
        else d.integerVariables).Nodup := by
      split
      · exact nodup_insertInt hn _
      · exact hn
    obtain ⟨d', h1, h2, h3, h4, h5, h6, h7, h8, h9, h10, h11, h12, h13, h14, h15, h16, h17, h18, h19⟩ :=
      ih { d with
        lower := d.lower ++ [v.lower]
        upper := d.upper ++ [v.upper]
        isIntegerType := d.isIntegerType ++ [v.isInteger]
        integerVariables := if v.isInteger then insertInt d.integerVariables k else d.integerVariables
        variableNames := d.variableNames ++ [v.name]
        objective := if v.objective ≠ 0 then d.objective.addEntry k v.objective else d.objective }
        (k + 1) hI' (fun e he => by rcases hsub e he with h | h <;> [have := hlt e h; skip] <;> omega)
        hnd' hn' (fun w hw => hb w (by simp [hw]))
    refine ⟨d', ?_, by simp [h2], by simp [h3], by simp [h4], by simp [h5], ?_, h7, h8, ?_, h10, ?_,
      h12, h13, h14, h15, h16, h17, h18, h19⟩
    · simp only [addVariables, addVariable, hchk, Outcome.check, if_true, Outcome.bind_ok,
        Outcome.pure_eq]
      exact h1
    · intro j
      rw [h6]
      constructor
      · rintro (h | ⟨n, w, hw, hwi, rfl⟩)
        · simp only at h
          split at h
          · rename_i hvi
            rcases mem_insertInt.1 h with h | rfl
            · exact Or.inl h
            · exact Or.inr ⟨0, v, by simp, hvi, by simp⟩
          · exact Or.inl h
        · exact Or.inr ⟨n + 1, w, by simpa using hw, hwi, by omega⟩
      · rintro (h | ⟨n, w, hw, hwi, rfl⟩)
        · left; simp only
          split
          · exact mem_insertInt.2 (Or.inl h)
          · exact h
        · cases n with
          | zero =>
            simp only [List.getElem?_cons_zero, Option.some.injEq] at hw
            subst hw
            left; simp only [hwi, if_true]
            exact mem_insertInt.2 (Or.inr (by simp))
          | succ n => exact Or.inr ⟨n, w, by simpa using hw, hwi, by omega⟩
    · intro e he; have := h9 e he; simp only [List.length_cons]; omega
    · intro x
      rw [h11]
      simp only [objectiveFrom]
      split
      · rw [eval_addEntry]; ring
      · rename_i hz; simp only [ne_eq, not_not] at hz; rw [hz]; ring

/-- What the constructor stores for one constraint. -/
structure RowOk (d : MipData) (row : SparseVector) (flag : Bool) (c : Constraint) : Prop where
  clean : Clean row.entries
  eval : ∀ x, row.eval x = c.activity x
  sound : flag = true → ∀ e ∈ row.entries, (∃ k : Int, e.value = k) ∧ e.index ∈ d.integerVariables
  complete : (∀ t ∈ c.varIndices.zip c.coefficients, (∃ k : Int, t.2 = k) ∧ t.1 ∈ d.integerVariables) →
    flag = true

theorem roundAway_int (k : Int) : roundAway (k : ℚ) = k := by
  unfold roundAway
  split
  · rw [Int.floor_intCast_add]; norm_num
  · rw [Int.ceil_eq_iff]; constructor <;> norm_num

theorem isIntegralCoefficient_iff (q : ℚ) : isIntegralCoefficient q = true ↔ ∃ k : Int, q = k := by
  unfold isIntegralCoefficient
  rw [decide_eq_true_iff]
  constructor
  · intro h; exact ⟨_, h⟩
  · rintro ⟨k, rfl⟩; rw [roundAway_int]

/-- Everything about the loop over the constraints. -/
theorem addConstraints_spec (n : Nat) (cs : List Constraint) (d : MipData) (k : Nat)
    (t : SparseMatrix.Table) (hR : SparseMatrix.Rel d.matrix t) (htc : t.nc = n)
    (htr : t.nr = k + cs.length) (hcs : ∀ c ∈ cs, c.WellFormed n) :
    ∃ d' t', addConstraints d k cs = .ok d' ∧ SparseMatrix.Rel d'.matrix t' ∧ t'.nc = n ∧
      t'.nr = t.nr ∧
      (∀ r, r < k → ∀ c, t'.cell c r = t.cell c r) ∧
      (∃ flags, flags.length = cs.length ∧ d'.isIntegralConstraint = d.isIntegralConstraint ++ flags ∧
        ∀ (j : Nat) (c : Constraint), cs[j]? = some c → ∃ row flag, flags[j]? = some flag ∧
          (∀ e ∈ row.entries, e.index < (n : Int)) ∧
          (∀ i : Nat, row.value i = t'.cell i (k + j)) ∧ RowOk d row flag c) ∧
      d' = { d with
        lhs := d.lhs ++ cs.map (·.lhs)
        rhs := d.rhs ++ cs.map (·.rhs)
        constraintNames := d.constraintNames ++ cs.map (·.name)
        isIntegralConstraint := d'.isIntegralConstraint
        matrix := d'.matrix } := by
  induction cs generalizing d k t with
  | nil =>
    refine ⟨d, t, rfl, hR, htc, rfl, fun _ _ _ => rfl, ⟨[], rfl, by simp, by simp⟩, by simp⟩
  | cons c cs ih =>
    obtain ⟨-, -, hlen, hnd, hidx⟩ := hcs c (by simp)
    obtain ⟨w, hw1, hw2, hw3, hw4, -, hw6⟩ := buildRow_spec c.varIndices c.coefficients {} hlen
      SparseVector.Inv.init (fun i hi => (hidx i hi).1)
    simp only [List.nil_append] at hw3
    have hwi : ∀ e ∈ w.entries, ∃ t ∈ c.varIndices.zip c.coefficients, e = ⟨t.1, t.2⟩ := by
      intro e he
      have := hw3.subset he
      simp only [List.mem_map] at this
      obtain ⟨t, ht, rfl⟩ := this; exact ⟨t, ht, rfl⟩
    have hlt : ∀ e ∈ w.entries, e.index < t.nc := by
      intro e he
      obtain ⟨t, ht, rfl⟩ := hwi e he
      have := (hidx t.1 (List.of_mem_zip ht).1).2
      simp only; omega
    have hwn : (w.entries.map (·.index)).Nodup := by
      refine List.Nodup.sublist (hw3.map _) ?_
      have : ((c.varIndices.zip c.coefficients).map fun t => (⟨t.1, t.2⟩ : Entry)).map (·.index) =
          c.varIndices := by
        rw [List.map_map]
        show (c.varIndices.zip c.coefficients).map Prod.fst = _
        exact List.map_fst_zip (by omega)
      rw [this]; exact hnd
    simp only [List.length_cons] at htr
    obtain ⟨m1, hm1, hm2⟩ := hR.populateRow w (r := k) (by omega) hw2 hlt
    have hcl := SparseVector.cleanUp_clean hw2
    set flag := w.entries.all fun e =>
      isIntegralCoefficient e.value && decide (e.index ∈ d.integerVariables) with hflag
    obtain ⟨d', t', h1, h2, h3, h4, h5, ⟨flags, hf1, hf2, hf3⟩, h7⟩ := ih
      { d with
        lhs := d.lhs ++ [c.lhs]
        rhs := d.rhs ++ [c.rhs]
        constraintNames := d.constraintNames ++ [c.name]
        isIntegralConstraint := d.isIntegralConstraint ++ [flag]
        matrix := m1 }
      (k + 1) _ hm2 (by simpa [SparseMatrix.Table.apply] using htc)
      (by simp only [SparseMatrix.Table.apply]; omega) (fun c hc => hcs c (by simp [hc]))
    refine ⟨d', t', ?_, h2, h3, by simpa [SparseMatrix.Table.apply] using h4, ?_,
      ⟨flag :: flags, by simp [hf1], by simp [hf2], ?_⟩, ?_⟩
    · simp only [addConstraints, addConstraint, hw1, hm1, Outcome.bind_ok, Outcome.pure_eq]
      exact h1
    · intro r hr c'
      rw [h5 r (by omega)]
      simp only [SparseMatrix.Table.apply]
      rw [if_neg (by omega)]
    · intro j cj hj
      cases j with
      | zero =>
        simp only [List.getElem?_cons_zero, Option.some.injEq] at hj
        subst hj
        refine ⟨w.cleanUpIfNeeded, flag, by simp,
          fun e he => by have := hlt e (SparseMatrix.cleanUp_mem he); omega, ?_, hcl.1, ?_, ?_, ?_⟩
        · intro i
          rw [Nat.add_zero, h5 k (by omega)]
          simp [SparseMatrix.Table.apply]
        · intro x
          rw [eval_cleanUp hwn, hw6]
          simp [SparseVector.eval, evalEntries, Constraint.activity]
        · intro hft e he
          rw [hflag, List.all_eq_true] at hft
          have := hft e (SparseMatrix.cleanUp_mem he)
          rw [Bool.and_eq_true, isIntegralCoefficient_iff, decide_eq_true_iff] at this
          exact this
        · intro hall
          rw [hflag, List.all_eq_true]
          intro e he
          obtain ⟨t, ht, rfl⟩ := hwi e he
          rw [Bool.and_eq_true, isIntegralCoefficient_iff, decide_eq_true_iff]
          exact hall t ht
      | succ j =>
        simp only [List.getElem?_cons_succ] at hj
        obtain ⟨row, fl, hr1, hr2, hr3, hr4⟩ := hf3 j cj hj
        refine ⟨row, fl, by simpa using hr1, hr2, ?_, ⟨hr4.clean, hr4.eval, hr4.sound, hr4.complete⟩⟩
        intro i; rw [hr3 i]; congr 1; omega
    · rw [h7]; simp

theorem nodup_reinsert (bs : List Bool) (l : List Int) (k : Nat) (h : l.Nodup) :
    (reinsert l k bs).Nodup := by
  induction bs generalizing l k with
  | nil => exact h
  | cons b bs ih =>
    rw [reinsert]
    apply ih
    split
    · exact nodup_insertInt h _
    · exact h

theorem mem_reinsert (bs : List Bool) (l : List Int) (k : Nat) (j : Int) :
    j ∈ reinsert l k bs ↔ j ∈ l ∨ ∃ n : Nat, bs[n]? = some true ∧ j = ((k + n : Nat) : Int) := by
  induction bs generalizing l k with
  | nil => simp [reinsert]
  | cons b bs ih =>
    rw [reinsert, ih]
    constructor
    · rintro (h | ⟨n, hn, rfl⟩)
      · split at h
        · rcases mem_insertInt.1 h with h | rfl
          · exact Or.inl h
          · exact Or.inr ⟨0, by simpa using ‹b = true›, by simp⟩
        · exact Or.inl h
      · exact Or.inr ⟨n + 1, by simpa using hn, by omega⟩
    · rintro (h | ⟨n, hn, rfl⟩)
      · left; split
        · exact mem_insertInt.2 (Or.inl h)
        · exact h
      · cases n with
        | zero =>
          simp only [List.getElem?_cons_zero, Option.some.injEq] at hn
          left; rw [if_pos hn]; exact mem_insertInt.2 (Or.inr (by simp))
        | succ n => exact Or.inr ⟨n, by simpa using hn, by omega⟩

end MipData

/-! ## C09 -/

/-- What it means for `MipData` to represent the user's problem. -/
structure MipData.Represents (d : MipData) (p : Problem) : Prop where
  lower : d.lower = p.vars.map (·.lower)
  upper : d.upper = p.vars.map (·.upper)
  variableNames : d.variableNames = p.vars.map (·.name)
  lhs : d.lhs = p.constraints.map (·.lhs)
  rhs : d.rhs = p.constraints.map (·.rhs)
  constraintNames : d.constraintNames = p.constraints.map (·.name)
  /-- the integer variables, as a set and as a per-column type -/
  integers : ∀ j, j ∈ d.integerVariables ↔
    ∃ (n : Nat) (v : Variable), p.vars[n]? = some v ∧ v.isInteger = true ∧ j = (n : Int)
  integersNodup : d.integerVariables.Nodup
  types : d.isIntegerType = p.vars.map (·.isInteger)
  hints : d.hints = p.hints
  name : d.name = p.name
  wasMaximization : d.wasMaximization = p.isMaximization
  objectiveClean : Clean d.objective.entries ∧ d.objective.dirty = false
  /-- minimisation form -/
  objective : ∀ x, d.objective.eval x + d.offset =
    if p.isMaximization then -p.userObjective x else p.userObjective x
  numRows : d.matrix.numRows = p.constraints.length
  numCols : d.matrix.numCols = p.vars.length
  /-- rows, columns and coefficients of the matrix, read through its interface -/
  rows : ∀ (k : Nat) (c : Constraint), p.constraints[k]? = some c →
    ∃ m v, d.matrix.row k = .ok (m, v) ∧ Clean v.entries ∧
      (∀ e ∈ v.entries, e.index < p.vars.length) ∧ (∀ x, v.eval x = c.activity x) ∧
      ∀ j < p.vars.length, ∃ m2 m3 w, d.matrix.getCoefficient j k = .ok (m2, v.value j) ∧
        d.matrix.col j = .ok (m3, w) ∧ w.value k = v.value j
  numFlags : d.isIntegralConstraint.length = p.constraints.length

theorem evalEntries_ext {l m : List Entry} (hl : Clean l) (hm : Clean m)
    (h : ∀ i, SparseVector.valueAt l i = SparseVector.valueAt m i) (x) :
    evalEntries l x = evalEntries m x := by
  unfold evalEntries
  set S := ((l ++ m).map (·.index)).toFinset with hS
  rw [SparseVector.sum_map_eq_finset hl.1 x S, SparseVector.sum_map_eq_finset hm.1 x S]
  · exact Finset.sum_congr rfl (fun i _ => by rw [h i])
  · intro e he; simp only [hS, List.mem_toFinset, List.mem_map, List.mem_append]; exact ⟨e, by tauto, rfl⟩
  · intro e he; simp only [hS, List.mem_toFinset, List.mem_map, List.mem_append]; exact ⟨e, by tauto, rfl⟩

theorem valueAt_neg {l : List Entry} (h : ∀ e ∈ l, 0 ≤ e.index) {i : Int} (hi : i < 0) :
    SparseVector.valueAt l i = 0 :=
  SparseVector.valueAt_of_lt fun e he => by have := h e he; omega

/-- The combined statement used by C09 and C10: construction succeeds, represents the
problem, every flag is right, and the matrix shows a table. -/
theorem MipData.ofProblem_spec (hash : MipData.HashOrder) (p : Problem) (hp : p.WellFormed) :
    ∃ d, MipData.ofProblem hash p = .ok d ∧ d.Represents p ∧
      (∀ (k : Nat) (c : Constraint), p.constraints[k]? = some c →
        ∃ row flag, d.isIntegralConstraint[k]? = some flag ∧ MipData.RowOk d row flag c) ∧
      ∃ t, SparseMatrix.Rel d.matrix t := by
  obtain ⟨hv, hc⟩ := hp
  obtain ⟨d1, h1, h2, h3, h4, h5, h6, h7, h8, h9, h10, h11, h12, h13, h14, h15, h16, h17, h18, h19⟩ :=
    MipData.addVariables_spec p.vars
      { name := p.name
        wasMaximization := p.isMaximization
        offset := p.offset
        matrix := SparseMatrix.mk' p.vars.length p.constraints.length } 0
      SparseVector.Inv.init (by simp) (by simp) (by simp) (fun v h _ => (hv v h).2)
  simp only [List.nil_append] at h2 h3 h4 h5 h16 h17 h18 h19 h12 h13 h14 h15
  simp only [List.not_mem_nil, false_or, Nat.zero_add] at h6
  have hR0 := SparseMatrix.Rel.init p.vars.length p.constraints.length
  obtain ⟨d2, t2, g1, g2, g3, g4, -, ⟨flags, f1, f2, f3⟩, g7⟩ :=
    MipData.addConstraints_spec p.vars.length p.constraints
      { d1 with objective := d1.objective.cleanUpIfNeeded, hints := p.hints } 0
      _ (by simpa [h12] using hR0) rfl (by simp) hc
  have e1 : d2.integerVariables = d1.integerVariables := by rw [g7]
  have e2 : d2.isIntegerType = p.vars.map (·.isInteger) := by rw [g7]; simpa using h4
  have e3 : d2.objective = d1.objective.cleanUpIfNeeded := by rw [g7]
  have e4 : d2.offset = p.offset := by rw [g7]; simpa using h13
  have e5 : d2.lower = p.vars.map (·.lower) := by rw [g7]; simpa using h2
  have e6 : d2.upper = p.vars.map (·.upper) := by rw [g7]; simpa using h3
  have e7 : d2.lhs = p.constraints.map (·.lhs) := by rw [g7]; simp [h16]
  have e8 : d2.rhs = p.constraints.map (·.rhs) := by rw [g7]; simp [h17]
  have e9 : d2.constraintNames = p.constraints.map (·.name) := by rw [g7]; simp [h18]
  have e10 : d2.variableNames = p.vars.map (·.name) := by rw [g7]; simpa using h5
  have e11 : d2.isIntegralConstraint = flags := by rw [f2]; simp [h19]
  have e12 : d2.hints = p.hints := by rw [g7]
  have e13 : d2.name = p.name := by rw [g7]; simpa using h14
  have e14 : d2.wasMaximization = p.isMaximization := by rw [g7]; simpa using h15
  have hcl := SparseVector.cleanUp_clean h8
  have hint : ∀ j, j ∈ hash.apply (MipData.reinsert d2.integerVariables 0 d2.isIntegerType) ↔
      ∃ (n : Nat) (v : Variable), p.vars[n]? = some v ∧ v.isInteger = true ∧ j = (n : Int) := by
    intro j
    rw [(hash.perm _).mem_iff, MipData.mem_reinsert, e1, e2, h6]
    constructor
    · rintro (h | ⟨n, hn, rfl⟩)
      · exact h
      · simp only [List.getElem?_map, Option.map_eq_some_iff] at hn
        obtain ⟨v, hv1, hv2⟩ := hn
        exact ⟨n, v, hv1, hv2, by simp⟩
    · intro h; exact Or.inl h
  have hnd : (hash.apply (MipData.reinsert d2.integerVariables 0 d2.isIntegerType)).Nodup :=
    (hash.perm _).nodup_iff.2 (MipData.nodup_reinsert _ _ _ (by rw [e1]; exact h7))
  have hobj : ∀ x, d1.objective.cleanUpIfNeeded.eval x = objectiveFrom 0 p.vars x := by
    intro x
    rw [eval_cleanUp h10, h11]
    simp [SparseVector.eval, evalEntries]
  have hrows : ∀ (k : Nat) (c : Constraint), p.constraints[k]? = some c →
      ∃ m v, d2.matrix.row k = .ok (m, v) ∧ Clean v.entries ∧
      (∀ e ∈ v.entries, e.index < p.vars.length) ∧ (∀ x, v.eval x = c.activity x) ∧
      ∀ j < p.vars.length, ∃ m2 m3 w, d2.matrix.getCoefficient j k = .ok (m2, v.value j) ∧
        d2.matrix.col j = .ok (m3, w) ∧ w.value k = v.value j := by
    intro k c hk
    have hkl : k < t2.nr := by
      rw [g4]; exact (List.getElem?_eq_some_iff.1 hk).1
    obtain ⟨m, v, hm, -, hs1, hs2, hs3, hs4⟩ := g2.row hkl
    obtain ⟨row, flag, r1, r2, r3, r4⟩ := f3 k c hk
    refine ⟨m, v, hm, hs1, by rw [g3] at hs3; exact hs3, ?_, ?_⟩
    · intro x
      rw [← r4.eval x]
      refine evalEntries_ext hs1 r4.clean (fun i => ?_) x
      by_cases hi : 0 ≤ i
      · obtain ⟨n, rfl⟩ := Int.eq_ofNat_of_zero_le hi
        have a := hs4 n; have b := r3 n
        rw [Nat.zero_add] at b
        simp only [SparseVector.value] at a b
        rw [a, b]
      · rw [valueAt_neg (fun e he => (hs1.2 e he).2) (by omega),
          valueAt_neg (fun e he => (r4.clean.2 e he).2) (by omega)]
    · intro j hj
      obtain ⟨m2, a1, -⟩ := g2.get (c := j) (by rw [g3]; exact hj) hkl
      obtain ⟨m3, w, b1, -, -, -, -, b5⟩ := g2.col (c := j) (by rw [g3]; exact hj)
      exact ⟨m2, m3, w, by rw [a1, hs4 j], b1, by rw [b5 k, hs4 j]⟩
  have hflags : ∀ (k : Nat) (c : Constraint), p.constraints[k]? = some c →
      ∃ row flag, flags[k]? = some flag ∧
        MipData.RowOk { d1 with objective := d1.objective.cleanUpIfNeeded, hints := p.hints } row flag c := by
    intro k c hk
    obtain ⟨row, flag, r1, r2, r3, r4⟩ := f3 k c hk
    exact ⟨row, flag, r1, r4⟩
  have conv : ∀ (d : MipData), (∀ j, j ∈ d.integerVariables ↔
      ∃ (n : Nat) (v : Variable), p.vars[n]? = some v ∧ v.isInteger = true ∧ j = (n : Int)) →
      ∀ {row flag c}, MipData.RowOk { d1 with objective := d1.objective.cleanUpIfNeeded, hints := p.hints } row flag c →
        MipData.RowOk d row flag c := by
    intro d hd row flag c h
    refine ⟨h.clean, h.eval, fun hf e he => ⟨(h.sound hf e he).1, ?_⟩, fun hall => h.complete ?_⟩
    · rw [hd]; exact (h6 _).1 (h.sound hf e he).2
    · intro t ht; refine ⟨(hall t ht).1, ?_⟩
      have := (hd _).1 (hall t ht).2
      exact (h6 _).2 this
  by_cases hmax : p.isMaximization = true
  · refine ⟨{ d2 with
        integerVariables := hash.apply (MipData.reinsert d2.integerVariables 0 d2.isIntegerType)
        offset := d2.offset * (-1)
        objective := d2.objective.transform (fun _ x => -x) }, ?_, ?_, ?_, t2, g2⟩
    · simp only [MipData.ofProblem]
      rw [h1, Outcome.bind_ok, g1, Outcome.bind_ok, if_pos hmax, Outcome.pure_eq]
    · obtain ⟨tc, td, -⟩ := SparseVector.C06_transform d1.objective.cleanUpIfNeeded hcl.1 hcl.2
        (fun _ x => -x)
      refine ⟨e5, e6, e10, e7, e8, e9, hint, hnd, e2, e12, e13, e14, ?_, ?_, ?_, ?_, hrows, ?_⟩
      · simp only [e3]; exact ⟨tc, td⟩
      · intro x
        have : (d1.objective.cleanUpIfNeeded.transform (fun _ x => -x)).eval x =
            - d1.objective.cleanUpIfNeeded.eval x := by
          unfold SparseVector.transform SparseVector.eval evalEntries
          simp only
          rw [List.filter_eq_self.2]
          · induction d1.objective.cleanUpIfNeeded.entries with
            | nil => simp
            | cons e r ih => simp only [List.map_cons, List.sum_cons]; rw [ih]; ring
          · intro e he
            obtain ⟨e', he', rfl⟩ := List.mem_map.1 he
            simpa using (hcl.1.2 e' he').1
        simp only [e3, this, hobj, e4, if_true, hmax, Problem.userObjective]; ring
      · exact (g2.nrows.trans g4)
      · exact (g2.ncols.trans g3)
      · simp only [e11, f1]
    · intro k c hk
      obtain ⟨row, flag, r1, r2⟩ := hflags k c hk
      exact ⟨row, flag, by simpa [e11] using r1, conv _ hint r2⟩
  · refine ⟨{ d2 with
        integerVariables := hash.apply (MipData.reinsert d2.integerVariables 0 d2.isIntegerType) }, ?_, ?_, ?_, t2, g2⟩
    · simp only [MipData.ofProblem]
      rw [h1, Outcome.bind_ok, g1, Outcome.bind_ok, if_neg hmax, Outcome.pure_eq]
    · refine ⟨e5, e6, e10, e7, e8, e9, hint, hnd, e2, e12, e13, e14, ?_, ?_, ?_, ?_, hrows, ?_⟩
      · simp only [e3]; exact hcl
      · intro x
        simp only [e3, hobj, e4, hmax, Problem.userObjective]; rfl
      · exact (g2.nrows.trans g4)
      · exact (g2.ncols.trans g3)
      · simp only [e11, f1]
    · intro k c hk
      obtain ⟨row, flag, r1, r2⟩ := hflags k c hk
      exact ⟨row, flag, by simpa [e11] using r1, conv _ hint r2⟩

theorem MipData.HashOrder.apply_singleton (hash : MipData.HashOrder) (j : Int) : hash.apply [j] = [j] :=
  List.perm_singleton.1 (hash.perm [j])

/-- The order shows in the set of the integer variables only. -/
theorem MipData.ofProblem_order {hash : MipData.HashOrder} {p : Problem} {d : MipData}
    (hd : MipData.ofProblem hash p = .ok d) :
    ∃ d₀, MipData.ofProblem .id p = .ok d₀ ∧ d = { d₀ with integerVariables := hash.apply d₀.integerVariables } := by
  simp only [MipData.ofProblem, Outcome.bind_eq_ok] at hd ⊢
  obtain ⟨d1, h1, d2, h2, h3⟩ := hd
  have h3 := Outcome.ok.inj h3
  by_cases hm : p.isMaximization = true
  · rw [if_pos hm] at h3
    exact ⟨_, ⟨d1, h1, d2, h2, by rw [if_pos hm]; rfl⟩, h3.symm⟩
  · rw [if_neg hm] at h3
    exact ⟨_, ⟨d1, h1, d2, h2, by rw [if_neg hm]; rfl⟩, h3.symm⟩

/-- **C09.**  For every well-formed problem the constructor succeeds, and the resulting
`MipData` represents the problem: bounds, sides, names, hints and integrality agree; read
through its interface, the matrix has the user's row activities at every point; and the
minimisation objective plus offset is the user's objective plus offset at every point,
negated for maximisation. -/
theorem C09_represents (hash : MipData.HashOrder) (p : Problem) (hp : p.WellFormed) :
    ∃ d, MipData.ofProblem hash p = .ok d ∧ d.Represents p := by
  obtain ⟨d, h1, h2, -⟩ := MipData.ofProblem_spec hash p hp
  exact ⟨d, h1, h2⟩

/-- A value within two sides. -/
def Between (l : Dbl) (a : ℚ) (u : Dbl) : Prop := Dbl.le l (.fin a) = true ∧ Dbl.le (.fin a) u = true

/-- Feasibility as the user means it. -/
def Problem.Feasible (p : Problem) (x : Int → ℚ) : Prop :=
  (∀ (n : Nat) (v : Variable), p.vars[n]? = some v →
    Between v.lower (x n) v.upper ∧ (v.isInteger = true → ∃ k : Int, x n = k)) ∧
  ∀ c ∈ p.constraints, Between c.lhs (c.activity x) c.rhs

/-- Optimality as the user means it. -/
def Problem.Optimal (p : Problem) (x : Int → ℚ) : Prop :=
  p.Feasible x ∧ ∀ y, p.Feasible y →
    if p.isMaximization then p.userObjective y ≤ p.userObjective x
    else p.userObjective x ≤ p.userObjective y

/-- Feasibility as read off `MipData`: bounds by column, integrality by the set of integer
variables, sides by row with the activity of the row returned by the matrix. -/
def MipData.Feasible (d : MipData) (x : Int → ℚ) : Prop :=
  (∀ (n : Nat) (l u : Dbl), d.lower[n]? = some l → d.upper[n]? = some u → Between l (x n) u) ∧
  (∀ j ∈ d.integerVariables, ∃ k : Int, x j = k) ∧
  ∀ (r : Nat) (l u : Dbl) (m : SparseMatrix) (v : SparseVector), d.lhs[r]? = some l →
    d.rhs[r]? = some u → d.matrix.row r = .ok (m, v) → Between l (v.eval x) u

/-- Optimality as read off `MipData`: always a minimisation. -/
def MipData.Optimal (d : MipData) (x : Int → ℚ) : Prop :=
  d.Feasible x ∧ ∀ y, d.Feasible y → d.objective.eval x + d.offset ≤ d.objective.eval y + d.offset

/-- **C09.**  The feasible and the optimal points of `MipData` are those of the problem. -/
theorem C09_same_optima (p : Problem) (d : MipData) (h : d.Represents p) (x : Int → ℚ) :
    (d.Feasible x ↔ p.Feasible x) ∧ (d.Optimal x ↔ p.Optimal x) := by
  have feas : ∀ x, d.Feasible x ↔ p.Feasible x := by
    intro x
    constructor
    · rintro ⟨h1, h2, h3⟩
      refine ⟨fun n v hv => ⟨?_, fun hi => ?_⟩, fun c hc => ?_⟩
      · exact h1 n v.lower v.upper (by rw [h.lower]; simp [hv]) (by rw [h.upper]; simp [hv])
      · exact h2 n ((h.integers n).2 ⟨n, v, hv, hi, rfl⟩)
      · obtain ⟨k, hk⟩ := List.getElem?_of_mem hc
        obtain ⟨m, v, hm, -, -, hev, -⟩ := h.rows k c hk
        have := h3 k c.lhs c.rhs m v (by rw [h.lhs]; simp [hk]) (by rw [h.rhs]; simp [hk]) hm
        rwa [hev] at this
    · rintro ⟨h1, h2⟩
      refine ⟨fun n l u hl hu => ?_, fun j hj => ?_, fun r l u m v hl hu hr => ?_⟩
      · rw [h.lower] at hl; rw [h.upper] at hu
        simp only [List.getElem?_map, Option.map_eq_some_iff] at hl hu
        obtain ⟨v, hv, rfl⟩ := hl
        obtain ⟨v', hv', rfl⟩ := hu
        rw [hv] at hv'; simp only [Option.some.injEq] at hv'; subst hv'
        exact (h1 n v hv).1
      · obtain ⟨n, v, hv, hi, rfl⟩ := (h.integers j).1 hj
        exact (h1 n v hv).2 hi
      · rw [h.lhs] at hl; rw [h.rhs] at hu
        simp only [List.getElem?_map, Option.map_eq_some_iff] at hl hu
        obtain ⟨c, hc, rfl⟩ := hl
        obtain ⟨c', hc', rfl⟩ := hu
        rw [hc] at hc'; simp only [Option.some.injEq] at hc'; subst hc'
        obtain ⟨m', v', hm, -, -, hev, -⟩ := h.rows r c hc
        rw [hm] at hr
        simp only [Outcome.ok.injEq, Prod.mk.injEq] at hr
        obtain ⟨rfl, rfl⟩ := hr
        rw [hev]; exact h2 c (List.mem_of_getElem? hc)
  refine ⟨feas x, ?_⟩
  unfold MipData.Optimal Problem.Optimal
  simp only [feas, h.objective]
  apply and_congr_right
  intro _
  apply forall_congr'
  intro y
  apply imp_congr_right
  intro _
  split
  · constructor <;> intro h <;> linarith
  · rfl

example : Problem.exProblem.WellFormed := Problem.exProblem_wellFormed

/-! ## C10 -/

/-- C10 fails: with `x` integer, `x ≤ 1/2` is marked integral, but the slack `1/2 - x` is
fractional at every integer point: the sides are not looked at (mip_data.cc:92-97). -/
theorem C10_fractional_side_violated (hash : MipData.HashOrder) :
    ∃ (p : Problem) (d : MipData), p.WellFormed ∧ MipData.ofProblem hash p = .ok d ∧
      d.isIntegralConstraint = [true] ∧ d.rhs = [.fin (1 / 2)] ∧
      ∃ c, p.constraints = [c] ∧ ∀ x : Int → ℚ, (∀ j ∈ d.integerVariables, ∃ k : Int, x j = k) →
        ¬ ∃ k : Int, (1 / 2 : ℚ) - c.activity x = k := by
  let p : Problem :=
    { vars := [{ name := "x", isInteger := true, lower := .fin 0, upper := .fin 5 }]
      constraints := [{ name := "c", varIndices := [0], coefficients := [1], rhs := .fin (1 / 2) }] }
  have hp : p.WellFormed := by
    simp [p, Problem.WellFormed, Variable.WellFormed, Constraint.WellFormed, Ordered, Dbl.le]
  obtain ⟨d, h1, h2, h3, -⟩ := MipData.ofProblem_spec hash p hp
  obtain ⟨row, flag, hf, hrow⟩ := h3 0 _ rfl
  have hflag : flag = true := by
    apply hrow.complete
    intro t ht
    simp only [List.zip_cons_cons, List.zip_nil_right, List.mem_singleton] at ht
    subst ht
    exact ⟨⟨1, by norm_num⟩, (h2.integers 0).2 ⟨0, _, rfl, rfl, rfl⟩⟩
  refine ⟨p, d, hp, h1, ?_, by rw [h2.rhs]; rfl, _, rfl, ?_⟩
  · have hl := h2.numFlags
    subst hflag
    have : d.isIntegralConstraint.length = 1 := hl
    obtain ⟨b, hb⟩ := List.length_eq_one_iff.1 this
    rw [hb] at hf ⊢; simpa using hf
  · rintro x hx ⟨k, hk⟩
    obtain ⟨m, hm⟩ := hx 0 ((h2.integers 0).2 ⟨0, _, rfl, rfl, rfl⟩)
    simp only [Constraint.activity, List.zip_cons_cons, List.zip_nil_right, List.map_cons,
      List.map_nil, List.sum_cons, List.sum_nil, hm] at hk
    have : (1 : ℚ) = ((2 * (k + m) : Int) : ℚ) := by push_cast; linarith
    have : (1 : Int) = 2 * (k + m) := by exact_mod_cast this
    omega

/-- **C10**, proved part.  If a constraint is marked integral, its activity is an integer at
every point that is integral on the integer variables, and its distance to a side with an
integer value is an integer.  Conversely a constraint all of whose coefficients are integers
on integer variables is marked.  Missing (and false, see above): sides with fractional
values. -/
theorem C10_integral_slack_partial {hash : MipData.HashOrder} (p : Problem) (hp : p.WellFormed) (d : MipData)
    (hd : MipData.ofProblem hash p = .ok d) (k : Nat) (c : Constraint) (hk : p.constraints[k]? = some c) :
    ∃ flag, d.isIntegralConstraint[k]? = some flag ∧
      (flag = true → ∀ x : Int → ℚ, (∀ j ∈ d.integerVariables, ∃ n : Int, x j = n) →
        (∃ n : Int, c.activity x = n) ∧
        (∀ s : Int, (∃ n : Int, (s : ℚ) - c.activity x = n) ∧ ∃ n : Int, c.activity x - s = n)) ∧
      ((∀ t ∈ c.varIndices.zip c.coefficients, (∃ n : Int, t.2 = n) ∧ t.1 ∈ d.integerVariables) →
        flag = true) := by
  obtain ⟨d', h1, -, h3, -⟩ := MipData.ofProblem_spec hash p hp
  rw [h1] at hd; simp only [Outcome.ok.injEq] at hd; subst hd
  obtain ⟨row, flag, hf, hrow⟩ := h3 k c hk
  refine ⟨flag, hf, fun hflag x hx => ?_, hrow.complete⟩
  have hint : ∃ n : Int, c.activity x = n := by
    rw [← hrow.eval x]
    have hs := hrow.sound hflag
    unfold SparseVector.eval evalEntries
    generalize row.entries = l at hs
    induction l with
    | nil => exact ⟨0, by simp⟩
    | cons e r ih =>
      obtain ⟨n, hn⟩ := ih (fun e he => hs e (by simp [he]))
      obtain ⟨⟨a, ha⟩, hj⟩ := hs e (by simp)
      obtain ⟨b, hb⟩ := hx _ hj
      refine ⟨a * b + n, ?_⟩
      rw [List.map_cons, List.sum_cons, hn, ha, hb]; push_cast; ring
  obtain ⟨n, hn⟩ := hint
  refine ⟨⟨n, hn⟩, fun s => ⟨⟨s - n, by rw [hn]; push_cast; ring⟩, ⟨n - s, by rw [hn]; push_cast; ring⟩⟩⟩

/-! ## C11 -/

theorem abs_sub_roundAway_le (x : ℚ) (k : Int) : |x - roundAway x| ≤ |x - k| := by
  have hhalf : |x - roundAway x| ≤ 1 / 2 := by
    unfold roundAway
    split
    · have h1 := Int.floor_le (x + 1 / 2)
      have h2 := Int.lt_floor_add_one (x + 1 / 2)
      rw [abs_le]; constructor <;> linarith
    · have h1 := Int.le_ceil (x - 1 / 2)
      have h2 := Int.ceil_lt_add_one (x - 1 / 2)
      rw [abs_le]; constructor <;> linarith
  by_cases hk : k = roundAway x
  · rw [hk]
  · have h1 : (1 : ℚ) ≤ |((k : ℚ) - roundAway x)| := by
      have : (1 : Int) ≤ |k - roundAway x| := Int.one_le_abs (sub_ne_zero.2 hk)
      have h2 : ((1 : Int) : ℚ) ≤ ((|k - roundAway x| : Int) : ℚ) := by exact_mod_cast this
      push_cast at h2; exact h2
    have h3 : |(k : ℚ) - roundAway x| ≤ |x - k| + |x - roundAway x| := by
      have : (k : ℚ) - roundAway x = -(x - k) + (x - roundAway x) := by ring
      rw [this]
      exact (abs_add_le _ _).trans (by rw [abs_neg])
    linarith

/-- Being within the tolerance of the rounded value is being within the tolerance of some
integer. -/
theorem near_round_iff (x tol : ℚ) : |x - roundAway x| ≤ tol ↔ ∃ k : Int, |x - k| ≤ tol :=
  ⟨fun h => ⟨_, h⟩, fun ⟨k, hk⟩ => (abs_sub_roundAway_le x k).trans hk⟩

theorem MipData.allIntegral_iff (values : List ℚ) (tol : ℚ) (l : List Int)
    (hl : ∀ j ∈ l, 0 ≤ j ∧ j < values.length) :
    ∃ b, MipData.allIntegral values tol l = .ok b ∧
      (b = true ↔ ∀ (n : Nat) (x : ℚ), (n : Int) ∈ l → values[n]? = some x → ∃ k : Int, |x - k| ≤ tol) := by
  induction l with
  | nil => exact ⟨true, rfl, by simp⟩
  | cons j r ih =>
    obtain ⟨b, h1, h2⟩ := ih (fun i hi => hl i (by simp [hi]))
    obtain ⟨h3, h4⟩ := hl j (by simp)
    obtain ⟨n, rfl⟩ := Int.eq_ofNat_of_zero_le h3
    have hn : n < values.length := by omega
    have hx : values[n]? = some values[n] := by simp [hn]
    unfold MipData.allIntegral
    rw [if_neg (by omega)]
    simp only [Int.toNat_natCast, hx]
    split
    · rename_i hle
      refine ⟨b, h1, h2.trans ?_⟩
      constructor
      · intro h m x hm hmx
        rcases List.mem_cons.1 hm with hm | hm
        · have : m = n := by omega
          subst this
          rw [hx] at hmx; simp only [Option.some.injEq] at hmx; subst hmx
          exact (near_round_iff _ _).1 hle
        · exact h m x hm hmx
      · intro h m x hm hmx; exact h m x (by simp [hm]) hmx
    · rename_i hle
      refine ⟨false, rfl, ?_⟩
      simp only [Bool.false_eq_true, false_iff]
      intro h
      exact hle ((near_round_iff _ _).2 (h n _ (by simp) hx))

/-- **C11.**  For the data of any well-formed problem and any solution vector with a value
per variable, `SolutionIsIntegral` returns, and it returns true iff the value of every
integer variable is within the tolerance of some integer. -/
theorem C11_solution_is_integral {hash : MipData.HashOrder} (p : Problem) (hp : p.WellFormed) (d : MipData)
    (hd : MipData.ofProblem hash p = .ok d) (values : List ℚ) (tol : ℚ)
    (hlen : values.length = p.vars.length) :
    ∃ b, d.solutionIsIntegral values tol = .ok b ∧
      (b = true ↔ ∀ (n : Nat) (v : Variable) (x : ℚ), p.vars[n]? = some v → v.isInteger = true →
        values[n]? = some x → ∃ k : Int, |x - k| ≤ tol) := by
  obtain ⟨d', h1, h2, -⟩ := MipData.ofProblem_spec hash p hp
  rw [h1] at hd; simp only [Outcome.ok.injEq] at hd; subst hd
  obtain ⟨b, h3, h4⟩ := MipData.allIntegral_iff values tol d'.integerVariables (by
    intro j hj
    obtain ⟨n, v, hv, -, rfl⟩ := (h2.integers j).1 hj
    have := (List.getElem?_eq_some_iff.1 hv).1
    omega)
  refine ⟨b, h3, h4.trans ⟨fun h n v x hv hi hx => ?_, fun h n x hn hx => ?_⟩⟩
  · exact h n x ((h2.integers n).2 ⟨n, v, hv, hi, rfl⟩) hx
  · obtain ⟨m, v, hv, hi, hm⟩ := (h2.integers n).1 hn
    have : n = m := by omega
    subst this
    exact h n v x hv hi hx

/-- Continuous variables have no influence: two value vectors that agree on the integer
variables get the same answer. -/
theorem C11_continuous_irrelevant {hash : MipData.HashOrder} (p : Problem) (hp : p.WellFormed) (d : MipData)
    (hd : MipData.ofProblem hash p = .ok d) (values values' : List ℚ) (tol : ℚ)
    (hlen : values.length = p.vars.length) (hlen' : values'.length = p.vars.length)
    (hagree : ∀ (n : Nat) (v : Variable), p.vars[n]? = some v → v.isInteger = true →
      values[n]? = values'[n]?) :
    d.solutionIsIntegral values tol = d.solutionIsIntegral values' tol := by
  obtain ⟨b, h1, h2⟩ := C11_solution_is_integral p hp d hd values tol hlen
  obtain ⟨b', h3, h4⟩ := C11_solution_is_integral p hp d hd values' tol hlen'
  rw [h1, h3]
  congr 1
  rw [Bool.eq_iff_iff, h2, h4]
  constructor
  · intro h n v x hv hi hx; exact h n v x hv hi (by rw [hagree n v hv hi]; exact hx)
  · intro h n v x hv hi hx; exact h n v x hv hi (by rw [← hagree n v hv hi]; exact hx)

/-- The example problem (two variables, the first an integer) with a nearly integral and a
fractional value. -/
example : Problem.exProblem.WellFormed ∧ [(299 / 100 : ℚ), 1 / 2].length = Problem.exProblem.vars.length :=
  ⟨Problem.exProblem_wellFormed, rfl⟩

end MiniMip
