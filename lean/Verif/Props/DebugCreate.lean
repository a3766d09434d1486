import Verif.Props.DebugBuild

/-!
# C120: `Solver::Create` in the debug build
-/

namespace MiniMip

open SparseVector (Clean Inv)

namespace MipData

theorem isClean_of {v : SparseVector} (h : Clean v.entries) : v.isClean = true := by
  rw [SparseVector.isClean, Bool.and_eq_true, SparseVector.isSortedStrict_iff, List.all_eq_true]
  refine ⟨h.1, fun e he => ?_⟩
  have := h.2 e he
  simp [this.1, this.2]

theorem debugEntries_eq {v : SparseVector} (h : Inv v) :
    v.debugEntries = if v.dirty then .abort else .ok v.entries := by
  unfold SparseVector.debugEntries SparseVector.mayNeedCleaning
  cases hd : v.dirty with
  | true => simp [Outcome.check]
  | false => simp [Outcome.check, isClean_of (h.2 hd)]

theorem buildRow_dirty (is : List Int) : ∀ (as : List ℚ) (v : SparseVector), is.length = as.length → v.dirty = true →
    ∃ v', buildRow v is as = .ok v' ∧ v'.dirty = true := by
  induction is with
  | nil => exact fun _ v _ h => ⟨v, rfl, h⟩
  | cons i is ih =>
    intro as v hl h
    cases as with
    | nil => simp at hl
    | cons a as => exact ih as _ (by simpa using hl) (by simp [SparseVector.addEntry, h])

theorem buildRow_sorted (is : List Int) : ∀ (as : List ℚ) (v : SparseVector), is.length = as.length → (∀ i ∈ is, 0 ≤ i) →
    Inv v → v.dirty = false → ∃ v', buildRow v is as = .ok v' ∧ Inv v' ∧
      (v'.dirty = false ↔ (∀ a ∈ is.zip as, v.lastIndex < a.1) ∧
        (is.zip as).Pairwise (fun a b => a.2 ≠ 0 → a.1 < b.1)) ∧
      (v'.dirty = false → v'.entries = v.entries ++
        ((is.zip as).filter fun a => decide (a.2 ≠ 0)).map fun a => ⟨a.1, a.2⟩) := by
  induction is with
  | nil => exact fun as v _ _ hi hd => ⟨v, by cases as <;> rfl, hi, by simp [hd], by simp⟩
  | cons i is ih =>
    intro as v hl hpos hi hd
    cases as with
    | nil => simp at hl
    | cons a as =>
      have hl' : is.length = as.length := by simpa using hl
      have hi0 : 0 ≤ i := hpos i (by simp)
      have hpos' : ∀ j ∈ is, 0 ≤ j := fun j hj => hpos j (by simp [hj])
      have hinv := hi.addEntry hi0 a
      unfold buildRow
      simp only [List.zip_cons_cons, List.mem_cons, forall_eq_or_imp, List.pairwise_cons]
      by_cases hlt : i ≤ v.lastIndex
      · have hdirty : (v.addEntry i a).dirty = true := by simp [SparseVector.addEntry, hd, hlt]
        obtain ⟨v', h1, h2⟩ := buildRow_dirty is as _ hl' hdirty
        refine ⟨v', h1, ?_, ?_, ?_⟩
        · clear ih h2 hdirty
          have key : ∀ (l : List Int) (m : List ℚ) (u u' : SparseVector), (∀ j ∈ l, 0 ≤ j) → Inv u →
              buildRow u l m = .ok u' → Inv u' := by
            intro l
            induction l with
            | nil => intro m u u' _ hu h; cases m <;> (cases h; exact hu)
            | cons j l ih =>
              intro m u u' hj hu h
              cases m with
              | nil => cases h
              | cons b m => exact ih m _ _ (fun k hk => hj k (by simp [hk])) (hu.addEntry (hj j (by simp)) b) h
          exact key is as _ v' hpos' hinv h1
        · rw [h2]
          simp
          intro h; omega
        · rw [h2]; simp
      · have hlt' : v.lastIndex < i := by omega
        by_cases ha : a = 0
        · have he : v.addEntry i a = v := by simp [SparseVector.addEntry, hd, hlt, ha]
          rw [he]
          obtain ⟨v', h1, h2, h3, h4⟩ := ih as v hl' hpos' hi hd
          refine ⟨v', h1, h2, ?_, ?_⟩
          · rw [h3]
            constructor
            · rintro ⟨g1, g2⟩
              exact ⟨⟨hlt', g1⟩, fun b _ h => absurd ha h, g2⟩
            · rintro ⟨⟨-, g1⟩, -, g2⟩
              exact ⟨g1, g2⟩
          · intro hv
            rw [h4 hv]
            simp [ha]
        · have he : v.addEntry i a = ⟨v.entries ++ [⟨i, a⟩], false⟩ := by
            simp [SparseVector.addEntry, hd, hlt, ha]
          have hlast : (v.addEntry i a).lastIndex = i := by rw [he]; simp [SparseVector.lastIndex]
          obtain ⟨v', h1, h2, h3, h4⟩ := ih as (v.addEntry i a) hl' hpos' hinv (by rw [he])
          refine ⟨v', h1, h2, ?_, ?_⟩
          · rw [h3, hlast]
            constructor
            · rintro ⟨g1, g2⟩
              exact ⟨⟨hlt', fun b hb => hlt'.trans (g1 b hb)⟩, fun b hb _ => g1 b hb, g2⟩
            · rintro ⟨⟨-, g1⟩, g3, g2⟩
              exact ⟨fun b hb => g3 b hb ha, g2⟩
          · intro hv
            rw [h4 hv, he]
            simp [ha]

/-- The two assertions on one row. -/
def RowSorted (n : Nat) (c : Constraint) : Prop :=
  (c.varIndices.zip c.coefficients).Pairwise (fun a b => a.2 ≠ 0 → a.1 < b.1) ∧
    ∀ a ∈ c.varIndices.zip c.coefficients, a.2 ≠ 0 → a.1 < n

theorem lastIndex_lt {v : SparseVector} (h : Clean v.entries) (n : Nat) :
    (v.entries.isEmpty || (decide (0 ≤ v.firstIndex) && decide (v.lastIndex < n))) = true ↔
      ∀ e ∈ v.entries, e.index < n := by
  obtain ⟨l, b⟩ := v
  simp only at h ⊢
  rcases List.eq_nil_or_concat l with rfl | ⟨l', x, rfl⟩
  · simp
  · have hf : 0 ≤ SparseVector.firstIndex ⟨l'.concat x, b⟩ := by
      unfold SparseVector.firstIndex
      cases hh : (l'.concat x).head? with
      | none => simp at hh
      | some y => exact (h.2 y (List.mem_of_head? hh)).2
    have hl : SparseVector.lastIndex ⟨l'.concat x, b⟩ = x.index := by simp [SparseVector.lastIndex]
    rw [hl]
    simp only [hf, decide_true, Bool.true_and, Bool.or_eq_true, decide_eq_true_eq]
    constructor
    · rintro (h' | h')
      · simp at h'
      · intro e he
        simp only [List.concat_eq_append, List.mem_append, List.mem_singleton] at he
        rcases he with he | rfl
        · have := h.1
          rw [List.concat_eq_append, List.pairwise_append] at this
          exact (this.2.2 e he x (by simp)).trans h'
        · exact h'
    · exact fun h' => .inr (h' x (by simp))

theorem debugAddConstraint_eq {d : MipData} {row : Nat} {c : Constraint} (hlen : c.varIndices.length = c.coefficients.length)
    (hpos : ∀ i ∈ c.varIndices, 0 ≤ i) (hm : d.matrix.rowsNeed = false) (hrow : row < d.matrix.numRows) :
    (RowSorted d.matrix.numCols c → debugAddConstraint d row c = addConstraint d row c) ∧
    (¬ RowSorted d.matrix.numCols c → debugAddConstraint d row c = .abort) ∧
    ∃ d', addConstraint d row c = .ok d' ∧ d'.matrix.rowsNeed = false ∧ d'.matrix.numRows = d.matrix.numRows ∧
      d'.matrix.numCols = d.matrix.numCols := by
  obtain ⟨v, h1, h2, h3, h4⟩ := buildRow_sorted c.varIndices c.coefficients {} hlen hpos Inv.init rfl
  have hrec : d.matrix.recomputeRows = .ok d.matrix := by simp [SparseMatrix.recomputeRows, hm]
  have hat : ∃ u, SparseMatrix.at? d.matrix.rows row = .ok u := by
    unfold SparseMatrix.at?
    rw [List.getElem?_eq_getElem hrow]
    exact ⟨_, rfl⟩
  obtain ⟨u, hat⟩ := hat
  have hlast : (∀ a ∈ c.varIndices.zip c.coefficients, ({} : SparseVector).lastIndex < a.1) := by
    intro a ha
    have := hpos a.1 (List.of_mem_zip ha).1
    simp [SparseVector.lastIndex]
    omega
  have hds : v.dirty = false ↔ (c.varIndices.zip c.coefficients).Pairwise (fun a b => a.2 ≠ 0 → a.1 < b.1) := by
    rw [h3]; exact ⟨fun h => h.2, fun h => ⟨hlast, h⟩⟩
  have hpop : d.matrix.populateRow row v =
      .ok { d.matrix with rows := d.matrix.rows.set row v.cleanUpIfNeeded, consistency := .colsNeedRecomputation } := by
    simp [SparseMatrix.populateRow, hrec, hat]
  have hadd : ∃ d', addConstraint d row c = .ok d' ∧ d'.matrix =
      { d.matrix with rows := d.matrix.rows.set row v.cleanUpIfNeeded, consistency := .colsNeedRecomputation } := by
    simp only [addConstraint, h1, Outcome.bind_ok, hpop, Outcome.pure_eq]
    exact ⟨_, rfl, rfl⟩
  have hmem : v.dirty = false → ((∀ e ∈ v.entries, e.index < d.matrix.numCols) ↔
      ∀ a ∈ c.varIndices.zip c.coefficients, a.2 ≠ 0 → a.1 < d.matrix.numCols) := by
    intro hd
    rw [h4 hd]
    simp only [List.nil_append, List.mem_map, List.mem_filter, decide_eq_true_eq]
    constructor
    · intro h a ha ha'
      exact h ⟨a.1, a.2⟩ ⟨a, ⟨ha, ha'⟩, rfl⟩
    · rintro h e ⟨a, ⟨ha, ha'⟩, rfl⟩
      exact h a ha ha'
  have hdeb : v.dirty = false → d.matrix.debugPopulateRow row v =
      if ∀ a ∈ c.varIndices.zip c.coefficients, a.2 ≠ 0 → a.1 < d.matrix.numCols then d.matrix.populateRow row v
      else .abort := by
    intro hd
    have hcl : v.cleanUpIfNeeded = v := by simp [SparseVector.cleanUpIfNeeded, hd]
    have key := lastIndex_lt (h2.2 hd) d.matrix.numCols
    rw [hmem hd] at key
    rw [hpop]
    simp only [SparseMatrix.debugPopulateRow, hrec, Outcome.bind_ok, hrow, decide_true, hcl, debugEntries_eq h2, hd,
      Bool.false_eq_true, if_false]
    by_cases hc : ∀ a ∈ c.varIndices.zip c.coefficients, a.2 ≠ 0 → a.1 < d.matrix.numCols
    · rw [if_pos hc, key.2 hc]
      rfl
    · rw [if_neg hc, Bool.eq_false_iff.2 (fun h => hc (key.1 h))]
      rfl
  refine ⟨fun hs => ?_, fun hs => ?_, ?_⟩
  · have hd := hds.2 hs.1
    have hp := hdeb hd
    rw [if_pos hs.2] at hp
    simp only [debugAddConstraint, addConstraint, h1, Outcome.bind_ok, debugEntries_eq h2, hd, Bool.false_eq_true, if_false, hp]
  · by_cases hd : v.dirty = true
    · simp [debugAddConstraint, h1, debugEntries_eq h2, hd]
    · have hd : v.dirty = false := by simpa using hd
      have hp := hdeb hd
      rw [if_neg (fun h => hs ⟨hds.1 hd, h⟩)] at hp
      simp [debugAddConstraint, h1, debugEntries_eq h2, hd, hp]
  · obtain ⟨d', g1, g2⟩ := hadd
    refine ⟨d', g1, ?_, ?_, ?_⟩ <;> rw [g2]
    · rfl
    · simp [SparseMatrix.numRows]
    · rfl

theorem debugAddConstraints_eq (cs : List Constraint) : ∀ (d : MipData) (row : Nat),
    (∀ c ∈ cs, c.varIndices.length = c.coefficients.length ∧ ∀ i ∈ c.varIndices, 0 ≤ i) → d.matrix.rowsNeed = false →
    row + cs.length ≤ d.matrix.numRows →
    ((∀ c ∈ cs, RowSorted d.matrix.numCols c) → debugAddConstraints d row cs = addConstraints d row cs) ∧
    (¬ (∀ c ∈ cs, RowSorted d.matrix.numCols c) → debugAddConstraints d row cs = .abort) := by
  induction cs with
  | nil => intro d row _ _ _; exact ⟨fun _ => rfl, fun h => absurd (by simp) h⟩
  | cons c cs ih =>
    intro d row hc hm hrow
    simp only [List.length_cons] at hrow
    obtain ⟨h1, h2, d', h3, h4, h5, h6⟩ := debugAddConstraint_eq (d := d) (row := row) (hc c (by simp)).1 (hc c (by simp)).2 hm
      (by omega)
    obtain ⟨g1, g2⟩ := ih d' (row + 1) (fun c' hc' => hc c' (by simp [hc'])) h4 (by rw [h5]; omega)
    rw [h6] at g1 g2
    unfold debugAddConstraints addConstraints
    by_cases hs : RowSorted d.matrix.numCols c
    · rw [h1 hs, h3]
      simp only [Outcome.bind_ok]
      refine ⟨fun h => g1 fun c' hc' => h c' (by simp [hc']), fun h => g2 fun h' => h fun c' hc' => ?_⟩
      rcases List.mem_cons.1 hc' with rfl | hc'
      · exact hs
      · exact h' c' hc'
    · rw [h2 hs]
      exact ⟨fun h => absurd (h c (by simp)) hs, fun _ => rfl⟩

theorem addVariables_matrix (vs : List Variable) : ∀ (d d' : MipData) (k : Nat), addVariables d k vs = .ok d' →
    d'.matrix = d.matrix := by
  induction vs with
  | nil => intro d d' k h; cases h; rfl
  | cons v vs ih =>
    intro d d' k h
    simp only [addVariables, Outcome.bind_eq_ok] at h
    obtain ⟨d1, h1, h⟩ := h
    rw [ih _ _ _ h]
    simp only [addVariable, Outcome.bind_eq_ok] at h1
    obtain ⟨-, -, h1⟩ := h1
    cases h1
    rfl

end MipData

namespace Setup

/-- **C120**, the constructor of `MipData`.  For every problem that passes the validation, the assertions of its constructor
hold exactly if in every row the variables come in increasing order and exist. -/
theorem C120_data (order : MipData.HashOrder) (p : Problem) (hp : p.findError = "") :
    (p.SortedRows → MipData.debugOfProblem order p = MipData.ofProblem order p) ∧
    (¬ p.SortedRows → MipData.debugOfProblem order p = .abort) := by
  have hc : ∀ c ∈ p.constraints, c.varIndices.length = c.coefficients.length ∧ ∀ i ∈ c.varIndices, 0 ≤ i := by
    unfold Problem.findError at hp
    simp only at hp
    split at hp
    · rename_i h; exact absurd hp h
    · intro c hc
      have := (Problem.constraintError_iff _ _).1 ((Problem.constraintsError_iff _ _).1 hp c hc)
      exact ⟨this.2.2.1, fun i hi => (this.2.1.1 i hi).1⟩
  unfold MipData.debugOfProblem MipData.ofProblem
  simp only [hp, decide_true, Outcome.check, if_true, Outcome.bind_ok]
  cases hv : MipData.addVariables
      { name := p.name, wasMaximization := p.isMaximization, offset := p.offset,
        matrix := SparseMatrix.mk' p.vars.length p.constraints.length } 0 p.vars with
  | ok d =>
    have hmat := MipData.addVariables_matrix _ _ _ _ hv
    simp only [Outcome.bind_ok]
    obtain ⟨h1, h2⟩ := MipData.debugAddConstraints_eq p.constraints
      { d with objective := d.objective.cleanUpIfNeeded, hints := p.hints } 0 hc
      (by simp only [hmat]; rfl) (by simp only [hmat]; simp [SparseMatrix.mk', SparseMatrix.numRows])
    have hn : SparseMatrix.numCols d.matrix = p.vars.length := by rw [hmat]; simp [SparseMatrix.mk', SparseMatrix.numCols]
    simp only [hn] at h1 h2
    exact ⟨fun h => by rw [h1 h], fun h => by rw [h2 h]; rfl⟩
  | error m =>
    exfalso
    have key : ∀ (vs : List Variable) (d : MipData) (k : Nat), MipData.addVariables d k vs ≠ .error m := by
      intro vs
      induction vs with
      | nil => intro d k h; cases h
      | cons v vs ih =>
        intro d k h
        simp only [MipData.addVariables, MipData.addVariable, Outcome.check] at h
        split at h
        · exact ih _ _ h
        · cases h
    exact key _ _ _ hv
  | abort => exact ⟨fun _ => rfl, fun _ => rfl⟩
  | ub =>
    exfalso
    have key : ∀ (vs : List Variable) (d : MipData) (k : Nat), MipData.addVariables d k vs ≠ .ub := by
      intro vs
      induction vs with
      | nil => intro d k h; cases h
      | cons v vs ih =>
        intro d k h
        simp only [MipData.addVariables, MipData.addVariable, Outcome.check] at h
        split at h
        · exact ih _ _ h
        · cases h
    exact key _ _ _ hv

/-- **C120**, `Create`, for every problem, valid or not, and all parameters: with sorted rows the debug build of `Create`
does what the release build does, and with another row it aborts. -/
theorem C120_create (e : External) (p : Problem) (user : ParamsMsg) :
    (p.SortedRows → debugCreate e p user = create e p user) ∧
    (p.findError = "" → ¬ p.SortedRows → debugCreate e p user = .abort) := by
  unfold debugCreate create
  by_cases hp : p.findError = ""
  · obtain ⟨h1, h2⟩ := C120_data e.order p hp
    simp only [hp, ne_eq, not_true_eq_false, if_false]
    exact ⟨fun h => by rw [h1 h], fun _ h => by rw [h2 h]; rfl⟩
  · simp [hp]

/-- `max x + y`, `y + x ≤ 3`, `0 ≤ x, y ≤ 2`, both integer; the row names `y` before `x`. -/
def unsorted : Problem :=
  { vars := [{ name := "x", objective := 1, lower := .fin 0, upper := .fin 2, isInteger := true },
      { name := "y", objective := 1, lower := .fin 0, upper := .fin 2, isInteger := true }]
    constraints := [{ name := "c", varIndices := [1, 0], coefficients := [1, 1], rhs := .fin 3 }]
    isMaximization := true }

/-- **C120 fails** in `Create` for a row that does not name its variables in increasing order: the problem is well-formed, the
release build makes a solver of it, for all parameters it accepts, the debug build aborts. -/
theorem C120_unsorted_violated : unsorted.WellFormed ∧ (∃ e c, create e unsorted {} = .ok c) ∧
    ∀ e user, debugCreate e unsorted user = .abort := by
  have hw : unsorted.WellFormed := by
    simp [Problem.WellFormed, unsorted, Variable.WellFormed, Constraint.WellFormed, Ordered, Dbl.le]
  refine ⟨hw, ?_, fun e user => (C120_create e unsorted user).2 (by decide +kernel) ?_⟩
  · obtain ⟨c, hc⟩ := C73_default_parameters exExternal unsorted hw
    exact ⟨_, c, hc⟩
  · intro h
    have := (h _ (List.mem_singleton.2 rfl)).1
    simp at this

/-- Non-vacuity: a problem with sorted rows. -/
example : Program.side.SortedRows := by
  intro c hc
  simp [Program.side] at hc
  subst hc
  simp [Program.side]

end Setup
end MiniMip
