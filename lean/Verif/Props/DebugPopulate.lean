import Verif.Model.DebugPopulate
import Verif.Props.DebugMatrix
import Verif.Props.Populate

/-!
# C122: filling the LP raises no assertion
-/

namespace MiniMip

open SparseVector (Clean)

theorem SparseMatrix.Debug.allColsAreClean_ok {m : SparseMatrix} {t : Table} (h : Rel m t) :
    ∃ b, allColsAreClean m = .ok b := by
  unfold allColsAreClean
  by_cases hc : m.consistency = .colsNeedRecomputation
  · exact ⟨false, by simp [colsNeed, hc]⟩
  · simp only [colsNeed, beq_iff_eq, hc, if_false]
    have hv := (h.cols hc).inv
    generalize m.cols = l at hv
    induction l with
    | nil => exact ⟨true, rfl⟩
    | cons v r ih =>
      simp only [allClean, SparseVector.debugMayNeed_eq (hv v (by simp)).2, Outcome.bind_ok]
      cases v.dirty with
      | true => exact ⟨false, rfl⟩
      | false => exact ih fun w hw => hv w (by simp [hw])

theorem shows_entries {v : SparseVector} {n : Nat} {f : Nat → ℚ} (h : SparseMatrix.Shows v n f) :
    v.debugEntries = .ok v.entries ∧ indicesBelow n v.entries = true ∧ (v.entries.all fun e => decide (e.value ≠ 0)) = true := by
  obtain ⟨h1, h2, h3, -⟩ := h
  refine ⟨?_, ?_, ?_⟩
  · simp [SparseVector.debugEntries, SparseVector.mayNeedCleaning, h2, MipData.isClean_of h1, Outcome.check, Outcome.pure_eq]
  · simp only [indicesBelow, List.all_eq_true, Bool.and_eq_true, decide_eq_true_eq]
    exact fun e he => ⟨(h1.2 e he).2, h3 e he⟩
  · simp only [List.all_eq_true, decide_eq_true_eq]
    exact fun e he => (h1.2 e he).1

theorem sizesAgree_of {d : MipData} {p : Problem} (h : d.Represents p) : d.sizesAgree = true := by
  simp [MipData.sizesAgree, h.lhs, h.rhs, h.constraintNames, h.variableNames, h.lower, h.upper]

namespace Glop

theorem debugPopulateRows_eq (d : MipData) (n : Nat) : ∀ (g : Interface) (row : Nat),
    debugPopulateRows d g n row = populateRows d g n row := by
  induction n with
  | zero => intro g row; rfl
  | succ n ih =>
    intro g row
    have : ∀ (g : Interface) lhs rhs name, debugAddRow g {} lhs rhs name = addRow g {} lhs rhs name := by
      intro g lhs rhs name
      have h0 : ({} : SparseVector).isClean = true := by decide
      simp [debugAddRow, SparseVector.debugEntries, SparseVector.mayNeedCleaning, Outcome.check, indicesBelow, Outcome.pure_eq, h0]
    simp only [debugPopulateRows, populateRows, this, ih]

theorem debugPopulateColumns_eq {d : MipData} {t : SparseMatrix.Table} (ho : d.objective.dirty = false) (n : Nat) :
    ∀ (col : Nat) (g : Interface) (m : SparseMatrix), SparseMatrix.Rel m t → col + n = t.nc → g.lp.rows.length = t.nr →
      debugPopulateColumns d g m n col = populateColumns d g m n col := by
  induction n with
  | zero => intro col g m _ _ _; rfl
  | succ n ih =>
    intro col g m hm hn hr
    obtain ⟨m', v, hv, hm', hs⟩ := hm.col (c := col) (by omega)
    obtain ⟨h1, h2, -⟩ := shows_entries hs
    have hv' := (SparseMatrix.Debug.col_eq hm (c := col) (by omega)).trans hv
    simp only [debugPopulateColumns, populateColumns, hv, hv', Outcome.bind_ok, debugAddColumn, h1, hr, h2, ho, Outcome.check,
      Bool.not_false, if_true, Outcome.pure_eq]
    have key : ∀ a b s, debugPopulateColumns d (addColumn g v a b (d.objective.value col) s) m' n (col + 1) =
        populateColumns d (addColumn g v a b (d.objective.value col) s) m' n (col + 1) :=
      fun a b s => ih _ _ _ hm' (by omega) (by simpa [addColumn] using hr)
    simp only [key]

/-- **C122** (Glop).  For every well-formed problem and every interface, whatever LP it held: filling the LP raises no assertion
and does what it does in the release build, which succeeds (`C66_populate`). -/
theorem C122_populate {hash : MipData.HashOrder} (p : Problem) (hp : p.WellFormed) (d : MipData)
    (hd : MipData.ofProblem hash p = .ok d) (g : Interface) :
    debugPopulateFromMipData g d = populateFromMipData g d ∧ ∃ g', populateFromMipData g d = .ok g' := by
  obtain ⟨g'', h0, -⟩ := populate_refines p hp d hd g
  refine ⟨?_, g'', h0⟩
  obtain ⟨d', h1, hrep, -, t, ht⟩ := MipData.ofProblem_spec hash p hp
  rw [h1] at hd
  have hd := Outcome.ok.inj hd
  subst hd
  obtain ⟨g1, a1, a2, -⟩ := populateRows_ok hrep p.constraints.length 0 (by omega) (clear g) (by simp [clear, storedRows])
  have e1 : d'.lhs.length = p.constraints.length := by rw [hrep.lhs, List.length_map]
  have e2 : t.nc = p.vars.length := by rw [← ht.ncols]; exact hrep.numCols
  have e3 : t.nr = p.constraints.length := by rw [← ht.nrows]; exact hrep.numRows
  simp only [debugPopulateFromMipData, populateFromMipData, sizesAgree_of hrep, Outcome.check, if_true, Outcome.bind_ok,
    debugPopulateRows_eq, e1, a1]
  rw [debugPopulateColumns_eq hrep.objectiveClean.2 _ _ _ _ ht (by rw [Nat.zero_add]; exact ht.ncols)
    (by simp [a2, storedRows, e3])]

/-- `AddRow` raises no assertion exactly for a clean row on columns of the LP, and then does what it does in the release
build. -/
theorem C122_add_row (g : Interface) (row : SparseVector) (lhs rhs : Dbl) (name : String) :
    (row.dirty = false ∧ Clean row.entries ∧ (∀ e ∈ row.entries, e.index < g.lp.cols.length) →
      debugAddRow g row lhs rhs name = addRow g row lhs rhs name) ∧
    (¬ (row.dirty = false ∧ Clean row.entries ∧ (∀ e ∈ row.entries, e.index < g.lp.cols.length)) →
      debugAddRow g row lhs rhs name = .abort) := by
  have hclean := SparseVector.isClean_iff_clean row
  constructor
  · rintro ⟨h1, h2, h3⟩
    have : indicesBelow g.lp.cols.length row.entries = true := by
      simp only [indicesBelow, List.all_eq_true, Bool.and_eq_true, decide_eq_true_eq]
      exact fun e he => ⟨(h2.2 e he).2, h3 e he⟩
    simp [debugAddRow, SparseVector.debugEntries, SparseVector.mayNeedCleaning, h1, hclean.2 h2, this, Outcome.check,
      Outcome.pure_eq]
  · intro h
    cases hd : row.dirty with
    | true => simp [debugAddRow, SparseVector.debugEntries, SparseVector.mayNeedCleaning, hd, Outcome.check]
    | false =>
      by_cases hc : Clean row.entries
      · have hi : indicesBelow g.lp.cols.length row.entries = false := by
          rw [Bool.eq_false_iff]
          intro hi
          simp only [indicesBelow, List.all_eq_true, Bool.and_eq_true, decide_eq_true_eq] at hi
          exact h ⟨hd, hc, fun e he => (hi e he).2⟩
        simp [debugAddRow, SparseVector.debugEntries, SparseVector.mayNeedCleaning, hd, hclean.2 hc, hi, Outcome.check,
          Outcome.pure_eq]
      · have : row.isClean = false := by rw [Bool.eq_false_iff]; exact fun h => hc (hclean.1 h)
        simp [debugAddRow, SparseVector.debugEntries, this, hd, Outcome.check]

/-- The hypotheses of `C122_populate` hold for a problem with two variables and one constraint. -/
example (hash : MipData.HashOrder) : ∃ d, MipData.ofProblem hash Problem.exProblem = .ok d :=
  (MipData.ofProblem_spec hash _ Problem.exProblem_wellFormed).imp fun _ h => h.1

/-- Both cases of `C122_add_row` occur. -/
example : ∃ g : Interface, (∃ g', debugAddRow g ⟨[⟨0, 2⟩, ⟨2, 1⟩], false⟩ .ninf (.fin 3) "cut" = .ok g') ∧
    debugAddRow g ⟨[⟨0, 2⟩, ⟨3, 1⟩], false⟩ .ninf (.fin 3) "cut" = .abort := by
  refine ⟨addColumns {} [⟨{}, .fin 0, .fin 1, 0, "x"⟩, ⟨{}, .fin 0, .fin 1, 0, "y"⟩, ⟨{}, .fin 0, .fin 1, 0, "z"⟩], ⟨_, rfl⟩, ?_⟩
  decide +kernel

end Glop

namespace Soplex

open Glop (NewColumn NewRow)

theorem valuesBelow_iff {inf : ℚ} (hinf : 0 < inf) {v : SparseVector} {n : Nat} {f : Nat → ℚ}
    (h : SparseMatrix.Shows v n f) : valuesBelow inf v.entries = true ↔ ∀ i < n, |f i| < inf := by
  obtain ⟨h1, -, h3, h4⟩ := h
  simp only [valuesBelow, List.all_eq_true, decide_eq_true_eq]
  constructor
  · intro hv i _
    rw [← h4 i]
    by_cases h0 : v.value i = 0
    · rw [h0, abs_zero]; exact hinf
    · have h5 := (Glop.mem_iff_valueAt (i := (i : Int)) (x := v.value i) h1 h0).mpr (by rfl)
      exact hv ⟨(i : Int), v.value i⟩ h5
  · intro hf e he
    obtain ⟨k, hk⟩ := Int.eq_ofNat_of_zero_le (h1.2 e he).2
    have h5 := h3 e he
    have h6 := h4 k
    rw [← hk, show v.value e.index = SparseVector.valueAt v.entries e.index from rfl, valueAt_mem h1.1 he] at h6
    rw [h6]
    exact hf k (by omega)

theorem checkColumns_ok {t : SparseMatrix.Table} (n : Nat) : ∀ (col : Nat) (m : SparseMatrix), SparseMatrix.Rel m t →
    col + n = t.nc → ∃ m', checkColumns t.nr m n col = .ok m' ∧ SparseMatrix.Rel m' t := by
  induction n with
  | zero => intro col m hm _; exact ⟨m, rfl, hm⟩
  | succ n ih =>
    intro col m hm hn
    obtain ⟨m', v, hv, hm', hs⟩ := hm.col (c := col) (by omega)
    obtain ⟨h1, h2, h3⟩ := shows_entries hs
    obtain ⟨m2, h4, h5⟩ := ih (col + 1) m' hm' (by omega)
    rw [← SparseMatrix.Debug.col_eq hm (by omega)] at hv
    exact ⟨m2, by simp only [checkColumns, hv, Outcome.bind_ok, h1, h2, h3, Outcome.check, if_true, h4], h5⟩

theorem checkMatrix_ok {t : SparseMatrix.Table} {m : SparseMatrix} (h : SparseMatrix.Rel m t) :
    ∃ m', checkMatrix t.nr m = .ok m' ∧ SparseMatrix.Rel m' t := by
  unfold checkMatrix
  split
  · exact ⟨m, rfl, h⟩
  · obtain ⟨b, hb⟩ := SparseMatrix.Debug.allColsAreClean_ok h
    rw [hb, Outcome.bind_ok]
    split
    · exact checkColumns_ok _ _ _ h (by rw [Nat.zero_add]; exact h.ncols)
    · exact ⟨m, rfl, h⟩

/-- Two vectors that show the same values are the same. -/
theorem shows_unique {v w : SparseVector} {n : Nat} {f : Nat → ℚ} (hv : SparseMatrix.Shows v n f)
    (hw : SparseMatrix.Shows w n f) : v = w := by
  obtain ⟨a1, a2, -, a4⟩ := hv
  obtain ⟨b1, b2, -, b4⟩ := hw
  have nodup : ∀ {l : List Entry}, Clean l → l.Nodup := fun h => h.1.imp fun hlt heq => by subst heq; exact lt_irrefl _ hlt
  have sub : ∀ {v w : SparseVector}, Clean v.entries → Clean w.entries → (∀ i : Nat, v.value i = w.value i) →
      ∀ e ∈ v.entries, e ∈ w.entries := by
    intro v w hv hw h e he
    obtain ⟨h1, h2⟩ := hv.2 e he
    obtain ⟨k, hk⟩ := Int.eq_ofNat_of_zero_le h2
    have h3 := h k
    rw [← hk, show v.value e.index = SparseVector.valueAt v.entries e.index from rfl, valueAt_mem hv.1 he] at h3
    have := (Glop.mem_iff_valueAt (i := e.index) hw h1).mpr h3.symm
    cases e
    exact this
  have hp : v.entries.Perm w.entries := by
    rw [List.perm_ext_iff_of_nodup (nodup a1) (nodup b1)]
    exact fun e => ⟨sub a1 b1 (fun i => by rw [a4, b4]) e, sub b1 a1 (fun i => by rw [a4, b4]) e⟩
  have he : v.entries = w.entries := hp.eq_of_pairwise (fun a b _ _ h1 h2 => absurd h1 (lt_asymm h2)) a1.1 b1.1
  cases v
  cases w
  simp_all

/-- The columns read are those of the release build if no coefficient is infinite for SoPlex, otherwise an assertion
fails. -/
theorem debugReadColumns_eq {inf : ℚ} (hinf : 0 < inf) {d : MipData} {w : List ℚ} {t : SparseMatrix.Table} (n : Nat) :
    ∀ (col : Nat) (m m' : SparseMatrix), SparseMatrix.Rel m t → SparseMatrix.Rel m' t → col + n = t.nc →
      (∃ cs, readColumns d w m' n col = .ok cs) →
      ((∀ j, col ≤ j → j < t.nc → ∀ r < t.nr, |t.cell j r| < inf) →
        debugReadColumns inf d w m n col = readColumns d w m' n col) ∧
      (¬ (∀ j, col ≤ j → j < t.nc → ∀ r < t.nr, |t.cell j r| < inf) → debugReadColumns inf d w m n col = .abort) := by
  induction n with
  | zero =>
    intro col m m' _ _ hn _
    exact ⟨fun _ => rfl, fun h => absurd (fun j h1 h2 => by omega) h⟩
  | succ n ih =>
    intro col m m' hm hm' hn ⟨cs, hok⟩
    obtain ⟨m1, v1, c1, r1, s1⟩ := hm.col (c := col) (by omega)
    obtain ⟨m2, v2, c2, r2, s2⟩ := r1.col (c := col) (by omega)
    rw [← SparseMatrix.Debug.col_eq hm (by omega)] at c1
    rw [← SparseMatrix.Debug.col_eq r1 (by omega)] at c2
    obtain ⟨m3, v3, c3, r3, s3⟩ := hm'.col (c := col) (by omega)
    obtain ⟨m4, v4, c4, r4, s4⟩ := r3.col (c := col) (by omega)
    obtain rfl := shows_unique s2 s4
    obtain ⟨e1, -⟩ := shows_entries s1
    obtain ⟨e2, -⟩ := shows_entries s2
    have hb := valuesBelow_iff hinf s2
    simp only [readColumns, c3, c4, Outcome.bind_ok, Outcome.bind_eq_ok] at hok
    obtain ⟨x, hx, lo, hlo, up, hup, rest, hrest, -⟩ := hok
    obtain ⟨ih1, ih2⟩ := ih (col + 1) m2 m4 r2 r4 (by omega) ⟨rest, hrest⟩
    simp only [debugReadColumns, readColumns, c1, c2, c3, c4, e1, e2, Outcome.bind_ok, Outcome.check]
    constructor
    · intro h
      rw [if_pos (hb.2 (h col le_rfl (by omega))), Outcome.bind_ok,
        ih1 fun j h1 h2 => h j (by omega) h2]
    · intro h
      by_cases h0 : valuesBelow inf v2.entries = true
      · rw [if_pos h0, Outcome.bind_ok, hx, hlo, hup]
        simp only [Outcome.bind_ok]
        rw [ih2, Outcome.bind_abort]
        intro h'
        apply h
        intro j h1 h2
        rcases Nat.eq_or_lt_of_le h1 with rfl | h1
        · exact hb.1 h0
        · exact h' j h1 h2
      · rw [if_neg h0, Outcome.bind_abort]

/-- No coefficient of the problem is infinite for SoPlex. -/
def Moderate (inf : ℚ) (p : Problem) : Prop :=
  ∀ r < p.constraints.length, ∀ j < p.vars.length, |p.relaxation.coef r j| < inf

/-- **C122** (SoPlex), partial: what is missing is `C122_coefficient_violated`.  For every well-formed problem and every
interface outside strong branching, whatever LP it held, with any positive value of SoPlex's parameter `INFTY`: if every
coefficient is below it, filling the LP raises no assertion and does what it does in the release build, which succeeds
(`C66_populate`); otherwise the debug build aborts. -/
theorem C122_populate_partial {hash : MipData.HashOrder} (p : Problem) (hp : p.WellFormed) (d : MipData)
    (hd : MipData.ofProblem hash p = .ok d) (g : Interface) (hf : freed g = true) (inf : ℚ) (hinf : 0 < inf) :
    (∃ g', populateFromMipData g d = .ok g') ∧
    (Moderate inf p → debugPopulateFromMipData inf g d = populateFromMipData g d) ∧
    (¬ Moderate inf p → debugPopulateFromMipData inf g d = .abort) := by
  obtain ⟨g'', h0, -⟩ := populate_refines p hp d hd g hf
  refine ⟨⟨g'', h0⟩, ?_⟩
  obtain ⟨d', h1, hrep, -, t, ht⟩ := MipData.ofProblem_spec hash p hp
  rw [h1] at hd
  have hd := Outcome.ok.inj hd
  subst hd
  obtain ⟨w, a1, a2⟩ := objectiveVector_value hrep
  obtain ⟨cs, b1, -⟩ := readColumns_ok hrep ht a2 p.vars.length 0 (by omega) d'.matrix ht
  have e1 : d'.lhs.length = p.constraints.length := by rw [hrep.lhs, List.length_map]
  have e2 : d'.matrix.numCols = p.vars.length := hrep.numCols
  have e3 := emptyRows_ok hrep p.constraints.length 0 (by omega)
  have e4 : t.nc = p.vars.length := by rw [← ht.ncols]; exact hrep.numCols
  have e5 : t.nr = p.constraints.length := by rw [← ht.nrows]; exact hrep.numRows
  have hf' : g.savedRows.isEmpty = true ∧ g.savedCols.isEmpty = true := by simpa [freed] using hf
  have ho : d'.objective.debugEntries = .ok d'.objective.entries := by
    simp [SparseVector.debugEntries, SparseVector.mayNeedCleaning, hrep.objectiveClean.2,
      MipData.isClean_of hrep.objectiveClean.1, Outcome.check, Outcome.pure_eq]
  obtain ⟨m, hm, hrel⟩ := checkMatrix_ok ht
  rw [e5] at hm
  obtain ⟨c1, c2⟩ := debugReadColumns_eq hinf (d := d') (w := w) p.vars.length 0 m d'.matrix hrel ht (by rw [e4, Nat.zero_add])
    ⟨cs, b1⟩
  have hmod : Moderate inf p ↔ ∀ j, 0 ≤ j → j < t.nc → ∀ r < t.nr, |t.cell j r| < inf := by
    rw [e4, e5]
    constructor
    · intro h j _ hj r hr
      rw [table_cell hrep ht hj hr]
      exact h r hr j hj
    · intro h r hr j hj
      rw [← table_cell hrep ht hj hr]
      exact h j (Nat.zero_le j) hj r hr
  simp only [debugPopulateFromMipData, populateFromMipData, clear, freed, hf'.1, hf'.2, Bool.and_self, Outcome.check, if_true,
      Outcome.bind_ok, Outcome.pure_eq, e1, e2, e3, List.drop_zero, addRowsReal_empty, a1, ho, sizesAgree_of hrep]
  simp only [List.nil_append, List.length_map, storedRows, hm, Outcome.bind_ok]
  exact ⟨fun h => by rw [c1 (hmod.1 h)], fun h => by rw [c2 (fun h' => h (hmod.2 h')), Outcome.bind_abort]⟩

/-- The hypotheses of `C122_populate_partial` hold for a problem with two variables and one constraint, with SoPlex's
`INFTY` and an interface that holds another LP; its coefficients are below `INFTY`. -/
example (hash : MipData.HashOrder) : (∃ d, MipData.ofProblem hash Problem.exProblem = .ok d) ∧
    freed { lp := twoColumns, settings := initialSettings } = true ∧ Moderate (10 ^ 100) Problem.exProblem := by
  refine ⟨(MipData.ofProblem_spec hash _ Problem.exProblem_wellFormed).imp fun _ h => h.1, rfl, ?_⟩
  unfold Moderate
  decide +kernel

/-- The problem with one binary variable `x` and the constraint `c · x ≤ c`. -/
def scaledProblem (c : ℚ) : Problem :=
  { vars := [{ name := "x", objective := 1, lower := .fin 0, upper := .fin 1, isInteger := true }]
    constraints := [{ name := "r", varIndices := [0], coefficients := [c], lhs := .ninf, rhs := .fin c }] }

/-- **C122** (SoPlex): the assertion that a coefficient is not infinite is about the user's data, which is not checked for
it.  For every value of `INFTY` (it is 1e100) there is a well-formed problem that passes validation, with both solutions
of its one binary variable feasible, which the release build loads into SoPlex while the debug build aborts. -/
theorem C122_coefficient_violated (hash : MipData.HashOrder) (inf : ℚ) (hinf : 0 < inf) (g : Interface)
    (hf : freed g = true) :
    ∃ p : Problem, p.WellFormed ∧ p.findError = "" ∧ p.Feasible (fun _ => 0) ∧ p.Feasible (fun _ => 1) ∧
      ∃ d g', MipData.ofProblem hash p = .ok d ∧ populateFromMipData g d = .ok g' ∧
        debugPopulateFromMipData inf g d = .abort := by
  have hwf : (scaledProblem inf).WellFormed := by
    simp [Problem.WellFormed, scaledProblem, Variable.WellFormed, Constraint.WellFormed, Ordered, Dbl.le]
  obtain ⟨d, hd, -⟩ := MipData.ofProblem_spec hash _ hwf
  obtain ⟨⟨g', h1⟩, -, h3⟩ := C122_populate_partial _ hwf d hd g hf inf hinf
  have hfeas : ∀ k : Int, 0 ≤ k → k ≤ 1 → (scaledProblem inf).Feasible fun _ => k := by
    intro k h0 h1
    have h0' : (0 : ℚ) ≤ k := by exact_mod_cast h0
    have h1' : (k : ℚ) ≤ 1 := by exact_mod_cast h1
    constructor
    · intro n v hv
      rcases n with _ | n
      · obtain rfl : _ = v := by simpa [scaledProblem] using hv
        exact ⟨⟨decide_eq_true h0', decide_eq_true h1'⟩, fun _ => ⟨k, rfl⟩⟩
      · simp [scaledProblem] at hv
    · intro c hc
      obtain rfl : c = _ := by simpa [scaledProblem] using hc
      refine ⟨rfl, decide_eq_true ?_⟩
      simp only [Constraint.activity]
      simp
      nlinarith
  refine ⟨scaledProblem inf, hwf, (Problem.C08_validation_partial _).1 hwf, by simpa using hfeas 0 le_rfl zero_le_one,
    by simpa using hfeas 1 zero_le_one le_rfl, d, g', hd, h1, h3 fun h => ?_⟩
  have h0 := h 0 (by simp [scaledProblem]) 0 (by simp [scaledProblem])
  simp [scaledProblem, Problem.relaxation, Constraint.coefficientOf, abs_of_pos hinf] at h0

/-- `AddRow` raises no assertion exactly for a clean row on columns of the LP without coefficients that are infinite for
SoPlex, and then does what it does in the release build. -/
theorem C122_add_row (inf : ℚ) (g : Interface) (r : NewRow) :
    (r.row.dirty = false ∧ Clean r.row.entries ∧
        (∀ e ∈ r.row.entries, e.index < g.lp.cols.length ∧ |e.value| < inf) →
      debugAddRow inf g r = addRow g r) ∧
    (¬ (r.row.dirty = false ∧ Clean r.row.entries ∧
        ∀ e ∈ r.row.entries, e.index < g.lp.cols.length ∧ |e.value| < inf) →
      debugAddRow inf g r = .abort) := by
  have hclean := SparseVector.isClean_iff_clean r.row
  have hbelow : valuesBelow inf r.row.entries = true ↔ ∀ e ∈ r.row.entries, |e.value| < inf := by
    simp only [valuesBelow, List.all_eq_true, decide_eq_true_eq]
  constructor
  · rintro ⟨h1, h2, h3⟩
    have hi : indicesBelow g.lp.cols.length r.row.entries = true := by
      simp only [indicesBelow, List.all_eq_true, Bool.and_eq_true, decide_eq_true_eq]
      exact fun e he => ⟨(h2.2 e he).2, (h3 e he).1⟩
    have hz : (r.row.entries.all fun e => decide (e.value ≠ 0)) = true := by
      simp only [List.all_eq_true, decide_eq_true_eq]
      exact fun e he => (h2.2 e he).1
    simp only [debugAddRow, SparseVector.debugEntries, SparseVector.mayNeedCleaning, h1, hclean.2 h2, hi, hz,
      hbelow.2 fun e he => (h3 e he).2, Outcome.check, Outcome.pure_eq, Outcome.bind_ok, Bool.true_or, Bool.not_false,
      if_true]
  · intro h
    cases hd : r.row.dirty with
    | true => simp [debugAddRow, SparseVector.debugEntries, SparseVector.mayNeedCleaning, hd, Outcome.check]
    | false =>
      by_cases hc : Clean r.row.entries
      · have hz : (r.row.entries.all fun e => decide (e.value ≠ 0)) = true := by
          simp only [List.all_eq_true, decide_eq_true_eq]
          exact fun e he => (hc.2 e he).1
        simp only [debugAddRow, SparseVector.debugEntries, SparseVector.mayNeedCleaning, hd, hclean.2 hc, hz, Outcome.check,
          Outcome.pure_eq, Outcome.bind_ok, Bool.true_or, Bool.not_false, if_true]
        by_cases hi : indicesBelow g.lp.cols.length r.row.entries = true
        · rw [if_pos hi, Outcome.bind_ok, if_neg, Outcome.bind_abort]
          intro hv
          simp only [indicesBelow, List.all_eq_true, Bool.and_eq_true, decide_eq_true_eq] at hi
          exact h ⟨hd, hc, fun e he => ⟨(hi e he).2, hbelow.1 hv e he⟩⟩
        · rw [if_neg hi, Outcome.bind_abort]
      · have : r.row.isClean = false := by rw [Bool.eq_false_iff]; exact fun h => hc (hclean.1 h)
        simp [debugAddRow, SparseVector.debugEntries, this, hd, Outcome.check]

/-- Both cases of `C122_add_row` occur. -/
example : (∃ g', debugAddRow (10 ^ 100) { lp := twoColumns, settings := initialSettings } ⟨⟨[⟨0, 2⟩, ⟨1, 1⟩], false⟩, .ninf, .fin 3, "cut"⟩ = .ok g') ∧
    debugAddRow (10 ^ 100) { lp := twoColumns, settings := initialSettings } ⟨⟨[⟨0, 2⟩, ⟨1, 10 ^ 100⟩], false⟩, .ninf, .fin 3, "cut"⟩ = .abort := by
  refine ⟨⟨_, ((C122_add_row _ _ _).1 ?_).trans rfl⟩, (C122_add_row _ _ _).2 ?_⟩
  · refine ⟨rfl, ⟨?_, ?_⟩, ?_⟩ <;> decide +kernel
  · rintro ⟨-, -, h⟩
    exact absurd (h ⟨1, 10 ^ 100⟩ (by simp)).2 (by simp)

end Soplex
end MiniMip
