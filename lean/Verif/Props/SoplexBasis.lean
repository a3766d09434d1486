import Verif.Props.SoplexSolve

/-!
# Properties C52, C53, C54 and C69 for the SoPlex interface
-/

namespace MiniMip
namespace Soplex

open Glop (LinearProgram Column Row NewColumn NewRow Modification)
open SparseVector

/-! ### C52: the basis round trip -/

/-- The status read back: `fixed` becomes `atLower`. -/
def readBack (s : LpBasisStatus) : LpBasisStatus := if s = .fixed then .atLower else s

theorem fillRows_eq (rs : List LpBasisStatus) (h : .free ∉ rs) :
    ∃ l, fillRows rs = (l, true) ∧ convertAll convertRow l = .ok (rs.map readBack) ∧
      l.length = rs.length := by
  induction rs with
  | nil => exact ⟨[], rfl, rfl, rfl⟩
  | cons s r ih =>
    obtain ⟨l, h1, h2, h3⟩ := ih (fun hc => h (by simp [hc]))
    cases s with
    | free => simp at h
    | basic | atLower | atUpper | fixed =>
      refine ⟨_ :: l, by simp only [fillRows, toRowStatus, h1]; rfl, ?_, by simp [h3]⟩
      simp [convertAll, convertRow, h2, readBack]

theorem convertAll_columns (cs : List LpBasisStatus) :
    convertAll convertColumn (cs.map toColStatus) = .ok (cs.map readBack) := by
  induction cs with
  | nil => rfl
  | cons s r ih =>
    cases s <;> simp [convertAll, toColStatus, convertColumn, ih, readBack]

theorem set_get_basis (g : Interface) (hf : freed g = true) (cs rs : List LpBasisStatus)
    (hc : (cs.length : Int) = getNumberOfColumns g) (hr : (rs.length : Int) = getNumberOfRows g)
    (hfree : .free ∉ rs) (b : BasisStatus) :
    ∃ g', setBasisStatus g cs rs false .optimal b = .ok (g', true) ∧ g'.lp = g.lp ∧
      freed g' = true ∧
      getBasisStatusForColumns g' = .ok (cs.map readBack) ∧
      getBasisStatusForRows g' = .ok (rs.map readBack) := by
  have hc : cs.length = g.lp.cols.length := by simpa [getNumberOfColumns] using hc
  have hr : rs.length = g.lp.rows.length := by simpa [getNumberOfRows] using hr
  obtain ⟨l, h1, h2, h3⟩ := fillRows_eq rs hfree
  have hc1 : Glop.firstN cs g.lp.cols.length = .ok cs := by
    simp only [Glop.firstN, ← hc, lt_irrefl, if_false, List.take_length]
  have hr1 : Glop.firstN rs g.lp.rows.length = .ok rs := by
    simp only [Glop.firstN, ← hr, lt_irrefl, if_false, List.take_length]
  have hopt : ∀ g' : Interface, g'.status = .optimal → isOptimal g' = .ok true := by
    intro g' hg'
    obtain ⟨o, h4, -⟩ := C68_status_queries g'
    have h5 := h4
    unfold isOptimal at h5
    obtain ⟨-, -, h5⟩ := Outcome.bind_eq_ok.mp h5
    have h5 := Outcome.ok.inj h5
    rw [h4, ← h5, hg']; rfl
  refine ⟨{ g with
    isSolved := false
    colStatus := cs.map toColStatus, rowStatus := l
    status := .optimal, basisStatus := b
    savedRows := [], savedCols := [] }, ?_, rfl, rfl, ?_, ?_⟩
  · simp [setBasisStatus, hf, Outcome.check, hc1, hr1, h1]
  · unfold getBasisStatusForColumns
    rw [hopt _ rfl]
    have : Glop.firstN (cs.map toColStatus) g.lp.cols.length = .ok (cs.map toColStatus) := by
      simp only [Glop.firstN, List.length_map, ← hc, lt_irrefl, if_false]
      rw [List.take_of_length_le (by simp)]
    simp [freed, Outcome.check, this, convertAll_columns]
  · unfold getBasisStatusForRows
    rw [hopt _ rfl]
    have : Glop.firstN l g.lp.rows.length = .ok l := by
      simp only [Glop.firstN, h3, ← hr, lt_irrefl, if_false]
      rw [List.take_of_length_le (by omega)]
    simp [freed, Outcome.check, this, h2]

/-- **C52** (SoPlex), partial: what is missing are `kFixed` (`C52_fixed_violated`), `kFree` for rows
(`C53_unusable_violated`) and bases that SoPlex does not report optimal
(`C52_not_optimal_violated`).  All other statuses survive setting and reading. -/
theorem C52_round_trip_partial (g : Interface) (hf : freed g = true) (cs rs : List LpBasisStatus)
    (hc : (cs.length : Int) = getNumberOfColumns g) (hr : (rs.length : Int) = getNumberOfRows g)
    (hcf : .fixed ∉ cs) (hrf : .fixed ∉ rs) (hfree : .free ∉ rs) (b : BasisStatus) :
    ∃ g', setBasisStatus g cs rs false .optimal b = .ok (g', true) ∧ g'.lp = g.lp ∧
      getBasisStatusForColumns g' = .ok cs ∧ getBasisStatusForRows g' = .ok rs := by
  have key : ∀ l : List LpBasisStatus, .fixed ∉ l → l.map readBack = l := by
    intro l hl
    conv_rhs => rw [← List.map_id l]
    apply List.map_congr_left
    intro s hs
    have : s ≠ .fixed := fun h => hl (h ▸ hs)
    simp [readBack, this]
  obtain ⟨g', h1, h2, -, h3, h4⟩ := set_get_basis g hf cs rs hc hr hfree b
  exact ⟨g', h1, h2, by rw [h3, key _ hcf], by rw [h4, key _ hrf]⟩

example : freed solvedInterface = true ∧
    (([.atUpper, .free] : List LpBasisStatus).length : Int) = getNumberOfColumns solvedInterface ∧
    (([.basic] : List LpBasisStatus).length : Int) = getNumberOfRows solvedInterface :=
  ⟨rfl, rfl, rfl⟩

/-- **C52** is violated by `kFixed`, which is read back as `kAtLowerBound`, for columns and rows. -/
theorem C52_fixed_violated (b : BasisStatus) :
    ∃ g', setBasisStatus solvedInterface [.fixed, .basic] [.fixed] false .optimal b = .ok (g', true) ∧
      getBasisStatusForColumns g' = .ok [.atLower, .basic] ∧
      getBasisStatusForRows g' = .ok [.atLower] := by
  obtain ⟨g', h1, -, -, h3, h4⟩ := set_get_basis solvedInterface rfl [.fixed, .basic] [.fixed] rfl rfl
    (by simp) b
  exact ⟨g', h1, h3, h4⟩

/-- **C52** is violated by every basis SoPlex does not report optimal: reading it aborts. -/
theorem C52_not_optimal_violated (g g' : Interface) (cs rs : List LpBasisStatus) (t ok : Bool)
    (st : Status) (b : BasisStatus) (hst : st ≠ .optimal)
    (h : setBasisStatus g cs rs t st b = .ok (g', ok)) (hok : ok = true) :
    getBasisStatusForColumns g' = .abort ∧ getBasisStatusForRows g' = .abort := by
  have hg' : g'.status = st := by
    unfold setBasisStatus at h
    obtain ⟨_, _, h⟩ := Outcome.bind_eq_ok.mp h
    obtain ⟨_, _, h⟩ := Outcome.bind_eq_ok.mp h
    obtain ⟨_, _, h⟩ := Outcome.bind_eq_ok.mp h
    dsimp only at h
    split at h
    · have h := Outcome.ok.inj h
      simp only [Prod.mk.injEq] at h
      rw [← h.2] at hok; simp at hok
    · split at h
      · have h := Outcome.ok.inj h
        simp only [Prod.mk.injEq] at h
        rw [← h.2] at hok; simp at hok
      · have h := Outcome.ok.inj h
        simp only [Prod.mk.injEq] at h
        rw [← h.1]
  have hopt : isOptimal g' = .ok false := by
    obtain ⟨o, h4, -⟩ := C68_status_queries g'
    have h5 := h4
    unfold isOptimal at h5
    obtain ⟨-, -, h5⟩ := Outcome.bind_eq_ok.mp h5
    have h5 := Outcome.ok.inj h5
    rw [h4, ← h5, hg', decide_eq_false hst]
  constructor
  · cases hf : freed g' <;> simp [getBasisStatusForColumns, hf, hopt, Outcome.check]
  · cases hf : freed g' <;> simp [getBasisStatusForRows, hf, hopt, Outcome.check]

example : ∃ g', setBasisStatus solvedInterface [.atUpper, .free] [.basic] false .regular .regular =
    .ok (g', true) := ⟨_, rfl⟩

/-! ### C53: a basis that cannot be loaded -/

theorem fillRows_free (rs : List LpBasisStatus) (h : .free ∈ rs) :
    (fillRows rs).2 = false ∧ (fillRows rs).1 ≠ [] := by
  induction rs with
  | nil => simp at h
  | cons s r ih =>
    cases s with
    | free => simp [fillRows, toRowStatus]
    | basic | atLower | atUpper | fixed =>
      have := ih (by simpa using h)
      simp [fillRows, toRowStatus, this.1]

/-- **C53** (SoPlex), partial: what is missing is that later calls work
(`C53_unusable_violated`).  A load that returns an error leaves the LP, the basis, the statuses and
the parameters as they were. -/
theorem C53_failed_load_partial {g g' : Interface} {cs rs : List LpBasisStatus} {t : Bool}
    {st : Status} {b : BasisStatus} (h : setBasisStatus g cs rs t st b = .ok (g', false)) :
    g'.lp = g.lp ∧ g'.colStatus = g.colStatus ∧ g'.rowStatus = g.rowStatus ∧
    g'.status = g.status ∧ g'.basisStatus = g.basisStatus ∧ g'.settings = g.settings := by
  unfold setBasisStatus at h
  obtain ⟨_, _, h⟩ := Outcome.bind_eq_ok.mp h
  obtain ⟨_, _, h⟩ := Outcome.bind_eq_ok.mp h
  obtain ⟨_, _, h⟩ := Outcome.bind_eq_ok.mp h
  dsimp only at h
  split at h
  · have h := congrArg Prod.fst (Outcome.ok.inj h)
    simp only at h
    subst h
    exact ⟨rfl, rfl, rfl, rfl, rfl, rfl⟩
  · split at h
    · have h := congrArg Prod.fst (Outcome.ok.inj h)
      simp only at h
      subst h
      exact ⟨rfl, rfl, rfl, rfl, rfl, rfl⟩
    · have h := congrArg Prod.snd (Outcome.ok.inj h)
      simp at h

/-- A load that returns OK leaves the LP and the parameters as they were and no session open. -/
theorem C53_successful_load {g g' : Interface} {cs rs : List LpBasisStatus} {t : Bool}
    {st : Status} {b : BasisStatus} (h : setBasisStatus g cs rs t st b = .ok (g', true)) :
    g'.lp = g.lp ∧ g'.settings = g.settings ∧ freed g' = true := by
  unfold setBasisStatus at h
  obtain ⟨_, _, h⟩ := Outcome.bind_eq_ok.mp h
  obtain ⟨_, _, h⟩ := Outcome.bind_eq_ok.mp h
  obtain ⟨_, _, h⟩ := Outcome.bind_eq_ok.mp h
  dsimp only at h
  split at h
  · have h := congrArg Prod.snd (Outcome.ok.inj h)
    simp at h
  · split at h
    · have h := congrArg Prod.snd (Outcome.ok.inj h)
      simp at h
    · have h := congrArg Prod.fst (Outcome.ok.inj h)
      simp only at h
      subst h
      exact ⟨rfl, rfl, rfl⟩

/-- The calls that abort while a basis is saved. -/
theorem aborts_of_not_freed (a : Accepts) (g : Interface) (hf : freed g = false) :
    (∀ m : Modification, (∀ r, m ≠ .addRow r) → call g m = .abort) ∧
    (∀ eps t ans, soPlexSolve a g eps t ans = .abort) ∧
    (∀ cs rs t st b, setBasisStatus g cs rs t st b = .abort) ∧
    startStrongBranching g = .abort := by
  refine ⟨?_, ?_, ?_, ?_⟩
  · intro m hm
    cases m
    case addRow r => exact absurd rfl (hm r)
    all_goals simp [call, addColumn, addColumns, addRows, deleteColumns, deleteRows, deleteRowSet,
      setColumnBounds, setRowSides, setObjectiveSense, setObjectiveCoefficient, clear, hf,
      Outcome.check]
  · intro eps t ans
    have : freed { g with isSolved := false } = false := hf
    simp [soPlexSolve, this, Outcome.check]
  · intro cs rs t st b
    simp [setBasisStatus, hf, Outcome.check]
  · simp [startStrongBranching, hf, Outcome.check]

/-- **C53** is violated by every basis with a free row: the load returns an error, and afterwards
every modification except `AddRow`, every solve, every other load of a basis and the start of strong
branching abort, although all of them were possible before. -/
theorem C53_unusable_violated (a : Accepts) (g : Interface) (hf : freed g = true)
    (cs rs : List LpBasisStatus)
    (hc : (cs.length : Int) = getNumberOfColumns g) (hr : (rs.length : Int) = getNumberOfRows g)
    (hfree : .free ∈ rs) (t : Bool) (st : Status) (b : BasisStatus) :
    ∃ g', setBasisStatus g cs rs t st b = .ok (g', false) ∧
      (∀ m : Modification, (∀ r, m ≠ .addRow r) → call g' m = .abort) ∧
      (∀ eps t ans, soPlexSolve a g' eps t ans = .abort) ∧
      (∀ cs rs t st b, setBasisStatus g' cs rs t st b = .abort) ∧
      startStrongBranching g' = .abort := by
  have hc : cs.length = g.lp.cols.length := by simpa [getNumberOfColumns] using hc
  have hr : rs.length = g.lp.rows.length := by simpa [getNumberOfRows] using hr
  have hc1 : Glop.firstN cs g.lp.cols.length = .ok cs := by
    simp only [Glop.firstN, ← hc, lt_irrefl, if_false, List.take_length]
  have hr1 : Glop.firstN rs g.lp.rows.length = .ok rs := by
    simp only [Glop.firstN, ← hr, lt_irrefl, if_false, List.take_length]
  obtain ⟨h1, h2⟩ := fillRows_free rs hfree
  refine ⟨_, by simp [setBasisStatus, hf, Outcome.check, hc1, hr1, h1]; rfl,
    aborts_of_not_freed a _ ?_⟩
  simp [freed, h2]

/-- **C53** is violated in the same way when SoPlex rejects the basis with an exception. -/
theorem C53_exception_violated (a : Accepts) (st : Status) (b : BasisStatus) :
    ∃ g', setBasisStatus solvedInterface [.basic, .atLower] [.basic] true st b = .ok (g', false) ∧
      (∀ eps t ans, soPlexSolve a g' eps t ans = .abort) :=
  ⟨_, rfl, (aborts_of_not_freed a _ rfl).2.1⟩

/-! ### C54 and C69: rows and columns of the basis inverse -/

/-- What SoPlex documents about a row of the inverse of a basis of `n` rows: the dense row has `n`
elements, and if a list of indices is given, it has no duplicates and all other elements are 0. -/
structure RowOk (n : Nat) (a : InverseRow) : Prop where
  length : a.dense.length = n
  num : a.num = -1 ∨ (0 ≤ a.num ∧ a.num.toNat ≤ a.indices.length ∧
    (a.indices.take a.num.toNat).Nodup ∧
    (∀ i ∈ a.indices.take a.num.toNat, 0 ≤ i ∧ i < n) ∧
    ∀ i : Nat, (i : Int) ∉ a.indices.take a.num.toNat → a.dense.getD i 0 = 0)

theorem addDense_spec (v : SparseVector) (hv : Inv v) (k : Nat) (l : List ℚ)
    (hk : ∀ i : Int, (k : Int) ≤ i → lastFrom (fun _ => 0) v.entries i = 0) :
    Inv (addDense v k l) ∧ ∀ i : Nat, lastFrom (fun _ => 0) (addDense v k l).entries i =
      if k ≤ i then l.getD (i - k) 0 else lastFrom (fun _ => 0) v.entries i := by
  induction l generalizing v k with
  | nil =>
    refine ⟨hv, fun i => ?_⟩
    simp only [addDense, List.getD_nil]
    split
    · exact hk i (by omega)
    · rfl
  | cons x r ih =>
    have hk0 : (0 : Int) ≤ (k : Int) := by omega
    have hcase : Inv (if x ≠ 0 then v.addEntry (k : Int) x else v) ∧
        ∀ i : Int, lastFrom (fun _ => 0) (if x ≠ 0 then v.addEntry (k : Int) x else v).entries i =
          if i = k then x else lastFrom (fun _ => 0) v.entries i := by
      by_cases hx : x = 0
      · simp only [hx, ne_eq, not_true_eq_false, if_false]
        refine ⟨hv, fun i => ?_⟩
        split
        · next h => rw [h, hk _ le_rfl]
        · rfl
      · simp only [ne_eq, hx, not_false_eq_true, if_true]
        refine ⟨hv.addEntry hk0 x, fun i => ?_⟩
        rw [lastFrom_addEntry hv hk0]
        by_cases hi : i = k
        · subst hi; simp
        · simp [hi]
    obtain ⟨h1, h2⟩ := ih _ hcase.1 (k + 1) (by
      intro i hi
      rw [hcase.2, if_neg (by omega)]
      exact hk i (by omega))
    refine ⟨h1, fun i => ?_⟩
    rw [addDense, h2 i]
    rcases lt_trichotomy i k with hlt | heq | hgt
    · rw [if_neg (by omega), hcase.2, if_neg (by omega), if_neg (by omega)]
    · subst heq
      rw [if_neg (by omega), if_pos le_rfl, hcase.2, if_pos rfl]; simp
    · rw [if_pos (by omega), if_pos (by omega)]
      obtain ⟨m, rfl⟩ : ∃ m, i = k + 1 + m := ⟨i - (k + 1), by omega⟩
      rw [show k + 1 + m - (k + 1) = m by omega, show k + 1 + m - k = m + 1 by omega]
      simp

theorem addIndexed_spec (d : List ℚ) (v : SparseVector) (hv : Inv v) (l : List Int)
    (hl : ∀ i ∈ l, 0 ≤ i ∧ i < d.length) :
    ∃ w, addIndexed d v l = .ok w ∧ Inv w ∧ ∀ i : Nat, lastFrom (fun _ => 0) w.entries i =
      if (i : Int) ∈ l then d.getD i 0 else lastFrom (fun _ => 0) v.entries i := by
  induction l generalizing v with
  | nil => exact ⟨v, rfl, hv, by simp⟩
  | cons j r ih =>
    obtain ⟨hj0, hj1⟩ := hl j (by simp)
    have hd : denseAt d j = .ok (d.getD j.toNat 0) := by
      have : j.toNat < d.length := by omega
      simp [denseAt, show ¬ j < 0 by omega, List.getElem?_eq_getElem this]
    obtain ⟨w, h1, h2, h3⟩ := ih (v.addEntry j (d.getD j.toNat 0)) (hv.addEntry hj0 _)
      (fun i hi => hl i (by simp [hi]))
    refine ⟨w, by simp only [addIndexed, hd, Outcome.bind_ok, h1], h2, fun i => ?_⟩
    rw [h3, lastFrom_addEntry hv hj0]
    by_cases hi : (i : Int) ∈ r
    · simp [hi]
    · by_cases hij : (i : Int) = j
      · subst hij; simp [hi]
      · simp [hi, hij]

/-- **C69** (SoPlex).  Outside strong branching, for every row of the basis inverse SoPlex can
compute, in dense or index-list form, `GetSparseRowOfBInverted` returns a clean vector with exactly
the elements of the row. -/
theorem C69_inverse_row (g : Interface) (hf : freed g = true)
    (inverse : Nat → Option InverseRow) (r : Nat) (a : InverseRow) (ha : inverse r = some a)
    (hok : RowOk g.lp.rows.length a) :
    ∃ v, getSparseRowOfBInverted g inverse r = .ok v ∧ v.mayNeedCleaning = false ∧ Clean v.entries ∧
      ∀ i : Nat, v.value i = a.dense.getD i 0 := by
  have hfin : ∀ w : SparseVector, Inv w →
      (∀ i : Nat, lastFrom (fun _ => 0) w.entries i = a.dense.getD i 0) →
      w.cleanUpIfNeeded.mayNeedCleaning = false ∧ Clean w.cleanUpIfNeeded.entries ∧
        ∀ i : Nat, w.cleanUpIfNeeded.value i = a.dense.getD i 0 := by
    intro w hw h
    obtain ⟨h1, h2⟩ := cleanUp_clean hw
    refine ⟨h2, h1, fun i => ?_⟩
    rw [SparseVector.value, valueAt_eq_lastFrom h1.1, lastFrom_cleanUp, h]
  rcases hok.num with hn | ⟨h0, h1, -, h3, h4⟩
  · obtain ⟨h1, h2⟩ := addDense_spec {} Inv.init 0 (a.dense.take g.lp.rows.length) (by simp)
    have hlen : a.dense.take g.lp.rows.length = a.dense :=
      List.take_of_length_le (by rw [hok.length])
    rw [hlen] at h1 h2
    refine ⟨(addDense {} 0 a.dense).cleanUpIfNeeded, ?_, hfin _ h1 fun i => ?_⟩
    · simp [getSparseRowOfBInverted, hf, Outcome.check, ha, hn, hlen]
    · rw [h2]; simp
  · obtain ⟨w, h5, h6, h7⟩ := addIndexed_spec a.dense {} Inv.init (a.indices.take a.num.toNat)
      (by rw [hok.length]; exact h3)
    refine ⟨w.cleanUpIfNeeded, ?_, hfin _ h6 fun i => ?_⟩
    · have hne : ¬ a.num = -1 := by omega
      simp [getSparseRowOfBInverted, hf, Outcome.check, ha, hne, h5]
    · rw [h7]
      split
      · rfl
      · next h => rw [h4 i h]; simp

theorem columnLoop_dense (inverse : Nat → Option InverseRow) (m col : Nat) (hcol : col < m)
    (hd : ∀ r < m, ∃ a, inverse r = some a ∧ a.num = -1 ∧ a.dense.length = m)
    (n row : Nat) (hn : row + n ≤ m) (v : SparseVector) (hv : Inv v) :
    ∃ w, columnLoop inverse (col : Int) n row v = .ok w ∧ Inv w ∧
      ∀ i : Nat, lastFrom (fun _ => 0) w.entries i =
        if row ≤ i ∧ i < row + n then
          ((inverse i).map fun a => a.dense.getD col 0).getD 0
        else lastFrom (fun _ => 0) v.entries i := by
  induction n generalizing row v with
  | zero => exact ⟨v, rfl, hv, fun i => by rw [if_neg (by omega)]⟩
  | succ n ih =>
    obtain ⟨a, ha, hnum, hlen⟩ := hd row (by omega)
    have hr0 : (0 : Int) ≤ (row : Int) := by omega
    have hx : denseAt a.dense (col : Int) = .ok (a.dense.getD col 0) := by
      have : col < a.dense.length := by omega
      simp [denseAt, show ¬ (col : Int) < 0 by omega, List.getElem?_eq_getElem this]
    obtain ⟨w, h1, h2, h3⟩ := ih (row + 1) (by omega) (v.addEntry (row : Int) (a.dense.getD col 0))
      (hv.addEntry hr0 _)
    refine ⟨w, by simp only [columnLoop, ha, hnum, if_true, hx, Outcome.bind_ok, h1], h2, fun i => ?_⟩
    rw [h3, lastFrom_addEntry hv hr0]
    by_cases hi : i = row
    · subst hi
      rw [if_neg (by omega), if_pos (by omega), ha]; simp
    · by_cases hi2 : row + 1 ≤ i ∧ i < row + 1 + n
      · rw [if_pos hi2, if_pos (by omega)]
      · rw [if_neg hi2, if_neg (by omega), Function.update_of_ne (by omega)]

/-- **C54** (SoPlex), partial: what is missing are rows in index-list form
(`C54_index_list_violated`).  If SoPlex gives every row of the inverse in dense form, then
`GetSparseColumnOfBInverted` returns a clean vector whose element in row `r` is the element in
that column of what `GetSparseRowOfBInverted` returns for row `r`. -/
theorem C54_inverse_column_partial (g : Interface) (hf : freed g = true)
    (inverse : Nat → Option InverseRow)
    (hd : ∀ r < g.lp.rows.length, ∃ a, inverse r = some a ∧ a.num = -1 ∧
      a.dense.length = g.lp.rows.length) (col : Nat) (hcol : (col : Int) < getNumberOfRows g) :
    ∃ v, getSparseColumnOfBInverted g inverse col = .ok v ∧ v.mayNeedCleaning = false ∧
      Clean v.entries ∧
      ∀ r : Nat, (r : Int) < getNumberOfRows g → ∃ w, getSparseRowOfBInverted g inverse r = .ok w ∧
        v.value r = w.value col := by
  simp only [getNumberOfRows, Nat.cast_lt] at hcol
  obtain ⟨w, h1, h2, h3⟩ := columnLoop_dense inverse g.lp.rows.length col hcol hd
    g.lp.rows.length 0 (by omega) {} Inv.init
  obtain ⟨h4, h5⟩ := cleanUp_clean h2
  refine ⟨w.cleanUpIfNeeded, by simp [getSparseColumnOfBInverted, hf, Outcome.check, h1], h5, h4, ?_⟩
  intro r hr
  simp only [getNumberOfRows, Nat.cast_lt] at hr
  obtain ⟨a, ha, hnum, hlen⟩ := hd r hr
  obtain ⟨x, h6, -, -, h7⟩ := C69_inverse_row g hf inverse r a ha ⟨hlen, .inl hnum⟩
  refine ⟨x, h6, ?_⟩
  rw [h7, SparseVector.value, valueAt_eq_lastFrom h4.1, lastFrom_cleanUp, h3, if_pos (by omega), ha]
  rfl

/-- An LP with two rows and a basis inverse with rows (1, 0) and (3, 5), in dense form. -/
def twoRows : Interface :=
  { newInterface with lp := { rows := [⟨.fin 0, .fin 1, ""⟩, ⟨.fin 0, .fin 1, ""⟩] } }

example : ∀ r < twoRows.lp.rows.length, ∃ a,
    (fun r : Nat => some (⟨if r = 0 then [1, 0] else [3, 5], [], -1⟩ : InverseRow)) r = some a ∧
    a.num = -1 ∧ a.dense.length = twoRows.lp.rows.length := by
  intro r _
  refine ⟨_, rfl, rfl, ?_⟩
  dsimp only
  split <;> rfl

/-- The row (3, 5) in index-list form. -/
def indexed : InverseRow := ⟨[3, 5], [1, 0], 2⟩

theorem indexed_ok : RowOk 2 indexed := by
  refine ⟨rfl, .inr ⟨by decide, by decide, by decide, by decide, ?_⟩⟩
  intro i hi
  match i with
  | 0 => exact absurd (by decide) hi
  | 1 => exact absurd (by decide) hi
  | n + 2 => simp [indexed]

/-- **C54** is violated by rows in index-list form, which satisfy the contract of SoPlex: the element
is read at the position in the list instead of at the index.  The rows are (3, 5); the row
getter returns 5 in column 1, the column getter returns 3 for column 1. -/
theorem C54_index_list_violated :
    ∃ v w, getSparseColumnOfBInverted twoRows (fun _ => some indexed) 1 = .ok v ∧
      getSparseRowOfBInverted twoRows (fun _ => some indexed) 0 = .ok w ∧
      v.value 0 = 3 ∧ w.value 1 = 5 := by
  obtain ⟨w, h1, -, -, h2⟩ := C69_inverse_row twoRows rfl (fun _ => some indexed) 0 indexed rfl
    indexed_ok
  exact ⟨⟨[⟨0, 3⟩, ⟨1, 3⟩], false⟩, w, by decide +kernel, h1, by decide +kernel, h2 1⟩

/-! ### C54: what the column getter reads of rows in index-list form -/

theorem findIndex_eq (l : List Int) (x : Int) (p : Nat) (hp : l[p]? = some x)
    (hmin : ∀ q < p, l[q]? ≠ some x) : findIndex l x = p := by
  induction l generalizing p with
  | nil => simp at hp
  | cons y r ih =>
    cases p with
    | zero => simp at hp; simp [findIndex, hp]
    | succ p =>
      have hy : ¬ y = x := fun h => hmin 0 (by omega) (by simp [h])
      simp only [findIndex, hy, if_false]
      rw [ih p (by simpa using hp) (fun q hq => by simpa using hmin (q + 1) (by omega))]

theorem findIndex_spec (l : List Int) (x : Int) :
    (findIndex l x < l.length ∧ l[findIndex l x]? = some x) ∨ (findIndex l x = l.length ∧ x ∉ l) := by
  induction l with
  | nil => right; simp [findIndex]
  | cons y r ih =>
    by_cases hy : y = x
    · left; simp [findIndex, hy]
    · simp only [findIndex, hy, if_false]
      rcases ih with ⟨h1, h2⟩ | ⟨h1, h2⟩
      · left; exact ⟨by simpa using h1, by simpa using h2⟩
      · right; exact ⟨by simp [h1], by simp [h2, Ne.symm hy]⟩

/-- What the column getter takes from a row of the inverse: the element of a dense row; from a row in
index-list form the element at the *position* of the column in the list. -/
inductive Reads (col : Nat) (a : InverseRow) : ℚ → Prop
  | dense : a.num = -1 → Reads col a (a.dense.getD col 0)
  | position (p : Nat) : a.num ≠ -1 → p < a.num.toNat → a.indices[p]? = some (col : Int) →
      Reads col a (a.dense.getD p 0)
  | absent : a.num ≠ -1 → (col : Int) ∉ a.indices.take a.num.toNat → Reads col a 0

theorem columnLoop_reads (inverse : Nat → Option InverseRow) (m col : Nat) (hcol : col < m)
    (hd : ∀ r < m, ∃ a, inverse r = some a ∧ RowOk m a)
    (n row : Nat) (hn : row + n ≤ m) (v : SparseVector) (hv : Inv v)
    (hfresh : ∀ i : Nat, row ≤ i → lastFrom (fun _ => 0) v.entries i = 0) :
    ∃ w, columnLoop inverse (col : Int) n row v = .ok w ∧ Inv w ∧
      (∀ i : Nat, i < row → lastFrom (fun _ => 0) w.entries i = lastFrom (fun _ => 0) v.entries i) ∧
      ∀ i : Nat, row ≤ i → i < row + n → ∀ a, inverse i = some a →
        Reads col a (lastFrom (fun _ => 0) w.entries i) := by
  induction n generalizing row v with
  | zero => exact ⟨v, rfl, hv, fun _ _ => rfl, fun i _ _ => by omega⟩
  | succ n ih =>
    obtain ⟨a, ha, hok⟩ := hd row (by omega)
    have hr0 : (0 : Int) ≤ (row : Int) := by omega
    -- one step: what is added to the vector
    have hstep : ∃ u, Inv u ∧ columnLoop inverse (col : Int) (n + 1) row v =
        columnLoop inverse (col : Int) n (row + 1) u ∧
        (∀ i : Nat, i ≠ row → lastFrom (fun _ => 0) u.entries i = lastFrom (fun _ => 0) v.entries i) ∧
        Reads col a (lastFrom (fun _ => 0) u.entries row) := by
      have hput : ∀ x : ℚ, Reads col a x → (∀ u, u = v.addEntry (row : Int) x → Inv u ∧
          (∀ i : Nat, i ≠ row →
            lastFrom (fun _ => 0) u.entries i = lastFrom (fun _ => 0) v.entries i) ∧
          Reads col a (lastFrom (fun _ => 0) u.entries row)) := by
        rintro x hx u rfl
        refine ⟨hv.addEntry hr0 _, fun i hi => ?_, ?_⟩
        · rw [lastFrom_addEntry hv hr0, Function.update_of_ne (by omega)]
        · rw [lastFrom_addEntry hv hr0, Function.update_self]; exact hx
      have hat : ∀ q : Nat, q < m → denseAt a.dense (q : Int) = .ok (a.dense.getD q 0) := by
        intro q hq
        have : q < a.dense.length := by rw [hok.length]; exact hq
        simp [denseAt, show ¬ (q : Int) < 0 by omega, List.getElem?_eq_getElem this]
      rcases hok.num with hnum | ⟨h0, hlen, hnd, hr, hz⟩
      · obtain ⟨h1, h2, h3⟩ := hput _ (.dense hnum) _ rfl
        exact ⟨_, h1, by simp only [columnLoop, ha, hnum, if_true, hat col hcol, Outcome.bind_ok],
          h2, h3⟩
      · have hne : ¬ a.num = -1 := by omega
        have hm : a.num.toNat ≤ m := by
          have hsub : (a.indices.take a.num.toNat).map Int.toNat ⊆ List.range m := by
            intro j hj
            obtain ⟨i, hi, rfl⟩ := List.mem_map.1 hj
            have := hr i hi
            rw [List.mem_range]; omega
          have hnd' : ((a.indices.take a.num.toNat).map Int.toNat).Nodup := by
            refine hnd.map_on fun x hx y hy hxy => ?_
            have h1 := hr x hx; have h2 := hr y hy; omega
          have := (List.subperm_of_subset hnd' hsub).length_le
          simpa [hlen] using this
        by_cases hin : findIndex a.indices col < a.indices.length ∧
            (findIndex a.indices col : Int) < a.num
        · have hp : a.indices[findIndex a.indices col]? = some (col : Int) := by
            rcases findIndex_spec a.indices col with h | h
            · exact h.2
            · omega
          obtain ⟨h1, h2, h3⟩ := hput _ (.position _ hne (by omega) hp) _ rfl
          refine ⟨_, h1, ?_, h2, h3⟩
          have hlt : findIndex a.indices (col : Int) < m := by omega
          simp only [columnLoop, ha, hne, if_false, if_pos hin]
          rw [hat _ hlt]; rfl
        · refine ⟨v, hv, by simp only [columnLoop, ha, hne, if_false, if_neg hin], fun _ _ => rfl, ?_⟩
          rw [hfresh row le_rfl]
          refine .absent hne fun hmem => hin ?_
          obtain ⟨p, hp⟩ := List.mem_iff_getElem?.1 hmem
          have hpl : p < a.num.toNat := by
            by_contra hc
            rw [List.getElem?_take] at hp
            simp [hc] at hp
          rw [List.getElem?_take_of_lt hpl] at hp
          -- the first position is at most `p`
          have hfirst : findIndex a.indices col ≤ p := by
            have hex : ∃ q, a.indices[q]? = some (col : Int) := ⟨p, hp⟩
            rw [findIndex_eq a.indices col _ (Nat.find_spec hex) (fun q hq => Nat.find_min hex hq)]
            exact Nat.find_min' hex hp
          exact ⟨by omega, by omega⟩
    obtain ⟨u, hu, hrun, hother, hread⟩ := hstep
    obtain ⟨w, h1, h2, h3, h4⟩ := ih (row + 1) (by omega) u hu (fun i hi => by
      rw [hother i (by omega)]; exact hfresh i (by omega))
    refine ⟨w, by rw [hrun, h1], h2, fun i hi => by rw [h3 i (by omega), hother i (by omega)], ?_⟩
    intro i hi hi2 b hb
    by_cases h : i = row
    · subst h
      rw [ha] at hb; cases hb
      rw [h3 i (by omega)]; exact hread
    · exact h4 i (by omega) (by omega) b hb

/-- **C54** (SoPlex), partial: what `GetSparseColumnOfBInverted` returns for *all* rows that satisfy
the contract of SoPlex.  It always returns a clean vector; its element in row `r` is the element in
that column if SoPlex gives the row in dense form, 0 if the column is not in the list of indices, and
otherwise the element of the dense row at the position of the column in the list.  That is the right
element if the column is at the position of its own index, and only then in general
(`C54_index_list_violated`). -/
theorem C54_what_is_read_partial (g : Interface) (hf : freed g = true)
    (inverse : Nat → Option InverseRow)
    (hd : ∀ r < g.lp.rows.length, ∃ a, inverse r = some a ∧ RowOk g.lp.rows.length a)
    (col : Nat) (hcol : (col : Int) < getNumberOfRows g) :
    ∃ v, getSparseColumnOfBInverted g inverse col = .ok v ∧ v.mayNeedCleaning = false ∧
      Clean v.entries ∧
      ∀ r : Nat, (r : Int) < getNumberOfRows g → ∀ a, inverse r = some a →
        (a.num = -1 → v.value r = a.dense.getD col 0) ∧
        (a.num ≠ -1 → (col : Int) ∉ a.indices.take a.num.toNat → v.value r = 0) ∧
        (∀ p < a.num.toNat, a.indices[p]? = some (col : Int) → v.value r = a.dense.getD p 0) ∧
        (a.num ≠ -1 → a.num.toNat ≤ col ∨ a.indices[col]? = some (col : Int) →
          (col : Int) ∉ a.indices.take a.num.toNat ∨ col < a.num.toNat →
          ∃ w, getSparseRowOfBInverted g inverse r = .ok w ∧ v.value r = w.value col) := by
  simp only [getNumberOfRows, Nat.cast_lt] at hcol
  obtain ⟨w, h1, h2, -, h3⟩ := columnLoop_reads inverse g.lp.rows.length col hcol hd
    g.lp.rows.length 0 (by omega) {} Inv.init (by simp)
  obtain ⟨h4, h5⟩ := cleanUp_clean h2
  refine ⟨w.cleanUpIfNeeded, by simp [getSparseColumnOfBInverted, hf, Outcome.check, h1], h5, h4, ?_⟩
  intro r hr a ha
  simp only [getNumberOfRows, Nat.cast_lt] at hr
  have hread := h3 r (by omega) (by omega) a ha
  have hval : w.cleanUpIfNeeded.value r = lastFrom (fun _ => 0) w.entries r := by
    rw [SparseVector.value, valueAt_eq_lastFrom h4.1, lastFrom_cleanUp]
  rw [← hval] at hread
  obtain ⟨b, hb, hok⟩ := hd r hr
  rw [ha] at hb; cases hb
  have huniq : ∀ p q : Nat, p < a.num.toNat → q < a.num.toNat → a.num ≠ -1 →
      a.indices[p]? = some (col : Int) → a.indices[q]? = some (col : Int) → p = q := by
    intro p q hp hq hne h6 h7
    rcases hok.num with h | ⟨-, hl, hnd, -, -⟩
    · exact absurd h hne
    · refine (List.getElem?_inj (l := a.indices.take a.num.toNat) ?_ hnd).1 ?_
      · rw [List.length_take]; omega
      · rw [List.getElem?_take_of_lt hp, List.getElem?_take_of_lt hq, h6, h7]
  have hmem : ∀ p : Nat, p < a.num.toNat → a.indices[p]? = some (col : Int) →
      (col : Int) ∈ a.indices.take a.num.toNat := by
    intro p hp h6
    exact List.mem_iff_getElem?.2 ⟨p, by rw [List.getElem?_take_of_lt hp, h6]⟩
  have hpos : ∀ p < a.num.toNat, a.indices[p]? = some (col : Int) →
      w.cleanUpIfNeeded.value r = a.dense.getD p 0 := by
    intro p hp h6
    generalize w.cleanUpIfNeeded.value r = x at hread
    cases hread with
    | dense h => rw [h] at hp; simp at hp
    | position q hne hq h7 => rw [huniq p q hp hq hne h6 h7]
    | absent _ h => exact absurd (hmem p hp h6) h
  have habs : a.num ≠ -1 → (col : Int) ∉ a.indices.take a.num.toNat →
      w.cleanUpIfNeeded.value r = 0 := by
    intro hne h6
    generalize w.cleanUpIfNeeded.value r = x at hread
    cases hread with
    | dense h => exact absurd h hne
    | position q _ hq h7 => exact absurd (hmem q hq h7) h6
    | absent _ _ => rfl
  refine ⟨?_, habs, hpos, ?_⟩
  · intro h
    generalize w.cleanUpIfNeeded.value r = x at hread
    cases hread with
    | dense _ => rfl
    | position q hne _ _ => exact absurd h hne
    | absent hne _ => exact absurd h hne
  · intro hne h6 h7
    obtain ⟨x, h8, -, -, h9⟩ := C69_inverse_row g hf inverse r a ha hok
    refine ⟨x, h8, ?_⟩
    rw [h9]
    rcases h7 with h7 | h7
    · rw [habs hne h7]
      rcases hok.num with h | ⟨-, -, -, -, hz⟩
      · exact absurd h hne
      · rw [hz col h7]
    · exact hpos col h7 (by rcases h6 with h | h; omega; exact h)

/-- The row (3, 0, 5) with its indices in the order of the row, as far as they reach: column 0 is at
the position of its index, column 2 is not. -/
def sorted : InverseRow := ⟨[3, 0, 5], [0, 2], 2⟩

def threeRows : Interface :=
  { newInterface with lp := { rows := List.replicate 3 ⟨.fin 0, .fin 1, ""⟩ } }

example : ∀ r < threeRows.lp.rows.length, ∃ a,
    (fun _ : Nat => some sorted) r = some a ∧ RowOk threeRows.lp.rows.length a := by
  intro r _
  refine ⟨_, rfl, rfl, .inr ⟨by decide, by decide, by decide, by decide, ?_⟩⟩
  intro i hi
  match i with
  | 0 => exact absurd (by decide) hi
  | 1 => rfl
  | 2 => exact absurd (by decide) hi
  | n + 3 => simp [sorted]

end Soplex
end MiniMip
