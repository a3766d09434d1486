import Verif.Lemmas.Generator

/-!
# Properties C26-C34: the tableau rounding cut generator

Points assign a rational value to every column of the LP.
-/

namespace MiniMip.Generator
open SparseVector (Clean)

/-! ## C26 -/

/-- **C26.**  The aggregated row holds with equality at every point `(x, s)` that satisfies the
slack equations of the rows involved (`row + s = rhs` or `row - s = lhs`, depending on the
side chosen). -/
theorem C26_aggregation (lp : LpView) (hr : RowsClean lp) (w : SparseVector) (hw : Clean w.entries)
    (u : List Bool) (a : AggRow) (h : aggregateByWeight lp w u = .ok a) (b : ℚ)
    (hb : a.rhs = some b) (x s : Int → ℚ)
    (hs : ∀ e ∈ w.entries, ∀ q, lp.sideAt u e.index = .fin q →
      (lp.rowAt e.index).eval x + signAt u e.index * s e.index = q) :
    a.vars.eval x + a.slackCoefs.eval s = b := by
  have ha := aggregate_spec hr hw h
  have hb2 := ha.rhs; rw [hb] at hb2
  obtain ⟨hfin, hsum⟩ := addSides_some.1 hb2.symm
  rw [ha.eval, SparseVector.eval, ha.coefs, hsum, zero_add]
  simp only [evalEntries, List.map_map, Function.comp_def]
  rw [← List.sum_map_add]
  congr 1
  apply List.map_congr_left
  intro e he
  obtain ⟨q, hq⟩ := hfin e he
  rw [hq, finPart, ← hs e he q hq]; ring

/-- **C26.**  The coefficients: `Σ w_i a_ij` for the variables, `± w_i` for the slacks (exactly
one per weight), `Σ w_i side_i` for the right-hand side, which is finite iff all sides used
are. -/
theorem C26_coefficients (lp : LpView) (hr : RowsClean lp) (w : SparseVector) (hw : Clean w.entries)
    (u : List Bool) (a : AggRow) (h : aggregateByWeight lp w u = .ok a) :
    (∀ j, a.vars.value j = (w.entries.map fun e => e.value * (lp.rowAt e.index).value j).sum) ∧
    (∀ i, a.slackCoefs.value i = signAt u i * w.value i) ∧
    (∀ b, a.rhs = some b ↔ (∀ e ∈ w.entries, ∃ q, lp.sideAt u e.index = .fin q) ∧
      b = (w.entries.map fun e => e.value * finPart (lp.sideAt u e.index)).sum) := by
  have ha := aggregate_spec hr hw h
  refine ⟨ha.value, fun i => ?_, fun b => ?_⟩
  · rw [SparseVector.value, ha.coefs,
      SparseVector.valueAt_map (f := fun i x => signAt u i * x) i (by simp)]; rfl
  · rw [ha.rhs, addSides_some, zero_add]

/-- **C26.**  Aggregation succeeds whenever the rows with a weight exist. -/
theorem C26_succeeds (lp : LpView) (hr : RowsClean lp) (w : SparseVector) (hw : Clean w.entries)
    (u : List Bool) (hl : lp.lhs.length = lp.rows.length) (hrh : lp.rhs.length = lp.rows.length)
    (hu : u.length = lp.rows.length) (hin : ∀ e ∈ w.entries, e.index < lp.rows.length) :
    ∃ a, aggregateByWeight lp w u = .ok a := by
  have loop : ∀ (l : List Entry), (∀ e ∈ l, 0 ≤ e.index ∧ e.index < lp.rows.length) →
      ∀ a : AggRow, a.vars.Good → ∃ a', aggregateLoop lp u a l = .ok a' := by
    intro l
    induction l with
    | nil => intro _ a _; exact ⟨a, rfl⟩
    | cons e l ih =>
      intro hl' a hv
      obtain ⟨h0, h1⟩ := hl' e (by simp)
      obtain ⟨ub, hub, -⟩ := listAt_of_lt (l := u) h0 (by omega)
      obtain ⟨row, hrow, -⟩ := listAt_of_lt (l := lp.rows) h0 h1
      obtain ⟨side, hside, -⟩ := listAt_of_lt (l := if ub then lp.rhs else lp.lhs) h0
        (by split <;> omega)
      obtain ⟨v, hvv⟩ := addMultiple_ok e.value hv (hr row (List.mem_of_getElem? (listAt_eq_ok.1 hrow).2)).1
      have hg := (eval_addMultiple hv (hr row (List.mem_of_getElem? (listAt_eq_ok.1 hrow).2)).1 hvv).1
      simp only [aggregateLoop, aggregateStep, chosenSide, hub, hside, hrow, hvv, Outcome.bind_ok,
        Outcome.pure_eq]
      exact ih (fun e he => hl' e (by simp [he])) _ hg
  obtain ⟨a, ha⟩ := loop w.entries (fun e he => ⟨(hw.2 e he).2, hin e he⟩) {} SparseVector.Good.empty
  simp only [aggregateByWeight, ha, Outcome.bind_ok, Outcome.pure_eq]
  exact ⟨_, rfl⟩

/-! ## C27 -/

/-- A variable of the transformed row: the original one, or its distance to a finite bound. -/
def IsShifted (lp : LpView) (x : Int → ℚ) (j : Int) (y : ℚ) : Prop :=
  (y = x j ∧ ∃ lb, lp.lower[j.toNat]? = some lb ∧ Dbl.le (.fin 0) lb = true) ∨
  (∃ lb, lp.lower[j.toNat]? = some (.fin lb) ∧ y = x j - lb) ∨
  (∃ ub, lp.upper[j.toNat]? = some (.fin ub) ∧ y = ub - x j)

theorem shiftAt_cases {lp : LpView} {j : Int} (h : ∃ s, shiftOf lp j = .ok s) :
    0 ≤ j ∧ ∃ lb ub, lp.lower[j.toNat]? = some lb ∧ lp.upper[j.toNat]? = some ub ∧
      ((shiftAt lp j).isFree = true ↔ Dbl.le (.fin 0) lb = false ∧ lp.isInfinity lb.neg = true ∧
        lp.isInfinity ub = true) ∧
      ((shiftAt lp j = .keep ∧ Dbl.le (.fin 0) lb = true) ∨ (∃ q, shiftAt lp j = .lower q ∧ lb = .fin q) ∨
        (∃ q, shiftAt lp j = .upper q ∧ ub = .fin q) ∨ shiftAt lp j = .bad ∨ shiftAt lp j = .free) := by
  obtain ⟨s, hs⟩ := h
  have hs' := hs
  unfold shiftOf at hs
  obtain ⟨lb, hlb, hs⟩ := Outcome.bind_eq_ok.1 hs
  obtain ⟨ub, hub, hs⟩ := Outcome.bind_eq_ok.1 hs
  have hs := Outcome.ok.inj hs
  obtain ⟨h0, hlb⟩ := listAt_eq_ok.1 hlb
  obtain ⟨-, hub⟩ := listAt_eq_ok.1 hub
  refine ⟨h0, lb, ub, hlb, hub, ?_⟩
  rw [shiftAt_ok hs', ← hs]
  by_cases h1 : Dbl.le (.fin 0) lb = true
  · simp [h1, Shift.isFree]
  · by_cases h2 : lp.isInfinity lb.neg = true
    · by_cases h3 : lp.isInfinity ub = true
      · simp [h1, h2, h3, Shift.isFree]
      · cases ub <;> simp [h1, h2, h3, Shift.isFree]
    · cases lb <;> simp [h1, h2, Shift.isFree]

/-- Within the LP bounds. -/
def InBounds (lp : LpView) (x : Int → ℚ) : Prop :=
  (∀ (n : Nat) (l : Dbl), lp.lower[n]? = some l → Dbl.le l (.fin (x n)) = true) ∧
  (∀ (n : Nat) (u : Dbl), lp.upper[n]? = some u → Dbl.le (.fin (x n)) u = true)

theorem shiftPoint_nonneg {lp : LpView} {x : Int → ℚ} (hx : InBounds lp x) {j : Int}
    (h : ∃ s, shiftOf lp j = .ok s) (hf : (shiftAt lp j).isFree = false)
    (hb : shiftAt lp j ≠ .bad) : 0 ≤ shiftPoint lp x j := by
  obtain ⟨h0, lb, ub, hlb, hub, -, hc⟩ := shiftAt_cases h
  have h1 := hx.1 _ _ hlb
  have h2 := hx.2 _ _ hub
  rw [Int.toNat_of_nonneg h0] at h1 h2
  unfold shiftPoint
  rcases hc with ⟨hs, hle⟩ | ⟨q, hs, rfl⟩ | ⟨q, hs, rfl⟩ | hs | hs
  · rw [hs]
    simp only [Shift.point]
    rcases lb with _ | _ | q | _ <;> simp_all [Dbl.le]
    linarith
  · rw [hs]; simp only [Shift.point, Dbl.le_fin] at h1 ⊢; linarith
  · rw [hs]; simp only [Shift.point, Dbl.le_fin] at h2 ⊢; linarith
  · exact absurd hs hb
  · rw [hs] at hf; simp [Shift.isFree] at hf

/-- **C27.**  If the transformation succeeds (with a finite right-hand side), every point `x`
has a counterpart `x'` in the new variables, each of which is the old variable or its
distance to a finite bound, non-negative if `x` is within the bounds.  The aggregated row
holds at `x` iff the transformed one holds at `x'`, and every inequality on the new variables
(with columns of the aggregated row, as any rounded row has) holds at `x'` iff its
back-transformation holds at `x`.  Slacks (of total contribution `t`) are not affected. -/
theorem C27_transformation (lp : LpView) (a a' : AggRow) (hv : a.vars.Good)
    (h : toNonNegative lp a = .ok (a', true)) (b b' : ℚ) (hb : a.rhs = some b)
    (hb' : a'.rhs = some b') (x : Int → ℚ) :
    a'.slackCoefs = a.slackCoefs ∧ a'.slackSigns = a.slackSigns ∧ a'.sideValues = a.sideValues ∧
    ∃ x' : Int → ℚ,
      (∀ e ∈ a'.vars.entries, IsShifted lp x e.index (x' e.index)) ∧
      (InBounds lp x → ∀ e ∈ a'.vars.entries, 0 ≤ x' e.index) ∧
      (∀ t, a'.vars.eval x' + t = b' ↔ a.vars.eval x + t = b) ∧
      ∀ r r' : AggRow, r.vars.Good → toOriginal lp r = .ok (r', true) →
        ∀ c c', r.rhs = some c → r'.rhs = some c' →
          r'.slackCoefs = r.slackCoefs ∧ r'.slackSigns = r.slackSigns ∧ r'.sideValues = r.sideValues ∧
          ∀ t, r'.vars.eval x + t ≤ c' ↔ r.vars.eval x' + t ≤ c := by
  obtain ⟨-, hent, e1, e2, e3, hok, l, hl⟩ := shiftRow_vars hv h
  obtain ⟨b2, hb2, hnb, hx⟩ := toNonNegative_spec hv h b' hb'
  rw [hb] at hb2; simp only [Option.some.injEq] at hb2; subst hb2
  have hall := (shiftEntries_list _ hl).2.2
  have hfree := hok.1 rfl
  refine ⟨e1, e2, e3, shiftPoint lp x, ?_, ?_, ?_, ?_⟩
  · intro e he
    rw [hent] at he
    obtain ⟨d, hd, rfl⟩ := List.mem_map.1 he
    obtain ⟨h0, lb, ub, hlb, hub, -, hc⟩ := shiftAt_cases (hall d hd)
    simp only [shiftPoint]
    rcases hc with ⟨hs, hle⟩ | ⟨q, hs, rfl⟩ | ⟨q, hs, rfl⟩ | hs | hs
    · left; rw [hs]; exact ⟨rfl, lb, hlb, hle⟩
    · right; left; rw [hs]; exact ⟨q, hlb, rfl⟩
    · right; right; rw [hs]; exact ⟨q, hub, rfl⟩
    · exact absurd hs (hnb d hd)
    · have := hfree d hd; rw [hs] at this; simp [Shift.isFree] at this
  · intro hin e he
    rw [hent] at he
    obtain ⟨d, hd, rfl⟩ := List.mem_map.1 he
    exact shiftPoint_nonneg hin (hall d hd) (hfree d hd) (hnb d hd)
  · intro t
    have := hx x
    constructor <;> intro h <;> linarith
  · intro r r' hrv hback c c' hc hc'
    obtain ⟨-, -, f1, f2, f3, -⟩ := shiftRow_vars hrv hback
    obtain ⟨c2, hc2, hy⟩ := toOriginal_spec hrv hback c' hc'
    rw [hc] at hc2; simp only [Option.some.injEq] at hc2; subst hc2
    refine ⟨f1, f2, f3, fun t => ?_⟩
    have := hy x
    constructor <;> intro h <;> linarith

/-- **C27.**  The transformation fails exactly when the row contains a variable that is
unbounded in both directions. -/
theorem C27_fails_iff_free (lp : LpView) (a a' : AggRow) (hv : a.vars.Good) (ok : Bool)
    (h : toNonNegative lp a = .ok (a', ok)) :
    ok = false ↔ ∃ e ∈ a.vars.entries, ∃ lb ub, lp.lower[e.index.toNat]? = some lb ∧
      lp.upper[e.index.toNat]? = some ub ∧ Dbl.le (.fin 0) lb = false ∧
      lp.isInfinity lb.neg = true ∧ lp.isInfinity ub = true := by
  obtain ⟨-, -, -, -, -, hok, l, hl⟩ := shiftRow_vars hv h
  have hall := (shiftEntries_list _ hl).2.2
  rw [← Bool.not_eq_true, hok]
  push Not
  constructor
  · rintro ⟨e, he, hf⟩
    obtain ⟨-, lb, ub, hlb, hub, hc, -⟩ := shiftAt_cases (hall e he)
    exact ⟨e, he, lb, ub, hlb, hub, hc.1 (by simpa using hf)⟩
  · rintro ⟨e, he, lb, ub, hlb, hub, hc⟩
    obtain ⟨-, lb', ub', hlb', hub', hc', -⟩ := shiftAt_cases (hall e he)
    rw [hlb] at hlb'; rw [hub] at hub'
    simp only [Option.some.injEq] at hlb' hub'
    subst hlb'; subst hub'
    exact ⟨e, he, by simpa using hc'.2 hc⟩

/-! ## C28 -/

/-- **C28.**  Slack substitution turns `vars·x + coefs·s ≤ b` into an inequality in `x` only,
which holds at `x` iff the former holds at `(x, s)`, where `s` are the slacks of `x`: the
values with `row + s = side` for sign 1 and `row - s = side` for sign -1. -/
theorem C28_slack_substitution (lp : LpView) (hr : RowsClean lp) (a a' : AggRow) (hv : a.vars.Good)
    (h : substituteSlacks lp a = .ok a') (b b' : ℚ) (hb : a.rhs = some b) (hb' : a'.rhs = some b')
    (x s : Int → ℚ)
    (hs : ∀ e ∈ a.slackCoefs.entries,
      (a.slackSigns.value e.index = 1 ∨ a.slackSigns.value e.index = -1) ∧
      (lp.rowAt e.index).eval x + a.slackSigns.value e.index * s e.index = a.sideValues.value e.index) :
    a'.vars.eval x ≤ b' ↔ a.vars.eval x + a.slackCoefs.eval s ≤ b := by
  obtain ⟨-, h2⟩ := substituteSlacks_spec hr hv h
  obtain ⟨b2, hb2, hx⟩ := h2 b' hb'
  rw [hb] at hb2; simp only [Option.some.injEq] at hb2; subst hb2
  have heq : a.slackCoefs.eval (fun i =>
      a.slackSigns.value i * (a.sideValues.value i - (lp.rowAt i).eval x)) = a.slackCoefs.eval s := by
    apply eval_congr
    intro e he
    obtain ⟨h1, h2⟩ := hs e he
    rw [← h2]
    rcases h1 with h1 | h1 <;> rw [h1] <;> ring
  have := hx x
  rw [heq] at this
  constructor <;> intro h <;> linarith

/-! ## C29, C30 -/

/-- The point satisfies the bounds and rows of the LP. -/
def LpFeasible (lp : LpView) (x : Int → ℚ) : Prop :=
  InBounds lp x ∧
  (∀ (n : Nat) (row : SparseVector) (l : Dbl), lp.rows[n]? = some row → lp.lhs[n]? = some l →
    Dbl.le l (.fin (row.eval x)) = true) ∧
  (∀ (n : Nat) (row : SparseVector) (u : Dbl), lp.rows[n]? = some row → lp.rhs[n]? = some u →
    Dbl.le (.fin (row.eval x)) u = true)

/-- The point satisfies the LP and is integral on the integer variables. -/
def MipFeasible (c : GenContext) (x : Int → ℚ) : Prop :=
  LpFeasible c.lp x ∧ ∀ j, c.isInteger j = true → ∃ k : Int, x j = k

/-- The data that the generator takes to be integral is: integer variables have integral
(finite) bounds; rows marked integral have integer coefficients on integer variables only
(which `MipData` guarantees, C10) and integral (finite) sides (which it does not). -/
structure IntegralData (c : GenContext) : Prop where
  lower : ∀ (j : Nat) q, c.isInteger j = true → c.lp.lower[j]? = some (.fin q) → ∃ k : Int, q = k
  upper : ∀ (j : Nat) q, c.isInteger j = true → c.lp.upper[j]? = some (.fin q) → ∃ k : Int, q = k
  coefs : ∀ (i : Nat) row, c.integralRow[i]? = some true → c.lp.rows[i]? = some row →
    ∀ e ∈ row.entries, c.isInteger e.index = true ∧ ∃ k : Int, e.value = k
  lhs : ∀ (i : Nat) q, c.integralRow[i]? = some true → c.lp.lhs[i]? = some (.fin q) → ∃ k : Int, q = k
  rhs : ∀ (i : Nat) q, c.integralRow[i]? = some true → c.lp.rhs[i]? = some (.fin q) → ∃ k : Int, q = k

theorem aggregate_inRange {lp : LpView} {u : List Bool} (l : List Entry) {a a' : AggRow}
    (h : aggregateLoop lp u a l = .ok a') :
    ∀ e ∈ l, 0 ≤ e.index ∧ lp.rows[e.index.toNat]? = some (lp.rowAt e.index) ∧
      (if u[e.index.toNat]? = some true then lp.rhs else lp.lhs)[e.index.toNat]? =
        some (lp.sideAt u e.index) := by
  induction l generalizing a with
  | nil => simp
  | cons e l ih =>
    simp only [aggregateLoop] at h
    obtain ⟨a1, h1, h⟩ := Outcome.bind_eq_ok.1 h
    intro d hd
    rcases List.mem_cons.1 hd with rfl | hd
    · unfold aggregateStep at h1
      obtain ⟨p, hp, h1⟩ := Outcome.bind_eq_ok.1 h1
      obtain ⟨row, hrow, -⟩ := Outcome.bind_eq_ok.1 h1
      unfold chosenSide at hp
      obtain ⟨b, hb, hp⟩ := Outcome.bind_eq_ok.1 hp
      obtain ⟨s, hs, hp⟩ := Outcome.bind_eq_ok.1 hp
      obtain ⟨h0, hb⟩ := listAt_eq_ok.1 hb
      obtain ⟨-, hs⟩ := listAt_eq_ok.1 hs
      obtain ⟨-, hrow⟩ := listAt_eq_ok.1 hrow
      refine ⟨h0, by simp [LpView.rowAt, hrow], ?_⟩
      cases b <;> simp_all [LpView.sideAt]
    · exact ih h d hd

theorem aggregate_inRange' {lp : LpView} {u : List Bool} {w : SparseVector} {a : AggRow}
    (h : aggregateByWeight lp w u = .ok a) :
    ∀ e ∈ w.entries, 0 ≤ e.index ∧ lp.rows[e.index.toNat]? = some (lp.rowAt e.index) ∧
      (if u[e.index.toNat]? = some true then lp.rhs else lp.lhs)[e.index.toNat]? =
        some (lp.sideAt u e.index) := by
  unfold aggregateByWeight at h
  obtain ⟨a1, h1, -⟩ := Outcome.bind_eq_ok.1 h
  exact aggregate_inRange _ h1

theorem eval_integral {l : List Entry} {x : Int → ℚ}
    (h : ∀ e ∈ l, (∃ k : Int, e.value = k) ∧ ∃ k : Int, x e.index = k) :
    ∃ k : Int, evalEntries l x = k := by
  induction l with
  | nil => exact ⟨0, by simp [evalEntries]⟩
  | cons e l ih =>
    obtain ⟨k, hk⟩ := ih (fun d hd => h d (by simp [hd]))
    obtain ⟨⟨p, hp⟩, q, hq⟩ := h e (by simp)
    refine ⟨p * q + k, ?_⟩
    simp only [evalEntries, List.map_cons, List.sum_cons] at hk ⊢
    rw [hk, hp, hq]; push_cast; ring

/-- The slack of row `i` at a point. -/
def slackPoint (lp : LpView) (u : List Bool) (x : Int → ℚ) (i : Int) : ℚ :=
  signAt u i * (finPart (lp.sideAt u i) - (lp.rowAt i).eval x)

/-- A feasible point, seen from the transformed row, is as the rounders need it. -/
theorem pointOk {c : GenContext} (hr : RowsClean c.lp) (hI : IntegralData c) {w : SparseVector}
    (hw : Clean w.entries) {u : List Bool} {a a' : AggRow}
    (ha : aggregateByWeight c.lp w u = .ok a) (ht : toNonNegative c.lp a = .ok (a', true))
    {b' : ℚ} (hb' : a'.rhs = some b') {x : Int → ℚ} (hx : MipFeasible c x) :
    PointOk c a' (shiftPoint c.lp x) (slackPoint c.lp u x) ∧
      a'.vars.eval (shiftPoint c.lp x) + a'.slackCoefs.eval (slackPoint c.lp u x) = b' := by
  have hag := aggregate_spec hr hw ha
  have hin := aggregate_inRange' ha
  obtain ⟨-, hent, e1, -, -, hok, l, hl⟩ := shiftRow_vars hag.vars ht
  obtain ⟨b, hb, hnb, hx'⟩ := toNonNegative_spec hag.vars ht b' hb'
  have hall := (shiftEntries_list _ hl).2.2
  have hfree := hok.1 rfl
  have hb2 := hag.rhs; rw [hb] at hb2
  obtain ⟨hfin, -⟩ := addSides_some.1 hb2.symm
  have hfinR : ∀ e ∈ w.entries, ∃ q, c.lp.sideAt u e.index = .fin q ∧
      0 ≤ slackPoint c.lp u x e.index ∧
      (c.integralRow[e.index.toNat]? = some true → ∃ k : Int, slackPoint c.lp u x e.index = k) := by
    intro e he
    obtain ⟨q, hq⟩ := hfin e he
    obtain ⟨h0, hrow, hside⟩ := hin e he
    have hint : c.integralRow[e.index.toNat]? = some true →
        ∃ k : Int, (c.lp.rowAt e.index).eval x = k := by
      intro hf
      apply eval_integral
      intro d hd
      obtain ⟨h1, h2⟩ := hI.coefs _ _ hf hrow d hd
      exact ⟨h2, hx.2 _ h1⟩
    refine ⟨q, hq, ?_, ?_⟩
    · unfold slackPoint signAt
      rw [hq] at hside ⊢
      split
      · rename_i hu
        rw [if_pos hu] at hside
        have := hx.1.2.2 _ _ _ hrow hside
        simp only [Dbl.le_fin] at this
        simp only [finPart]; linarith
      · rename_i hu
        rw [if_neg hu] at hside
        have := hx.1.2.1 _ _ _ hrow hside
        simp only [Dbl.le_fin] at this
        simp only [finPart]; linarith
    · intro hf
      obtain ⟨m, hm⟩ := hint hf
      unfold slackPoint signAt
      rw [hq] at hside ⊢
      split
      · rename_i hu
        rw [if_pos hu] at hside
        obtain ⟨n, hn⟩ := hI.rhs _ _ hf hside
        exact ⟨n - m, by rw [hm, finPart, hn]; push_cast; ring⟩
      · rename_i hu
        rw [if_neg hu] at hside
        obtain ⟨n, hn⟩ := hI.lhs _ _ hf hside
        exact ⟨m - n, by rw [hm, finPart, hn]; push_cast; ring⟩
  refine ⟨⟨?_, ?_, ?_, ?_⟩, ?_⟩
  · intro e he
    rw [hent] at he
    obtain ⟨d, hd, rfl⟩ := List.mem_map.1 he
    exact shiftPoint_nonneg hx.1.1 (hall d hd) (hfree d hd) (hnb d hd)
  · intro e he hi
    rw [hent] at he
    obtain ⟨d, hd, rfl⟩ := List.mem_map.1 he
    obtain ⟨m, hm⟩ := hx.2 _ hi
    obtain ⟨h0, lb, ub, hlb, hub, -, hc⟩ := shiftAt_cases (hall d hd)
    have hi' : c.isInteger ((d.index.toNat : Nat) : Int) = true := by
      rw [Int.toNat_of_nonneg h0]; exact hi
    simp only [shiftPoint] at hm ⊢
    rcases hc with ⟨hs, hle⟩ | ⟨q, hs, rfl⟩ | ⟨q, hs, rfl⟩ | hs | hs <;> rw [hs] <;> simp only [Shift.point]
    · exact ⟨m, hm⟩
    · obtain ⟨n, hn⟩ := hI.lower _ _ hi' hlb
      exact ⟨m - n, by rw [hm, hn]; push_cast; ring⟩
    · obtain ⟨n, hn⟩ := hI.upper _ _ hi' hub
      exact ⟨n - m, by rw [hm, hn]; push_cast; ring⟩
    · exact ⟨m, hm⟩
    · exact ⟨m, hm⟩
  · intro e he
    rw [e1, hag.coefs] at he
    obtain ⟨d, hd, rfl⟩ := List.mem_map.1 he
    obtain ⟨q, -, h, -⟩ := hfinR d hd
    exact h
  · intro e he hf
    rw [e1, hag.coefs] at he
    obtain ⟨d, hd, rfl⟩ := List.mem_map.1 he
    obtain ⟨q, -, -, h⟩ := hfinR d hd
    exact h hf
  · have heq := C26_aggregation c.lp hr w hw u a ha b hb x (slackPoint c.lp u x) (by
      intro e _ q hq
      unfold slackPoint
      rw [hq, ← mul_assoc, signAt_sq, finPart]; ring)
    have := hx' x
    rw [e1]; linarith

/-- Every column of the aggregated row occurs in one of the rows with a weight. -/
theorem column_origin {lp : LpView} (hr : RowsClean lp) {u : List Bool} {w : SparseVector} {a : AggRow}
    (hag : IsAggregate lp u w a) {d : Entry} (hd : d ∈ a.vars.entries) :
    ∃ f ∈ w.entries, ∃ g ∈ (lp.rowAt f.index).entries, g.index = d.index := by
  have hval : a.vars.value d.index ≠ 0 := by
    have := value_of_mem hag.vars.1 hd
    rw [SparseVector.value, this]; exact (hag.vars.1.2 d hd).1
  rw [hag.value] at hval
  by_contra hc
  push Not at hc
  apply hval
  apply List.sum_eq_zero
  intro y hy
  obtain ⟨f, hf, rfl⟩ := List.mem_map.1 hy
  have : (lp.rowAt f.index).value d.index = 0 := by
    rw [SparseVector.value, SparseVector.valueAt_eq_sumAt (hr.rowAt f.index).1.1]
    exact SparseVector.sumAt_eq_zero (hc f hf)
  rw [this, mul_zero]

/-- Validity of one rounded row. -/
theorem roundOne_valid {c : GenContext} (hr : RowsClean c.lp) (hI : IntegralData c)
    {w : SparseVector} (hw : Clean w.entries) {u : List Bool} {a a' : AggRow}
    (ha : aggregateByWeight c.lp w u = .ok a) (ht : toNonNegative c.lp a = .ok (a', true))
    (htol : HarmlessTolerance c.tol a') {rounder : Rounder} {row : SparseVector} {rhs : ℚ}
    (h : roundOne c a' rounder = .ok (some (row, rhs))) {x : Int → ℚ} (hx : MipFeasible c x) :
    row.eval x ≤ rhs := by
  have hag := aggregate_spec hr hw ha
  have hin := aggregate_inRange' ha
  obtain ⟨hv', hent, e1, e2, e3, -, -⟩ := shiftRow_vars hag.vars ht
  unfold roundOne at h
  obtain ⟨rounded, hround, h⟩ := Outcome.bind_eq_ok.1 h
  cases rounded with
  | none => simp at h
  | some r =>
    simp only at h
    obtain ⟨⟨r1, ok⟩, hback, h⟩ := Outcome.bind_eq_ok.1 h
    cases ok with
    | false => simp at h
    | true =>
      simp only [Bool.not_true, Bool.false_eq_true, if_false] at h
      obtain ⟨r2, hsub, h⟩ := Outcome.bind_eq_ok.1 h
      have h := Outcome.ok.inj h
      rcases hr2 : r2.rhs with _ | b2
      · rw [hr2] at h; simp at h
      rw [hr2] at h
      simp only [Option.map_some, Option.some.injEq, Prod.mk.injEq] at h
      obtain ⟨rfl, rfl⟩ := h
      have hs' : a'.slackCoefs.Good := by rw [e1]; exact hag.slackCoefs
      -- the rounded row is valid in the transformed variables
      have hR : ∃ br, r.rhs = some br ∧ Rounded a' r ∧
          r.vars.eval (shiftPoint c.lp x) + r.slackCoefs.eval (slackPoint c.lp u x) ≤ br := by
        cases rounder with
        | mir =>
          obtain ⟨b, b', hb, hb', hrd, -, hval⟩ := mirRound_spec hv' hs' hround
          obtain ⟨hp, heq⟩ := pointOk hr hI hw ha ht hb hx
          exact ⟨b', hb', hrd, hval htol _ _ hp heq.le⟩
        | strongCG =>
          obtain ⟨b, b', hb, hb', hrd, hflag, hval⟩ := strongCGRound_spec hv' hs' hround
          obtain ⟨hp, heq⟩ := pointOk hr hI hw ha ht hb hx
          refine ⟨b', hb', hrd, hval htol ?_ _ _ hp heq.le⟩
          intro e he hcont
          exfalso
          rw [hent] at he
          obtain ⟨d, hd, rfl⟩ := List.mem_map.1 he
          -- column `d.index` occurs in one of the rows, all of which are integral
          obtain ⟨f, hf, g, hg, hgd⟩ := column_origin hr hag hd
          obtain ⟨h0, hrow, -⟩ := hin f hf
          have hfl := hflag ⟨f.index, signAt u f.index * f.value⟩ (by
            rw [e1, hag.coefs]; exact List.mem_map.2 ⟨f, hf, rfl⟩)
          have := (hI.coefs _ _ hfl.1 hrow g hg).1
          rw [hgd] at this
          simp only at hcont
          rw [hcont] at this; cases this
      obtain ⟨br, hbr, hrd, hle⟩ := hR
      obtain ⟨hv1, -, f1, f2, f3, -, -⟩ := shiftRow_vars hrd.vars hback
      obtain ⟨-, hsx⟩ := substituteSlacks_spec hr hv1 hsub
      obtain ⟨b1, hb1, hsx⟩ := hsx b2 hr2
      obtain ⟨b0, hb0, hbx⟩ := toOriginal_spec hrd.vars hback b1 hb1
      rw [hbr] at hb0; simp only [Option.some.injEq] at hb0; subst hb0
      have h1 := hsx x
      have h2 := hbx x
      have hslack : r1.slackCoefs.eval (fun i =>
          r1.slackSigns.value i * (r1.sideValues.value i - (c.lp.rowAt i).eval x)) =
          r.slackCoefs.eval (slackPoint c.lp u x) := by
        rw [f1, f2, f3, hrd.signs, hrd.sides, e2, e3]
        apply eval_congr
        intro e he
        obtain ⟨d, hd, hde⟩ := hrd.slackIdx e he
        rw [e1, hag.coefs] at hd
        obtain ⟨f, hf, rfl⟩ := List.mem_map.1 hd
        simp only at hde
        obtain ⟨l1, l2⟩ := hag.lookup hf
        rw [← hde, l1, l2]; rfl
      rw [hslack] at h1
      linarith

/-- **C29**, proved part.  A cut obtained by mixed-integer rounding of any weighted
combination of LP rows is satisfied by every point that satisfies the LP and is integral on
the integer variables.  Missing (and false, see the `_violated` theorems): integer variables
with fractional bounds, integral rows with fractional sides (`IntegralData`), and
coefficients moved the wrong way by the integrality tolerance (`HarmlessTolerance`). -/
theorem C29_mir_partial (c : GenContext) (hr : RowsClean c.lp) (hI : IntegralData c)
    (w : SparseVector) (hw : Clean w.entries) (u : List Bool) (a a' : AggRow)
    (ha : aggregateByWeight c.lp w u = .ok a) (ht : toNonNegative c.lp a = .ok (a', true))
    (htol : HarmlessTolerance c.tol a') (row : SparseVector) (rhs : ℚ)
    (h : roundOne c a' .mir = .ok (some (row, rhs))) (x : Int → ℚ) (hx : MipFeasible c x) :
    row.eval x ≤ rhs := roundOne_valid hr hI hw ha ht htol h hx

/-- **C30**, proved part.  The same for strong Chvatal-Gomory rounding, with the same
exceptions.  (The check that should reject continuous variables with a negative coefficient
is inverted in the code, but this is harmless: all slacks are required to be integral, and
integral rows contain integer variables only.) -/
theorem C30_strong_cg_partial (c : GenContext) (hr : RowsClean c.lp) (hI : IntegralData c)
    (w : SparseVector) (hw : Clean w.entries) (u : List Bool) (a a' : AggRow)
    (ha : aggregateByWeight c.lp w u = .ok a) (ht : toNonNegative c.lp a = .ok (a', true))
    (htol : HarmlessTolerance c.tol a') (row : SparseVector) (rhs : ℚ)
    (h : roundOne c a' .strongCG = .ok (some (row, rhs))) (x : Int → ℚ) (hx : MipFeasible c x) :
    row.eval x ≤ rhs := roundOne_valid hr hI hw ha ht htol h hx

/-- With a zero tolerance nothing is moved. -/
theorem harmless_of_tol_zero (a : AggRow) : HarmlessTolerance 0 a := by
  have key : ∀ v : ℚ, |v - roundAway v| ≤ 0 → v = roundAway v := fun v h => by
    have := abs_nonpos_iff.1 h; linarith
  exact ⟨fun e _ h => (key _ h).ge, fun e _ h => (key _ h).ge, fun b _ h => (key _ h).le⟩

/-! ### The generator as a whole -/

theorem rowWeights_eq {v : SparseVector} (h : v.Good) : rowWeights v = v := by
  have key : ∀ (l : List Entry) (a : SparseVector), a.Good → Clean (a.entries ++ l) →
      l.foldl (fun w e => w.addEntry e.index e.value) a = ⟨a.entries ++ l, false⟩ := by
    intro l
    induction l with
    | nil => intro a ha _; cases a; simp only [SparseVector.Good] at ha; simp [ha.2]
    | cons e l ih =>
      intro a ha hc
      have he := hc.2 e (by simp)
      have hlt : ∀ d ∈ a.entries, d.index < e.index := fun d hd =>
        (List.pairwise_append.1 hc.1).2.2 d hd e (by simp)
      rw [List.foldl_cons, addEntry_append ha he.2 hlt, if_neg he.1,
        ih _ (good_append ha he.2 hlt he.1) (by simpa using hc)]
      simp
  unfold rowWeights
  rw [key v.entries {} SparseVector.Good.empty (by simpa using h.1)]
  cases v; simp only [SparseVector.Good] at h; simp [h.2]

/-- Where a generated cut comes from. -/
structure Origin (c : GenContext) (s : SolverView) (rounders : List Rounder) (u : List Bool)
    (lpOptimum : SparseVector) (cut : CutData) : Prop where
  source : ∃ k b a a' rounder, (k < c.lp.rows.length ∧ ∃ col, listAt s.basis k = .ok (some col) ∧
      c.isInteger col = true) ∧ s.bInverted k = .ok b ∧
    aggregateByWeight c.lp (rowWeights b) u = .ok a ∧ toNonNegative c.lp a = .ok (a', true) ∧
    rounder ∈ rounders ∧ roundOne c a' rounder = .ok (some (cut.row, cut.rhs))
  violated : cut.rhs < cut.row.dotProduct lpOptimum
  statistics : ∃ name, cut = createCut c.objective c.isInteger lpOptimum cut.row cut.rhs name false

theorem roundAll_spec {c : GenContext} {o : SparseVector} {a : AggRow} (rs : List Rounder) {total : Nat}
    {cuts : List CutData} (h : roundAll c o a total rs = .ok cuts) :
    cuts.length ≤ rs.length ∧ ∀ cut ∈ cuts,
      (∃ rounder ∈ rs, roundOne c a rounder = .ok (some (cut.row, cut.rhs))) ∧
      cut.rhs < cut.row.dotProduct o ∧
      ∃ name, cut = createCut c.objective c.isInteger o cut.row cut.rhs name false := by
  induction rs generalizing total cuts with
  | nil => simp only [roundAll, Outcome.ok.injEq] at h; subst h; simp
  | cons r rs ih =>
    simp only [roundAll] at h
    obtain ⟨res, hres, h⟩ := Outcome.bind_eq_ok.1 h
    have lift : ∀ {cuts total}, roundAll c o a total rs = .ok cuts →
        cuts.length ≤ rs.length ∧ ∀ cut ∈ cuts,
          (∃ rounder ∈ r :: rs, roundOne c a rounder = .ok (some (cut.row, cut.rhs))) ∧
          cut.rhs < cut.row.dotProduct o ∧
          ∃ name, cut = createCut c.objective c.isInteger o cut.row cut.rhs name false := by
      intro cuts total h
      obtain ⟨h1, h2⟩ := ih h
      refine ⟨h1, fun cut hc => ?_⟩
      obtain ⟨⟨q, hq, hq2⟩, h3⟩ := h2 cut hc
      exact ⟨⟨q, by simp [hq], hq2⟩, h3⟩
    cases res with
    | none =>
      obtain ⟨h1, h2⟩ := lift h
      exact ⟨by simp; omega, h2⟩
    | some p =>
      obtain ⟨row, rhs⟩ := p
      simp only at h
      split at h
      · rename_i hrem
        obtain ⟨rest, hrest, h⟩ := Outcome.bind_eq_ok.1 h
        have h := Outcome.ok.inj h
        subst h
        obtain ⟨h1, h2⟩ := lift hrest
        refine ⟨by simp; omega, fun cut hc => ?_⟩
        rcases List.mem_cons.1 hc with rfl | hc
        · refine ⟨⟨r, by simp, hres⟩, ?_, _, rfl⟩
          have hrem : rhs < row.dotProduct o := by simpa [removesLPOptimum] using hrem
          exact hrem
        · exact h2 cut hc
      · obtain ⟨h1, h2⟩ := lift h
        exact ⟨by simp; omega, h2⟩

theorem tableauRow_spec {c : GenContext} {s : SolverView} {rs : List Rounder} {u : List Bool}
    {o : SparseVector} {k : Nat} {cuts : List CutData} (hk : k < c.lp.rows.length)
    (h : tableauRow c s rs u o k = .ok cuts) :
    cuts.length ≤ rs.length ∧ ∀ cut ∈ cuts, Origin c s rs u o cut := by
  unfold tableauRow at h
  obtain ⟨basic, hbasic, h⟩ := Outcome.bind_eq_ok.1 h
  cases basic with
  | none => have h := Outcome.ok.inj h; subst h; simp
  | some col =>
    simp only at h
    split at h
    · have h := Outcome.ok.inj h; subst h; simp
    · rename_i hint
      split at h
      · have h := Outcome.ok.inj h; subst h; simp
      · obtain ⟨b, hb, h⟩ := Outcome.bind_eq_ok.1 h
        obtain ⟨a, ha, h⟩ := Outcome.bind_eq_ok.1 h
        obtain ⟨⟨a', ok⟩, ht, h⟩ := Outcome.bind_eq_ok.1 h
        cases ok with
        | false => have h := Outcome.ok.inj h; subst h; simp
        | true =>
          obtain ⟨h1, h2⟩ := roundAll_spec rs h
          refine ⟨h1, fun cut hc => ?_⟩
          obtain ⟨⟨r, hr, hr2⟩, h3, h4⟩ := h2 cut hc
          exact ⟨⟨k, b, a, a', r, ⟨hk, col, hbasic, by simpa using hint⟩, hb, ha, ht, hr, hr2⟩, h3, h4⟩

theorem tableauLoop_spec {c : GenContext} {s : SolverView} {rs : List Rounder} {m : Int} {u : List Bool}
    {o : SparseVector} (n k : Nat) (hk : k + n ≤ c.lp.rows.length) {cuts cuts' : List CutData}
    (h : tableauLoop c s rs m u o n k cuts = .ok cuts') :
    (∀ cut ∈ cuts', cut ∈ cuts ∨ Origin c s rs u o cut) ∧
    ((cuts'.length : Int) ≤ cuts.length ∨ (cuts'.length : Int) < m + rs.length) := by
  induction n generalizing k cuts with
  | zero =>
    simp only [tableauLoop, Outcome.ok.injEq] at h; subst h
    exact ⟨fun cut hc => Or.inl hc, Or.inl (le_refl _)⟩
  | succ n ih =>
    simp only [tableauLoop] at h
    split at h
    · rename_i hlt
      obtain ⟨new, hnew, h⟩ := Outcome.bind_eq_ok.1 h
      obtain ⟨h1, h2⟩ := tableauRow_spec (by omega) hnew
      obtain ⟨i1, i2⟩ := ih (k + 1) (by omega) h
      refine ⟨fun cut hc => ?_, ?_⟩
      · rcases i1 cut hc with hc | hc
        · rcases List.mem_append.1 hc with hc | hc
          · exact Or.inl hc
          · exact Or.inr (h2 cut hc)
        · exact Or.inr hc
      · right
        rcases i2 with i2 | i2
        · rw [List.length_append] at i2; push_cast at i2; omega
        · exact i2
    · simp only [Outcome.ok.injEq] at h; subst h
      exact ⟨fun cut hc => Or.inl hc, Or.inl (le_refl _)⟩

theorem generate_spec {c : GenContext} {s : SolverView} {rs : List Rounder} {m : Int}
    {cuts : List CutData} (h : generateCuttingPlanes c s rs m = .ok cuts) :
    s.isSolved = true ∧ s.isOptimal = true ∧ 0 ≤ m ∧
    ∃ primal u, s.primal = .ok primal ∧
      (∀ cut ∈ cuts, Origin c s rs u (SparseVector.ofDense primal) cut) ∧
      ((cuts.length : Int) = 0 ∨ (cuts.length : Int) < m + rs.length) ∧ (m = 0 → cuts = []) := by
  unfold generateCuttingPlanes at h
  split at h
  · simp at h
  rename_i h1
  split at h
  · simp at h
  rename_i h2
  obtain ⟨acts, -, h⟩ := Outcome.bind_eq_ok.1 h
  obtain ⟨u, -, h⟩ := Outcome.bind_eq_ok.1 h
  obtain ⟨primal, hp, h⟩ := Outcome.bind_eq_ok.1 h
  simp only at h
  split at h
  · simp at h
  rename_i hm
  obtain ⟨i1, i2⟩ := tableauLoop_spec _ _ (by omega) h
  refine ⟨by simpa using h1, by simpa using h2, by omega, primal, u, hp, ?_, ?_, ?_⟩
  · intro cut hc
    rcases i1 cut hc with hc | hc
    · simp at hc
    · exact hc
  · rcases i2 with i2 | i2
    · left
      have : ((([] : List CutData).length : Nat) : Int) = 0 := rfl
      omega
    · exact Or.inr i2
  · rintro rfl
    cases hn : c.lp.rows.length with
    | zero => rw [hn] at h; simpa [tableauLoop] using h.symm
    | succ n => rw [hn] at h; simpa [tableauLoop] using h.symm

/-- The rows of the inverted basis are clean vectors. -/
def SolverClean (s : SolverView) : Prop := ∀ k b, s.bInverted k = .ok b → b.Good

/-- The tolerance only relaxes the rows that can come from the tableau (always true for a
zero tolerance, `harmless_of_tol_zero`). -/
def Harmless (c : GenContext) (s : SolverView) : Prop := ∀ k b u a a', k < c.lp.rows.length →
  s.bInverted k = .ok b → aggregateByWeight c.lp b u = .ok a → toNonNegative c.lp a = .ok (a', true) →
  HarmlessTolerance c.tol a'

/-- **C29, C30**, proved part, for the generator with any list of rounders: every returned cut
is satisfied by every mixed-integer point of the LP, whatever the solver reports as inverted
basis, primal values and activities. -/
theorem C29_C30_generated_cuts_partial (c : GenContext) (hr : RowsClean c.lp) (hI : IntegralData c)
    (s : SolverView) (hB : SolverClean s) (htol : Harmless c s) (rs : List Rounder) (m : Int)
    (cuts : List CutData) (h : generateCuttingPlanes c s rs m = .ok cuts) (cut : CutData)
    (hc : cut ∈ cuts) (x : Int → ℚ) (hx : MipFeasible c x) : cut.row.eval x ≤ cut.rhs := by
  obtain ⟨-, -, -, primal, u, -, ho, -⟩ := generate_spec h
  obtain ⟨k, b, a, a', r, ⟨hk, -⟩, hb, ha, ht, -, hr2⟩ := (ho cut hc).source
  rw [rowWeights_eq (hB k b hb)] at ha
  exact roundOne_valid hr hI (hB k b hb).1 ha ht (htol k b u a a' hk hb ha ht) hr2 hx

/-! ## C31 -/

theorem roundOne_good {c : GenContext} (hr : RowsClean c.lp) {w : SparseVector} (hw : Clean w.entries)
    {u : List Bool} {a a' : AggRow} (ha : aggregateByWeight c.lp w u = .ok a) {ok : Bool}
    (ht : toNonNegative c.lp a = .ok (a', ok)) {rounder : Rounder} {row : SparseVector} {rhs : ℚ}
    (h : roundOne c a' rounder = .ok (some (row, rhs))) : row.Good := by
  have hag := aggregate_spec hr hw ha
  obtain ⟨hv', -, e1, -, -, -, -⟩ := shiftRow_vars hag.vars ht
  have hs' : a'.slackCoefs.Good := by rw [e1]; exact hag.slackCoefs
  unfold roundOne at h
  obtain ⟨rounded, hround, h⟩ := Outcome.bind_eq_ok.1 h
  cases rounded with
  | none => simp at h
  | some r =>
    simp only at h
    obtain ⟨⟨r1, ok⟩, hback, h⟩ := Outcome.bind_eq_ok.1 h
    cases ok with
    | false => simp at h
    | true =>
      simp only [Bool.not_true, Bool.false_eq_true, if_false] at h
      obtain ⟨r2, hsub, h⟩ := Outcome.bind_eq_ok.1 h
      have h := Outcome.ok.inj h
      rcases hr2 : r2.rhs with _ | b2
      · rw [hr2] at h; simp at h
      rw [hr2] at h
      simp only [Option.map_some, Option.some.injEq, Prod.mk.injEq] at h
      obtain ⟨rfl, rfl⟩ := h
      have hR : r.vars.Good := by
        cases rounder with
        | mir => obtain ⟨b, b', -, -, hrd, -⟩ := mirRound_spec hv' hs' hround; exact hrd.vars
        | strongCG => obtain ⟨b, b', -, -, hrd, -⟩ := strongCGRound_spec hv' hs' hround; exact hrd.vars
      exact (substituteSlacks_spec hr (shiftRow_vars hR hback).1 hsub).1

/-- The LP solution as a point. -/
def primalPoint (primal : List ℚ) (j : Int) : ℚ := primal.getD j.toNat 0

theorem dotProduct_ofDense {v : SparseVector} (hv : Clean v.entries) (d : List ℚ) :
    v.dotProduct (SparseVector.ofDense d) = v.eval (primalPoint d) := by
  obtain ⟨h1, -, h3⟩ := SparseVector.C06_ofDense d
  rw [SparseVector.dotProduct, SparseVector.dotWalk_eq hv.1 h1.1, zero_add, SparseVector.eval, evalEntries]
  congr 1
  apply List.map_congr_left
  intro e he
  have h0 := (hv.2 e he).2
  have := h3 e.index.toNat
  rw [Int.toNat_of_nonneg h0] at this
  rw [SparseVector.value] at this
  rw [this]; rfl

/-- **C31.**  Every returned cut is violated by the LP solution, and carries the statistics
(efficacy, parallelism, counts) of its own row for that solution. -/
theorem C31_cuts_off_lp_optimum (c : GenContext) (hr : RowsClean c.lp) (s : SolverView)
    (hB : SolverClean s) (rs : List Rounder) (m : Int) (cuts : List CutData)
    (h : generateCuttingPlanes c s rs m = .ok cuts) :
    ∃ primal, s.primal = .ok primal ∧ ∀ cut ∈ cuts,
      cut.rhs < cut.row.eval (primalPoint primal) ∧ cut.row.Good ∧ cut.forced = false ∧
      cut.efficacy = computeEfficacy cut.row cut.rhs (SparseVector.ofDense primal) := by
  obtain ⟨-, -, -, primal, u, hp, ho, -⟩ := generate_spec h
  refine ⟨primal, hp, fun cut hc => ?_⟩
  obtain ⟨⟨k, b, a, a', r, -, hb, ha, ht, -, hr2⟩, hviol, name, hname⟩ := ho cut hc
  rw [rowWeights_eq (hB k b hb)] at ha
  have hg := roundOne_good hr (hB k b hb).1 ha ht hr2
  refine ⟨by rw [← dotProduct_ofDense hg.1]; exact hviol, hg, ?_, ?_⟩
  · rw [hname]; rfl
  · conv_lhs => rw [hname]
    rfl

/-! ## C32 -/

/-- **C32**, proved part.  No cuts for `max_num_cuts = 0`; otherwise fewer than `max_num_cuts`
plus the number of rounders (at most 2).  With a single rounder the limit is respected.  A
negative limit ends the process (if the LP is solved to optimality).  Missing (and false, see
`C32_max_num_cuts_violated`): the exact limit with two rounders. -/
theorem C32_max_num_cuts_partial (c : GenContext) (s : SolverView) (rs : List Rounder) (m : Int) :
    (∀ cuts, generateCuttingPlanes c s rs m = .ok cuts →
      (m = 0 → cuts = []) ∧ (cuts = [] ∨ (cuts.length : Int) < m + rs.length) ∧
      (rs.length ≤ 1 → (cuts.length : Int) ≤ m)) ∧
    (m < 0 → ∀ cuts, generateCuttingPlanes c s rs m ≠ .ok cuts) := by
  refine ⟨fun cuts h => ?_, fun hm cuts h => ?_⟩
  · obtain ⟨-, -, hm, primal, u, -, ho, hlen, h0⟩ := generate_spec h
    refine ⟨h0, ?_, ?_⟩
    · rcases hlen with hlen | hlen
      · left; simpa using hlen
      · exact Or.inr hlen
    · intro h1; omega
  · obtain ⟨-, -, h0, -⟩ := generate_spec h
    omega

/-! ## C33 -/

/-- The LP after adding cuts as rows `row ≤ rhs` (solver.cc/default_runner.cc: `AddRow` with
left-hand side `-infinity`). -/
def addCuts (c : GenContext) (cuts : List CutData) : GenContext :=
  { c with lp := { c.lp with
    rows := c.lp.rows ++ cuts.map (·.row)
    lhs := c.lp.lhs ++ cuts.map fun _ => Dbl.ninf
    rhs := c.lp.rhs ++ cuts.map fun cut => Dbl.fin cut.rhs } }

/-- The LP after changing the bounds of the columns (another node). -/
def setBounds (c : GenContext) (lower upper : List Dbl) : GenContext :=
  { c with lp := { c.lp with lower := lower, upper := upper } }

/-- Runs of the solver as far as the LP is concerned, observed at a point `x`: bounds change,
and cuts generated from the current LP are added.  `x` lies within the bounds whenever cuts
are generated (as every feasible point does at the root node). -/
inductive Run (x : Int → ℚ) (c₀ : GenContext) : GenContext → Prop where
  | start : Run x c₀ c₀
  | bounds {c : GenContext} (lower upper : List Dbl) : Run x c₀ c →
      (∀ (j : Nat) q, c.isInteger j = true → lower[j]? = some (.fin q) → ∃ k : Int, q = k) →
      (∀ (j : Nat) q, c.isInteger j = true → upper[j]? = some (.fin q) → ∃ k : Int, q = k) →
      Run x c₀ (setBounds c lower upper)
  | cut {c : GenContext} (s : SolverView) (rs : List Rounder) (m : Int) (cuts added : List CutData) :
      Run x c₀ c → SolverClean s → Harmless c s → InBounds c.lp x →
      generateCuttingPlanes c s rs m = .ok cuts → (∀ cut ∈ added, cut ∈ cuts) →
      Run x c₀ (addCuts c added)

/-- The point satisfies all rows of the LP. -/
def SatisfiesRows (lp : LpView) (x : Int → ℚ) : Prop :=
  (∀ (n : Nat) (row : SparseVector) (l : Dbl), lp.rows[n]? = some row → lp.lhs[n]? = some l →
    Dbl.le l (.fin (row.eval x)) = true) ∧
  (∀ (n : Nat) (row : SparseVector) (u : Dbl), lp.rows[n]? = some row → lp.rhs[n]? = some u →
    Dbl.le (.fin (row.eval x)) u = true)

theorem getElem?_append_map {α β γ : Type} {l : List α} {m : List β} {cs : List γ} {f : γ → α}
    {g : γ → β} (hlen : l.length = m.length) {n : Nat} {a : α} {b : β}
    (ha : (l ++ cs.map f)[n]? = some a) (hb : (m ++ cs.map g)[n]? = some b) :
    (l[n]? = some a ∧ m[n]? = some b) ∨ (l.length ≤ n ∧ ∃ c ∈ cs, f c = a ∧ g c = b) := by
  rcases lt_or_ge n l.length with hn | hn
  · left
    rw [List.getElem?_append_left hn] at ha
    rw [List.getElem?_append_left (by omega)] at hb
    exact ⟨ha, hb⟩
  · right
    rw [List.getElem?_append_right hn] at ha
    rw [List.getElem?_append_right (by omega)] at hb
    rw [← hlen] at hb
    rw [List.getElem?_map] at ha hb
    obtain ⟨c, hc, hca⟩ := Option.map_eq_some_iff.1 ha
    obtain ⟨c', hc', hcb⟩ := Option.map_eq_some_iff.1 hb
    rw [hc] at hc'; simp only [Option.some.injEq] at hc'; subst hc'
    exact ⟨hn, c, List.mem_of_getElem? hc, hca, hcb⟩

/-- **C33**, proved part.  A point that satisfies the original rows, is integral, and is within
the current bounds whenever cuts are generated, satisfies every cut ever added: the cuts
generated at the root are valid for the whole tree.  Missing (and false, see
`C33_local_bounds_violated`): points outside the bounds of the node at which the cut was
generated. -/
theorem C33_global_validity_partial (c₀ c : GenContext) (x : Int → ℚ)
    (hr : RowsClean c₀.lp) (hI : IntegralData c₀)
    (hsize : c₀.lp.lhs.length = c₀.lp.rows.length ∧ c₀.lp.rhs.length = c₀.lp.rows.length ∧
      c₀.integralRow.length = c₀.lp.rows.length)
    (hx : SatisfiesRows c₀.lp x) (hint : ∀ j, c₀.isInteger j = true → ∃ k : Int, x j = k)
    (h : Run x c₀ c) : SatisfiesRows c.lp x := by
  suffices RowsClean c.lp ∧ IntegralData c ∧ (c.lp.lhs.length = c.lp.rows.length ∧
      c.lp.rhs.length = c.lp.rows.length ∧ c.integralRow.length ≤ c.lp.rows.length) ∧
      SatisfiesRows c.lp x ∧ c.isInteger = c₀.isInteger by exact this.2.2.2.1
  induction h with
  | start => exact ⟨hr, hI, ⟨hsize.1, hsize.2.1, hsize.2.2.le⟩, hx, rfl⟩
  | bounds lower upper _ hlo hup ih =>
    obtain ⟨i1, i2, i3, i4, i5⟩ := ih
    exact ⟨i1, { i2 with lower := hlo, upper := hup }, i3, i4, i5⟩
  | @cut c s rs m cuts added _ hB htol hin hgen hadd ih =>
    obtain ⟨i1, i2, ⟨l1, l2, l3⟩, i4, i5⟩ := ih
    have hmip : MipFeasible c x := ⟨⟨hin, i4⟩, by rw [i5]; exact hint⟩
    have hval := fun cut hc => C29_C30_generated_cuts_partial c i1 i2 s hB htol rs m cuts hgen cut hc x hmip
    obtain ⟨primal, -, hgood⟩ := C31_cuts_off_lp_optimum c i1 s hB rs m cuts hgen
    refine ⟨?_, ?_, ?_, ⟨?_, ?_⟩, i5⟩
    · intro r hr
      rcases List.mem_append.1 hr with hr | hr
      · exact i1 r hr
      · obtain ⟨cut, hc, rfl⟩ := List.mem_map.1 hr
        exact (hgood cut (hadd cut hc)).2.1
    · have old : ∀ i : Nat, c.integralRow[i]? = some true → i < c.lp.rows.length := by
        intro i hi
        have := (List.getElem?_eq_some_iff.1 hi).1
        omega
      refine { lower := i2.lower, upper := i2.upper, coefs := ?_, lhs := ?_, rhs := ?_ }
      · intro i row hf hrow
        have hlt := old i hf
        simp only [addCuts] at hrow
        rw [List.getElem?_append_left hlt] at hrow
        exact i2.coefs i row hf hrow
      · intro i q hf hq
        have hlt := old i hf
        simp only [addCuts] at hq
        rw [List.getElem?_append_left (by omega)] at hq
        exact i2.lhs i q hf hq
      · intro i q hf hq
        have hlt := old i hf
        simp only [addCuts] at hq
        rw [List.getElem?_append_left (by omega)] at hq
        exact i2.rhs i q hf hq
    · simp only [addCuts, List.length_append, List.length_map]; omega
    · intro n row l hrow hl
      rcases getElem?_append_map (f := fun cut : CutData => cut.row) (g := fun _ => Dbl.ninf) l1.symm hrow hl
        with ⟨h1, h2⟩ | ⟨-, cut, hc, -, h2⟩
      · exact i4.1 n row l h1 h2
      · rw [← h2]; rfl
    · intro n row u hrow hu
      rcases getElem?_append_map (f := fun cut : CutData => cut.row) (g := fun cut => Dbl.fin cut.rhs)
        l2.symm hrow hu with ⟨h1, h2⟩ | ⟨-, cut, hc, h1, h2⟩
      · exact i4.2 n row u h1 h2
      · rw [← h1, ← h2, Dbl.le_fin]; exact hval cut (hadd cut hc)

/-! ## C34 -/

/-- The data that the solver returns fits the LP. -/
structure Consistent (c : GenContext) (s : SolverView) : Prop where
  lhs : c.lp.lhs.length = c.lp.rows.length
  rhs : c.lp.rhs.length = c.lp.rows.length
  upper : c.lp.upper.length = c.lp.lower.length
  columns : ∀ row ∈ c.lp.rows, ∀ e ∈ row.entries, e.index < c.lp.lower.length
  activities : ∃ acts, s.activities = .ok acts ∧ acts.length = c.lp.rows.length
  primal : ∃ p, s.primal = .ok p
  basis : s.basis.length = c.lp.rows.length
  inverse : ∀ k < c.lp.rows.length, ∃ b, s.bInverted k = .ok b ∧ b.Good ∧
    ∀ e ∈ b.entries, e.index < c.lp.rows.length

theorem chooseSides_ok {lp : LpView} (hl : lp.lhs.length = lp.rows.length)
    (hr : lp.rhs.length = lp.rows.length) (acts : List ℚ) (k : Nat)
    (h : k + acts.length ≤ lp.rows.length) :
    ∃ u, chooseSides lp k acts = .ok u ∧ u.length = acts.length := by
  induction acts generalizing k with
  | nil => exact ⟨[], rfl, rfl⟩
  | cons a r ih =>
    simp only [List.length_cons] at h
    obtain ⟨u, hu, hlen⟩ := ih (k + 1) (by omega)
    obtain ⟨x, hx, -⟩ := listAt_of_lt (l := lp.rhs) (i := (k : Int)) (by omega) (by omega)
    obtain ⟨y, hy, -⟩ := listAt_of_lt (l := lp.lhs) (i := (k : Int)) (by omega) (by omega)
    refine ⟨chooseSide lp a y x :: u, ?_, by simp [hlen]⟩
    simp only [chooseSides, hx, hy, hu, Outcome.bind_ok, Outcome.pure_eq]

theorem shiftOf_ok {lp : LpView} (hu : lp.upper.length = lp.lower.length) {j : Int} (h0 : 0 ≤ j)
    (h : j < lp.lower.length) : ∃ s, shiftOf lp j = .ok s := by
  obtain ⟨x, hx, -⟩ := listAt_of_lt (l := lp.lower) h0 h
  obtain ⟨y, hy, -⟩ := listAt_of_lt (l := lp.upper) h0 (by omega)
  simp only [shiftOf, hx, hy, Outcome.bind_ok, Outcome.pure_eq]
  exact ⟨_, rfl⟩

theorem shiftRow_ok {lp : LpView} {rc} (hu : lp.upper.length = lp.lower.length) (a : AggRow)
    (h : ∀ e ∈ a.vars.entries, 0 ≤ e.index ∧ e.index < lp.lower.length) :
    ∃ r, shiftRow lp rc a = .ok r := by
  have loop : ∀ (l : List Entry) (b : Option ℚ), (∀ e ∈ l, 0 ≤ e.index ∧ e.index < lp.lower.length) →
      ∃ r, shiftEntries lp rc l b = .ok r := by
    intro l
    induction l with
    | nil => intro b _; exact ⟨_, rfl⟩
    | cons e l ih =>
      intro b hl
      obtain ⟨s, hs⟩ := shiftOf_ok hu (hl e (by simp)).1 (hl e (by simp)).2
      obtain ⟨r, hr⟩ := ih (rc e.value s b) (fun d hd => hl d (by simp [hd]))
      simp only [shiftEntries, hs, hr, Outcome.bind_ok, Outcome.pure_eq]
      exact ⟨_, rfl⟩
  obtain ⟨r, hr⟩ := loop a.vars.entries a.rhs h
  simp only [shiftRow, hr, Outcome.bind_ok, Outcome.pure_eq]
  exact ⟨_, rfl⟩

theorem transformM_ok {f : Int → ℚ → Outcome ℚ} (l : List Entry)
    (h : ∀ e ∈ l, ∃ y, f e.index e.value = .ok y) : ∃ l', transformM f l = .ok l' := by
  induction l with
  | nil => exact ⟨[], rfl⟩
  | cons e l ih =>
    obtain ⟨y, hy⟩ := h e (by simp)
    obtain ⟨l', hl'⟩ := ih (fun d hd => h d (by simp [hd]))
    simp only [transformM, hy, hl', Outcome.bind_ok, Outcome.pure_eq]
    exact ⟨_, rfl⟩

theorem round_ok {c : GenContext} {a : AggRow}
    (h : ∀ e ∈ a.slackCoefs.entries, 0 ≤ e.index ∧ e.index < c.integralRow.length) (r : Rounder) :
    ∃ res, r.round c a = .ok res := by
  have hflag : ∀ e ∈ a.slackCoefs.entries, ∃ b, hasIntegralSlack c e.index = .ok b := by
    intro e he
    obtain ⟨b, hb, -⟩ := listAt_of_lt (l := c.integralRow) (h e he).1 (h e he).2
    exact ⟨b, hb⟩
  cases r with
  | mir =>
    simp only [Rounder.round, mirRound]
    split
    · have : readFlags c a.slackCoefs.entries = .ok () := by
        generalize a.slackCoefs.entries = l at hflag
        induction l with
        | nil => rfl
        | cons e l ih =>
          obtain ⟨i, hi⟩ := hflag e (by simp)
          simp only [readFlags, hi, Outcome.bind_ok]
          exact ih fun d hd => hflag d (by simp [hd])
      exact ⟨none, by rw [this]; rfl⟩
    · rename_i b hb
      have := transformM_ok (f := fun row x => do
        let i ← hasIntegralSlack c row
        return if i then mirRoundInteger c.tol x (fractionality c.tol b)
          else mirRoundContinuous x (fractionality c.tol b)) a.slackCoefs.entries (by
        intro e he
        obtain ⟨i, hi⟩ := hflag e he
        exact ⟨_, by rw [hi]; rfl⟩)
      obtain ⟨l, hl⟩ := this
      simp only [Outcome.pure_eq] at hl
      simp only [hl, Outcome.bind_ok, Outcome.pure_eq]
      exact ⟨_, rfl⟩
  | strongCG =>
    have hall : ∃ ok, slacksAllowCG c a.slackCoefs.entries = .ok ok := by
      generalize a.slackCoefs.entries = l at hflag
      induction l with
      | nil => exact ⟨true, rfl⟩
      | cons e l ih =>
        obtain ⟨i, hi⟩ := hflag e (by simp)
        obtain ⟨ok, hok⟩ := ih (fun d hd => hflag d (by simp [hd]))
        simp only [slacksAllowCG, hi, Outcome.bind_ok]
        split
        · exact ⟨ok, hok⟩
        · exact ⟨false, rfl⟩
    obtain ⟨ok, hok⟩ := hall
    simp only [Rounder.round, strongCGRound, hok, Outcome.bind_ok]
    split
    · exact ⟨_, rfl⟩
    · split
      · exact ⟨_, rfl⟩
      · split
        · exact ⟨_, rfl⟩
        · rename_i b hb
          split
          · exact ⟨_, rfl⟩
          · have := transformM_ok (f := fun row x => do
              let i ← hasIntegralSlack c row
              return if i then
                (if fractionality c.tol b = 0 then floorWithTolerance c.tol x
                  else cgRoundInteger c.tol x (⌈1 / fractionality c.tol b⌉ - 1) (fractionality c.tol b))
                else 0) a.slackCoefs.entries (by
              intro e he
              obtain ⟨i, hi⟩ := hflag e he
              exact ⟨_, by rw [hi]; rfl⟩)
            obtain ⟨l, hl⟩ := this
            simp only [Outcome.pure_eq] at hl
            simp only [hl, Outcome.bind_ok, Outcome.pure_eq]
            exact ⟨_, rfl⟩

theorem substituteLoop_ok {lp : LpView} (hr : RowsClean lp) {signs sides : SparseVector}
    (l : List Entry) (h : ∀ e ∈ l, 0 ≤ e.index ∧ e.index < lp.rows.length) (v : SparseVector)
    (hv : v.Good) (r : Option ℚ) : ∃ res, substituteLoop lp signs sides l v r = .ok res := by
  induction l generalizing v r with
  | nil => exact ⟨_, rfl⟩
  | cons e l ih =>
    obtain ⟨row, hrow, hrow2⟩ := listAt_of_lt (l := lp.rows) (h e (by simp)).1 (h e (by simp)).2
    have hc := (hr row (List.mem_of_getElem? hrow2)).1
    obtain ⟨w, hw⟩ := addMultiple_ok (-1) hv (scale_clean hc (signs.value e.index * e.value))
    have hg := (eval_addMultiple hv (scale_clean hc (signs.value e.index * e.value)) hw).1
    obtain ⟨res, hres⟩ := ih (fun d hd => h d (by simp [hd])) w hg
      (r.map (· - signs.value e.index * e.value * sides.value e.index))
    simp only [substituteLoop, hrow, hw, Outcome.bind_ok]
    exact ⟨res, hres⟩

/-- One rounder on the transformed tableau row: if rounding succeeds, then so do the back-transformation and the
substitution of the slacks. -/
theorem roundOne_of_round {c : GenContext} {s : SolverView} (hr : RowsClean c.lp) (hs : Consistent c s)
    {u : List Bool} {b : SparseVector} {a a' : AggRow} {r : Rounder} (hb : b.Good)
    (hbi : ∀ e ∈ b.entries, e.index < c.lp.rows.length) (ha : aggregateByWeight c.lp b u = .ok a)
    (ht : toNonNegative c.lp a = .ok (a', true)) {res : Option AggRow} (hres : r.round c a' = .ok res) :
    ∃ res, roundOne c a' r = .ok res := by
  have hag := aggregate_spec hr hb.1 ha
  obtain ⟨hv', hent, e1, -, -, hok, l, hl⟩ := shiftRow_vars hag.vars ht
  have hs' : a'.slackCoefs.Good := by rw [e1]; exact hag.slackCoefs
  have hslack : ∀ e ∈ a'.slackCoefs.entries, 0 ≤ e.index ∧ e.index < c.lp.rows.length := by
    intro e he
    rw [e1, hag.coefs] at he
    obtain ⟨d, hd, rfl⟩ := List.mem_map.1 he
    exact ⟨(hb.1.2 d hd).2, hbi d hd⟩
  have hcol : ∀ e ∈ a'.vars.entries, 0 ≤ e.index ∧ e.index < c.lp.lower.length := by
    intro e he
    refine ⟨(hv'.1.2 e he).2, ?_⟩
    rw [hent] at he
    obtain ⟨d, hd, rfl⟩ := List.mem_map.1 he
    obtain ⟨f, hf, g, hg, hgd⟩ := column_origin hr hag hd
    obtain ⟨-, hrow, -⟩ := aggregate_inRange' ha f hf
    have := hs.columns _ (List.mem_of_getElem? hrow) g hg
    simp only; omega
  cases res with
  | none =>
    refine ⟨none, ?_⟩
    simp only [roundOne, hres, Outcome.bind_ok]; rfl
  | some q =>
    have hrd : Rounded a' q := by
      cases r with
      | mir => obtain ⟨_, _, -, -, hrd, -⟩ := mirRound_spec hv' hs' hres; exact hrd
      | strongCG => obtain ⟨_, _, -, -, hrd, -⟩ := strongCGRound_spec hv' hs' hres; exact hrd
    have hqcol : ∀ e ∈ q.vars.entries, 0 ≤ e.index ∧ e.index < c.lp.lower.length := by
      intro e he
      obtain ⟨d, hd, hde⟩ := hrd.varIdx e he
      rw [← hde]; exact hcol d hd
    obtain ⟨⟨q1, ok⟩, hq1⟩ := shiftRow_ok (rc := Shift.backRhs) hs.upper q hqcol
    obtain ⟨hv1, -, f1, -, -, hok1, -⟩ := shiftRow_vars hrd.vars hq1
    have hoktrue : ok = true := by
      rw [hok1]
      intro e he
      obtain ⟨d, hd, hde⟩ := hrd.varIdx e he
      rw [hent] at hd
      obtain ⟨f, hf, rfl⟩ := List.mem_map.1 hd
      rw [← hde]; exact hok.1 rfl f hf
    subst hoktrue
    obtain ⟨⟨v2, r2⟩, h2⟩ := substituteLoop_ok hr (signs := q1.slackSigns) (sides := q1.sideValues)
      q1.slackCoefs.entries (by
        intro e he
        rw [f1] at he
        obtain ⟨d, hd, hde⟩ := hrd.slackIdx e he
        rw [← hde]; exact hslack d hd) q1.vars hv1 q1.rhs
    have hq1' : toOriginal c.lp q = .ok (q1, true) := hq1
    refine ⟨r2.map fun b => (v2, b), ?_⟩
    simp only [roundOne, hres, hq1', substituteSlacks, h2, Outcome.bind_ok, Outcome.pure_eq,
      Bool.not_true, Bool.false_eq_true, if_false]

/-- **C34**, proved part.  As long as the LP has no more rows than `MipData` (that is, until the
first cut is added), a call on a solved LP succeeds: no lookup is out of range, and the
back-transformation never fails.  Missing (and false, see `C34_cut_row_violated`): LPs with
cut rows. -/
theorem C34_in_range_partial (c : GenContext) (s : SolverView) (hr : RowsClean c.lp)
    (hs : Consistent c s) (hflags : c.lp.rows.length ≤ c.integralRow.length)
    (hsolved : s.isSolved = true) (hopt : s.isOptimal = true) (rs : List Rounder) (m : Int)
    (hm : 0 ≤ m) : ∃ cuts, generateCuttingPlanes c s rs m = .ok cuts := by
  obtain ⟨acts, hacts, hlen⟩ := hs.activities
  obtain ⟨primal, hp⟩ := hs.primal
  obtain ⟨u, hu, hulen⟩ := chooseSides_ok hs.lhs hs.rhs acts 0 (by omega)
  unfold generateCuttingPlanes
  simp only [hsolved, hopt, Bool.not_true, Bool.false_eq_true, if_false, hacts, hu, hp, Outcome.bind_ok]
  rw [if_neg (show ¬ m < 0 by omega)]
  -- one rounder
  have one : ∀ (b : SparseVector) (a a' : AggRow) (r : Rounder), b.Good →
      (∀ e ∈ b.entries, e.index < c.lp.rows.length) → aggregateByWeight c.lp b u = .ok a →
      toNonNegative c.lp a = .ok (a', true) → ∃ res, roundOne c a' r = .ok res := by
    intro b a a' r hb hbi ha ht
    have hag := aggregate_spec hr hb.1 ha
    obtain ⟨-, -, e1, -⟩ := shiftRow_vars hag.vars ht
    obtain ⟨res, hres⟩ := round_ok (c := c) (a := a') (by
      intro e he
      rw [e1, hag.coefs] at he
      obtain ⟨d, hd, rfl⟩ := List.mem_map.1 he
      have := hbi d hd
      exact ⟨(hb.1.2 d hd).2, by simp only; omega⟩) r
    exact roundOne_of_round hr hs hb hbi ha ht hres
  have all : ∀ (a' : AggRow), (∀ r, ∃ res, roundOne c a' r = .ok res) → ∀ (rs : List Rounder) (t : Nat),
      ∃ cuts, roundAll c (SparseVector.ofDense primal) a' t rs = .ok cuts := by
    intro a' hone rs
    induction rs with
    | nil => intro t; exact ⟨[], rfl⟩
    | cons r rs ih =>
      intro t
      obtain ⟨res, hres⟩ := hone r
      simp only [roundAll, hres, Outcome.bind_ok]
      cases res with
      | none => exact ih t
      | some p =>
        obtain ⟨row, rhs⟩ := p
        simp only
        split
        · obtain ⟨cuts, hcuts⟩ := ih (t + 1)
          simp only [hcuts, Outcome.bind_ok, Outcome.pure_eq]
          exact ⟨_, rfl⟩
        · exact ih t
  have row : ∀ k < c.lp.rows.length,
      ∃ cuts, tableauRow c s rs u (SparseVector.ofDense primal) k = .ok cuts := by
    intro k hk
    obtain ⟨basic, hbasic, -⟩ := listAt_of_lt (l := s.basis) (i := (k : Int)) (by omega)
      (by rw [hs.basis]; omega)
    unfold tableauRow
    simp only [hbasic, Outcome.bind_ok]
    cases basic with
    | none => exact ⟨[], rfl⟩
    | some col =>
      simp only
      split
      · exact ⟨[], rfl⟩
      · split
        · exact ⟨[], rfl⟩
        · obtain ⟨b, hb, hg, hbi⟩ := hs.inverse k hk
          obtain ⟨a, ha⟩ := C26_succeeds c.lp hr b hg.1 u hs.lhs hs.rhs (by omega) hbi
          have hag := aggregate_spec hr hg.1 ha
          obtain ⟨⟨a', ok⟩, ht⟩ := shiftRow_ok (rc := Shift.toRhs) hs.upper a (by
            intro e he
            refine ⟨(hag.vars.1.2 e he).2, ?_⟩
            obtain ⟨f, hf, g, hg', hgd⟩ := column_origin hr hag he
            obtain ⟨-, hrow, -⟩ := aggregate_inRange' ha f hf
            have := hs.columns _ (List.mem_of_getElem? hrow) g hg'
            omega)
          have ht' : toNonNegative c.lp a = .ok (a', ok) := ht
          simp only [hb, rowWeights_eq hg, ha, ht', Outcome.bind_ok]
          cases ok with
          | false => exact ⟨[], rfl⟩
          | true =>
            obtain ⟨cuts, hcuts⟩ := all a' (fun r => one b a a' r hg hbi ha ht') rs 0
            exact ⟨cuts, by simpa using hcuts⟩
  have loop : ∀ (n k : Nat) (cuts : List CutData), k + n ≤ c.lp.rows.length →
      ∃ cuts', tableauLoop c s rs m u (SparseVector.ofDense primal) n k cuts = .ok cuts' := by
    intro n
    induction n with
    | zero => intro k cuts _; exact ⟨cuts, rfl⟩
    | succ n ih =>
      intro k cuts hk
      simp only [tableauLoop]
      split
      · obtain ⟨new, hnew⟩ := row k (by omega)
        simp only [hnew, Outcome.bind_ok]
        exact ih (k + 1) _ (by omega)
      · exact ⟨cuts, rfl⟩
  exact loop _ 0 [] (by omega)

end MiniMip.Generator
