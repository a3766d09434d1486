import Verif.Props.GeneratorWitness

/-!
# The cut generator on the LP of a problem

`C29`, `C30` and `C33` for the user's problem, and the choice of sides (`C63`).
-/

namespace MiniMip.Generator

variable {hash : MipData.HashOrder}
open SparseVector (Clean StrictSorted)

/-- The generator's view of the solver right after `PopulateFromMipData`: the LP has the rows,
sides and bounds of `MipData` (lpi_glop.cc:159-183, lpi_soplex.cc:410-456). -/
structure RootContext (d : MipData) (c : GenContext) : Prop where
  numRows : c.lp.rows.length = d.matrix.numRows
  rows : ∀ (k : Nat) m v, k < d.matrix.numRows → d.matrix.row k = .ok (m, v) →
    ∃ w : SparseVector, c.lp.rows[k]? = some w ∧ w.entries = v.entries ∧ w.dirty = false
  lhs : c.lp.lhs = d.lhs
  rhs : c.lp.rhs = d.rhs
  lower : c.lp.lower = d.lower
  upper : c.lp.upper = d.upper
  integer : ∀ j, c.isInteger j = true ↔ j ∈ d.integerVariables
  flags : c.integralRow = d.isIntegralConstraint

/-- Integer variables have integral bounds and constraints have integral sides (where finite). -/
def IntegralProblem (p : Problem) : Prop :=
  (∀ v ∈ p.vars, v.isInteger = true → ∀ q, (v.lower = .fin q ∨ v.upper = .fin q) → ∃ k : Int, q = k) ∧
  ∀ c ∈ p.constraints, ∀ q, (c.lhs = .fin q ∨ c.rhs = .fin q) → ∃ k : Int, q = k

/-- A clean linear form is determined by its values at all points. -/
theorem entries_eq_of_eval {l m : List Entry} (hl : Clean l) (hm : Clean m)
    (h : ∀ x, evalEntries l x = evalEntries m x) (e : Entry) (he : e ∈ l) :
    ∃ f ∈ m, f.index = e.index ∧ f.value = e.value := by
  have key : ∀ {l : List Entry}, Clean l → ∀ i, evalEntries l (fun j => if j = i then 1 else 0) =
      SparseVector.sumAt l i := by
    intro l _ i
    unfold evalEntries
    induction l with
    | nil => rfl
    | cons a r ih =>
      rw [SparseVector.sumAt, List.map_cons, List.sum_cons, ih (by
        rename_i hc; exact ⟨(List.pairwise_cons.1 hc.1).2, fun e he => hc.2 e (by simp [he])⟩)]
      by_cases hi : a.index = i <;> simp [hi]
  have h1 := key hl e.index
  have h2 := key hm e.index
  rw [h] at h1
  have hv : SparseVector.sumAt l e.index = e.value := by
    rw [← SparseVector.valueAt_eq_sumAt hl.1]; exact value_of_mem hl he
  rw [hv] at h1
  rw [h1] at h2
  have hne : SparseVector.sumAt m e.index ≠ 0 := by rw [← h2]; exact (hl.2 e he).1
  have hex : ∃ f ∈ m, f.index = e.index := by
    by_contra hc
    push Not at hc
    exact hne (SparseVector.sumAt_eq_zero hc)
  obtain ⟨f, hf, hfi⟩ := hex
  refine ⟨f, hf, hfi, ?_⟩
  have := value_of_mem hm hf
  rw [hfi, SparseVector.valueAt_eq_sumAt hm.1, ← h2] at this
  exact this.symm

/-- The LP of a well-formed problem meets the requirements of the validity theorems. -/
theorem root_ok (p : Problem) (hp : p.WellFormed) (hI : IntegralProblem p) (d : MipData)
    (hd : MipData.ofProblem hash p = .ok d) (c : GenContext) (hc : RootContext d c) :
    RowsClean c.lp ∧ IntegralData c ∧
    (c.lp.lhs.length = c.lp.rows.length ∧ c.lp.rhs.length = c.lp.rows.length ∧
      c.integralRow.length = c.lp.rows.length) ∧
    ∀ x, p.Feasible x → MipFeasible c x := by
  obtain ⟨d', h1, hrep, hflag, -⟩ := MipData.ofProblem_spec hash p hp
  rw [h1] at hd; simp only [Outcome.ok.injEq] at hd; subst hd
  have hlen : c.lp.rows.length = p.constraints.length := by rw [hc.numRows, hrep.numRows]
  -- row `k` of the LP and constraint `k`
  have hrow : ∀ (k : Nat) w, c.lp.rows[k]? = some w → ∃ con, p.constraints[k]? = some con ∧
      Clean w.entries ∧ w.dirty = false ∧ ∀ x, w.eval x = con.activity x := by
    intro k w hw
    have hk : k < p.constraints.length := by rw [← hlen]; exact (List.getElem?_eq_some_iff.1 hw).1
    obtain ⟨m, v, hm, hcl, -, hev, -⟩ := hrep.rows k _ (List.getElem?_eq_getElem hk)
    obtain ⟨w', hw', he, hdirty⟩ := hc.rows k m v (by rw [hrep.numRows]; exact hk) hm
    rw [hw] at hw'; simp only [Option.some.injEq] at hw'; subst hw'
    refine ⟨_, List.getElem?_eq_getElem hk, by rw [he]; exact hcl, hdirty, fun x => ?_⟩
    rw [← hev x, SparseVector.eval, SparseVector.eval, he]
  have hvar : ∀ (f : Variable → Dbl) (n : Nat) q, (p.vars.map f)[n]? = some q →
      ∃ v, p.vars[n]? = some v ∧ f v = q := by
    intro f n q h
    rw [List.getElem?_map] at h
    exact Option.map_eq_some_iff.1 h
  have hcon : ∀ (f : Constraint → Dbl) (n : Nat) q, (p.constraints.map f)[n]? = some q →
      ∃ v, p.constraints[n]? = some v ∧ f v = q := by
    intro f n q h
    rw [List.getElem?_map] at h
    exact Option.map_eq_some_iff.1 h
  refine ⟨?_, ⟨?_, ?_, ?_, ?_, ?_⟩, ⟨?_, ?_, ?_⟩, ?_⟩
  · intro r hr
    obtain ⟨k, hk⟩ := List.getElem?_of_mem hr
    obtain ⟨-, -, h2, h3, -⟩ := hrow k r hk
    exact ⟨h2, h3⟩
  · intro j q hj hq
    rw [hc.lower, hrep.lower] at hq
    obtain ⟨v, hv, hvq⟩ := hvar _ j _ hq
    obtain ⟨n, v', hv', hvi, hjn⟩ := (hrep.integers j).1 ((hc.integer j).1 hj)
    obtain rfl : n = j := by exact_mod_cast hjn.symm
    rw [hv] at hv'; simp only [Option.some.injEq] at hv'; subst hv'
    exact hI.1 v (List.mem_of_getElem? hv) hvi q (Or.inl hvq)
  · intro j q hj hq
    rw [hc.upper, hrep.upper] at hq
    obtain ⟨v, hv, hvq⟩ := hvar _ j _ hq
    obtain ⟨n, v', hv', hvi, hjn⟩ := (hrep.integers j).1 ((hc.integer j).1 hj)
    obtain rfl : n = j := by exact_mod_cast hjn.symm
    rw [hv] at hv'; simp only [Option.some.injEq] at hv'; subst hv'
    exact hI.1 v (List.mem_of_getElem? hv) hvi q (Or.inr hvq)
  · intro i row hf hr e he
    obtain ⟨con, hcon, hcl, -, hev⟩ := hrow i row hr
    obtain ⟨row', flag, hf', hok⟩ := hflag i con hcon
    rw [hc.flags, hf'] at hf; simp only [Option.some.injEq] at hf; subst hf
    obtain ⟨f, hfm, hfi, hfv⟩ := entries_eq_of_eval hcl hok.clean (fun x => by
      have := hok.eval x
      rw [← hev x] at this
      exact this.symm) e he
    obtain ⟨hk, hj⟩ := hok.sound rfl f hfm
    rw [hfi] at hj; rw [hfv] at hk
    exact ⟨(hc.integer _).2 hj, hk⟩
  · intro i q _ hq
    rw [hc.lhs, hrep.lhs] at hq
    obtain ⟨v, hv, hvq⟩ := hcon _ i _ hq
    exact hI.2 v (List.mem_of_getElem? hv) q (Or.inl hvq)
  · intro i q _ hq
    rw [hc.rhs, hrep.rhs] at hq
    obtain ⟨v, hv, hvq⟩ := hcon _ i _ hq
    exact hI.2 v (List.mem_of_getElem? hv) q (Or.inr hvq)
  · rw [hc.lhs, hrep.lhs, hlen, List.length_map]
  · rw [hc.rhs, hrep.rhs, hlen, List.length_map]
  · rw [hc.flags, hrep.numFlags, hlen]
  · rintro x ⟨hx1, hx2⟩
    refine ⟨⟨⟨?_, ?_⟩, ?_, ?_⟩, ?_⟩
    · intro n l hl
      rw [hc.lower, hrep.lower] at hl
      obtain ⟨v, hv, rfl⟩ := hvar _ n _ hl
      exact (hx1 n v hv).1.1
    · intro n l hl
      rw [hc.upper, hrep.upper] at hl
      obtain ⟨v, hv, rfl⟩ := hvar _ n _ hl
      exact (hx1 n v hv).1.2
    · intro n row l hr hl
      rw [hc.lhs, hrep.lhs] at hl
      obtain ⟨con, hcn, rfl⟩ := hcon _ n _ hl
      obtain ⟨con', hcn', -, -, hev⟩ := hrow n row hr
      rw [hcn] at hcn'; simp only [Option.some.injEq] at hcn'; subst hcn'
      rw [hev]; exact (hx2 con (List.mem_of_getElem? hcn)).1
    · intro n row l hr hl
      rw [hc.rhs, hrep.rhs] at hl
      obtain ⟨con, hcn, rfl⟩ := hcon _ n _ hl
      obtain ⟨con', hcn', -, -, hev⟩ := hrow n row hr
      rw [hcn] at hcn'; simp only [Option.some.injEq] at hcn'; subst hcn'
      rw [hev]; exact (hx2 con (List.mem_of_getElem? hcn)).2
    · intro j hj
      obtain ⟨n, v, hv, hvi, rfl⟩ := (hrep.integers j).1 ((hc.integer j).1 hj)
      exact (hx1 n v hv).2 hvi

/-- **C29, C30, C33**, proved part, for the user's problem.  Take a well-formed problem with
integral bounds of integer variables and integral sides.  In every run that starts with its LP,
changes bounds (to integral values on integer variables) and adds cuts generated while the
feasible point `x` is within the current bounds, the point `x` still satisfies all rows of the
LP. -/
theorem C29_C30_C33_problem_partial (p : Problem) (hp : p.WellFormed) (hI : IntegralProblem p)
    (d : MipData) (hd : MipData.ofProblem hash p = .ok d) (c₀ c : GenContext) (hc : RootContext d c₀)
    (x : Int → ℚ) (hx : p.Feasible x) (h : Run x c₀ c) : SatisfiesRows c.lp x := by
  obtain ⟨h1, h2, h3, h4⟩ := root_ok p hp hI d hd c₀ hc
  obtain ⟨⟨-, h5⟩, h6⟩ := h4 x hx
  exact C33_global_validity_partial c₀ c x h1 h2 h3 h5 h6 h

/-- The hypotheses are met by a problem with one constraint `2 x + y ≤ 3`. -/
def ex1Problem : Problem where
  vars := [{ name := "x", objective := -1, isInteger := true, lower := .fin 0, upper := .fin 5 },
    { name := "y", isInteger := true, lower := .fin 0, upper := .fin 5 }]
  constraints := [{ name := "c", varIndices := [0, 1], coefficients := [2, 1], rhs := .fin 3 }]

example : ex1Problem.WellFormed ∧ IntegralProblem ex1Problem ∧ ex1Problem.Feasible (fun _ => 1) ∧
    ∀ d, MipData.ofProblem hash ex1Problem = .ok d → ∃ c, RootContext d c := by
  have hwf : ex1Problem.WellFormed := by
    simp [ex1Problem, Problem.WellFormed, Variable.WellFormed, Constraint.WellFormed, Ordered, Dbl.le]
  refine ⟨hwf, ?_, ?_, ?_⟩
  · constructor
    · intro v hv _ q hq
      simp only [ex1Problem, List.mem_cons, List.not_mem_nil, or_false] at hv
      rcases hv with rfl | rfl <;> simp only [Dbl.fin.injEq] at hq <;> rcases hq with rfl | rfl
      exacts [⟨0, by simp⟩, ⟨5, by simp⟩, ⟨0, by simp⟩, ⟨5, by simp⟩]
    · intro c hc q hq
      simp only [ex1Problem, List.mem_singleton] at hc
      subst hc
      simp at hq
      exact ⟨3, by simp [← hq]⟩
  · constructor
    · intro n v hv
      rcases n with _ | _ | n <;> simp [ex1Problem] at hv <;> subst hv <;>
        exact ⟨⟨by norm_num [Dbl.le], by norm_num [Dbl.le]⟩, fun _ => ⟨1, by simp⟩⟩
    · intro c hc
      simp only [ex1Problem, List.mem_singleton] at hc
      subst hc
      exact ⟨rfl, by norm_num [Dbl.le, Constraint.activity]⟩
  · intro d hd
    obtain ⟨d', h1, hrep⟩ := C09_represents hash _ hwf
    rw [h1] at hd; simp only [Outcome.ok.injEq] at hd; subst hd
    obtain ⟨m, v, hm, -⟩ := hrep.rows 0 _ rfl
    refine ⟨{ lp := { rows := [⟨v.entries, false⟩], lhs := d'.lhs, rhs := d'.rhs, lower := d'.lower, upper := d'.upper }
              isInteger := fun j => decide (j ∈ d'.integerVariables)
              integralRow := d'.isIntegralConstraint
              objective := d'.objective
              tol := 0 }, ?_, ?_, rfl, rfl, rfl, rfl, by simp, rfl⟩
    · rw [hrep.numRows]; rfl
    · intro k m' v' hk h
      rw [hrep.numRows] at hk
      obtain rfl : k = 0 := by
        have : k < 1 := hk
        omega
      rw [hm] at h
      simp only [Outcome.ok.injEq, Prod.mk.injEq] at h
      exact ⟨_, rfl, by rw [h.2], rfl⟩

/-! ## C63 -/

theorem chooseSides_get {lp : LpView} (acts : List ℚ) (n : Nat) {u : List Bool}
    (h : chooseSides lp n acts = .ok u) : u.length = acts.length ∧
    ∀ (k : Nat) (a : ℚ) (l r : Dbl), acts[k]? = some a → lp.lhs[n + k]? = some l →
      lp.rhs[n + k]? = some r → u[k]? = some (chooseSide lp a l r) := by
  induction acts generalizing n u with
  | nil =>
    simp only [chooseSides, Outcome.ok.injEq] at h
    subst h; simp
  | cons a acts ih =>
    simp only [chooseSides] at h
    obtain ⟨rhs, h1, h⟩ := Outcome.bind_eq_ok.1 h
    obtain ⟨lhs, h2, h⟩ := Outcome.bind_eq_ok.1 h
    obtain ⟨us, h3, h⟩ := Outcome.bind_eq_ok.1 h
    simp only [Outcome.pure_eq, Outcome.ok.injEq] at h
    subst h
    obtain ⟨i1, i2⟩ := ih (n + 1) h3
    refine ⟨by simp [i1], ?_⟩
    intro k b l r hb hl hr
    rcases k with _ | k
    · simp only [List.getElem?_cons_zero, Option.some.injEq] at hb
      subst hb
      have e1 := (listAt_eq_ok.1 h1).2
      have e2 := (listAt_eq_ok.1 h2).2
      simp only [Int.toNat_natCast] at e1 e2
      simp only [Nat.add_zero] at hl hr
      rw [hl] at e2; rw [hr] at e1
      simp only [Option.some.injEq] at e1 e2
      subst e1; subst e2
      rfl
    · rw [List.getElem?_cons_succ] at hb ⊢
      exact i2 k b l r hb (by rw [← hl]; congr 1; omega) (by rw [← hr]; congr 1; omega)

/-- **C63.**  The side used for row `k` (true: the right-hand side).  It is a usable one (not
infinite for the LP solver) if the row has any, and if both are usable it is the one nearer to
the activity of the row. -/
theorem C63_side_choice (lp : LpView) (acts : List ℚ) (u : List Bool)
    (h : chooseSides lp 0 acts = .ok u) (k : Nat) (a : ℚ) (l r : Dbl) (ha : acts[k]? = some a)
    (hl : lp.lhs[k]? = some l) (hr : lp.rhs[k]? = some r) (hle : Dbl.le l r = true)
    (hl' : l ≠ .pinf) (hr' : r ≠ .ninf) (hinf : lp.infinity = .pinf ∨ ∃ M > 0, lp.infinity = .fin M) :
    ∃ b, u[k]? = some b ∧
      (lp.isInfinity l.neg = false → lp.isInfinity r = true → b = false) ∧
      (lp.isInfinity l.neg = true → lp.isInfinity r = false → b = true) ∧
      (lp.isInfinity l.neg = false → lp.isInfinity r = false → ∃ p q, l = .fin p ∧ r = .fin q ∧
        (b = true → |a - q| ≤ |a - p|) ∧ (b = false → |a - p| ≤ |a - q|)) := by
  obtain ⟨-, hget⟩ := chooseSides_get acts 0 h
  refine ⟨_, hget k a l r ha (by simpa using hl) (by simpa using hr), ?_, ?_, ?_⟩
  · intro _ h2; simp [chooseSide, h2]
  · intro h1 h2; simp [chooseSide, h1, h2]
  · intro h1 h2
    have hp : ∃ p, l = .fin p := by
      cases l with
      | nan => simp [Dbl.le] at hle
      | ninf => rcases hinf with hi | ⟨M, -, hi⟩ <;> simp [LpView.isInfinity, hi, Dbl.neg, Dbl.le] at h1
      | fin p => exact ⟨p, rfl⟩
      | pinf => exact absurd rfl hl'
    have hq : ∃ q, r = .fin q := by
      cases r with
      | nan => cases l <;> simp [Dbl.le] at hle
      | ninf => exact absurd rfl hr'
      | fin q => exact ⟨q, rfl⟩
      | pinf => rcases hinf with hi | ⟨M, -, hi⟩ <;> simp [LpView.isInfinity, hi, Dbl.le] at h2
    obtain ⟨p, rfl⟩ := hp
    obtain ⟨q, rfl⟩ := hq
    have hpq : p ≤ q := by simpa [Dbl.le] using hle
    refine ⟨p, q, rfl, rfl, ?_, ?_⟩
    · intro hb
      unfold chooseSide at hb
      rw [h1, h2] at hb
      simp only [Bool.false_eq_true, if_false] at hb
      by_cases he : Dbl.eq (.fin p) (.fin q) = true
      · have : p = q := by simpa [Dbl.eq] using he
        rw [this]
      · rw [if_neg he] at hb
        have hne : p ≠ q := by simpa [Dbl.eq] using he
        have hlt : 0 < q - p := by have := lt_of_le_of_ne hpq hne; linarith
        have hb : 1 / 2 ≤ (a - p) / (q - p) := by simpa using hb
        rw [le_div_iff₀ hlt] at hb
        rw [abs_le]
        have := le_abs_self (a - p)
        constructor <;> linarith
    · intro hb
      unfold chooseSide at hb
      rw [h1, h2] at hb
      simp only [Bool.false_eq_true, if_false] at hb
      by_cases he : Dbl.eq (.fin p) (.fin q) = true
      · rw [if_pos he] at hb; simp at hb
      · rw [if_neg he] at hb
        have hne : p ≠ q := by simpa [Dbl.eq] using he
        have hlt : 0 < q - p := by have := lt_of_le_of_ne hpq hne; linarith
        have hb : (a - p) / (q - p) < 1 / 2 := by simpa using hb
        rw [div_lt_iff₀ hlt] at hb
        rw [abs_le]
        have := neg_abs_le (a - q)
        constructor <;> linarith

/-- A two-sided row `0 ≤ a ≤ 3` with activity 2: the right-hand side is used. -/
example : chooseSides { rows := [⟨[⟨0, 1⟩], false⟩], lhs := [.fin 0], rhs := [.fin 3], lower := [], upper := [] }
    0 [2] = .ok [true] := by
  norm_num [chooseSides, chooseSide, listAt, LpView.isInfinity, Dbl.le, Dbl.neg, Dbl.eq]

/-! ## Cases that meet the hypotheses of C26, C27 and C28 -/

/-- C26: the tableau row of `ex1`. -/
example : RowsClean ex1.lp ∧ Clean (⟨[⟨0, 1 / 2⟩], false⟩ : SparseVector).entries ∧
    aggregateByWeight ex1.lp ⟨[⟨0, 1 / 2⟩], false⟩ [true] = .ok ex1Agg :=
  ⟨ex1_clean, by norm_num [Clean, StrictSorted], ex1_aggregate⟩

/-- C27: the row of `ex3` is shifted by the negative lower bound of `x`. -/
example : ∃ a', toNonNegative ex3.lp ex1Agg = .ok (a', true) ∧ a'.rhs = some (7 / 4) := by
  refine ⟨ex3Agg, ?_, rfl⟩
  norm_num [toNonNegative, shiftRow, shiftEntries, shiftOf, Shift.coef, Shift.toRhs, Shift.isFree,
    LpView.isInfinity, Dbl.le, Dbl.neg, listAt, ex3, ex1, ex1Agg, ex3Agg]

/-- C28: the slack of the row of `ex1` is substituted. -/
example : ∃ a', substituteSlacks ex1.lp ex1Agg = .ok a' ∧ a'.slackCoefs.entries = [] := by
  obtain ⟨⟨v, r⟩, h⟩ := substituteLoop_ok ex1_clean (signs := ex1Agg.slackSigns) (sides := ex1Agg.sideValues)
    ex1Agg.slackCoefs.entries (by simp [ex1Agg, ex1]) ex1Agg.vars
    ⟨by norm_num [ex1Agg, Clean, StrictSorted], rfl⟩ ex1Agg.rhs
  exact ⟨{ vars := v, rhs := r }, by simp only [substituteSlacks, h, Outcome.bind_ok, Outcome.pure_eq], rfl⟩

end MiniMip.Generator
