import Verif.Props.GeneratorNonneg

/-!
# When the integrality tolerance is exact

If the weights of the rows have a common denominator smaller than the inverse of the tolerance and the data of
the LP are integral, no number is within the tolerance of an integer without being one.
-/

namespace MiniMip.Generator
open SparseVector (Clean)

/-- A number within the tolerance of an integer is that integer. -/
def Exact (tol v : ℚ) : Prop := |v - roundAway v| ≤ tol → v = roundAway v

/-- All numbers of the row are like that. -/
structure ExactTolerance (tol : ℚ) (a : AggRow) : Prop where
  vars : ∀ e ∈ a.vars.entries, Exact tol e.value
  slacks : ∀ e ∈ a.slackCoefs.entries, Exact tol e.value
  rhs : ∀ b, a.rhs = some b → Exact tol b

theorem ExactTolerance.harmless {tol : ℚ} {a : AggRow} (h : ExactTolerance tol a) : HarmlessTolerance tol a where
  vars e he hn := (h.vars e he hn).ge
  slacks e he hn := (h.slacks e he hn).ge
  rhs b hb hn := (h.rhs b hb hn).le

theorem exact_zero (v : ℚ) : Exact 0 v := by
  intro h
  have := abs_nonpos_iff.1 h
  linarith

theorem exact_of_tol_zero (a : AggRow) : ExactTolerance 0 a :=
  ⟨fun _ _ => exact_zero _, fun _ _ => exact_zero _, fun _ _ => exact_zero _⟩

theorem Exact.floor {tol v : ℚ} (h : Exact tol v) : floorWithTolerance tol v = ⌊v⌋ := by
  unfold floorWithTolerance
  by_cases hn : isIntegerWithinTolerance tol v = true
  · have h1 := h ((near_iff _ _).1 hn)
    rw [if_pos hn, round_eq_floor h1.ge]
  · rw [if_neg hn]

theorem Exact.fractionality {tol v : ℚ} (h : Exact tol v) : fractionality tol v = v - ⌊v⌋ := by
  unfold Generator.fractionality
  by_cases hn : isIntegerWithinTolerance tol v = true
  · have h1 := h ((near_iff _ _).1 hn)
    have h2 := round_eq_floor h1.ge
    rw [if_pos hn, ← h2, ← h1, sub_self]
  · rw [if_neg hn]

/-- `v` is an integer divided by `N`. -/
def Coarse (N : ℕ) (v : ℚ) : Prop := ∃ z : ℤ, (N : ℚ) * v = z

theorem Coarse.exact {N : ℕ} {tol v : ℚ} (h : Coarse N v) (hN : 0 < N) (ht : N * tol < 1) : Exact tol v := by
  intro hn
  obtain ⟨z, hz⟩ := h
  have hN' : (0 : ℚ) < N := by exact_mod_cast hN
  have h1 : |((z - N * roundAway v : ℤ) : ℚ)| < 1 := by
    push_cast
    rw [← hz, ← mul_sub, abs_mul, abs_of_pos hN']
    exact lt_of_le_of_lt (mul_le_mul_of_nonneg_left hn hN'.le) ht
  have h2 : z - N * roundAway v = 0 := by
    rw [← Int.abs_lt_one_iff]
    exact_mod_cast h1
  have h3 : (N : ℚ) * v = N * roundAway v := by
    rw [hz, show z = N * roundAway v by linarith]
    push_cast; ring
  exact mul_left_cancel₀ hN'.ne' h3

theorem Coarse.neg {N : ℕ} {v : ℚ} (h : Coarse N v) : Coarse N (-v) := by
  obtain ⟨z, hz⟩ := h
  exact ⟨-z, by push_cast; rw [← hz]; ring⟩

theorem Coarse.mul {N : ℕ} {v : ℚ} (h : Coarse N v) (k : ℤ) : Coarse N (v * k) := by
  obtain ⟨z, hz⟩ := h
  exact ⟨z * k, by push_cast; rw [← hz]; ring⟩

theorem Coarse.add {N : ℕ} {v w : ℚ} (h : Coarse N v) (h' : Coarse N w) : Coarse N (v + w) := by
  obtain ⟨z, hz⟩ := h
  obtain ⟨y, hy⟩ := h'
  exact ⟨z + y, by push_cast; rw [← hz, ← hy]; ring⟩

theorem coarse_sum {N : ℕ} : ∀ {l : List ℚ}, (∀ v ∈ l, Coarse N v) → Coarse N l.sum
  | [], _ => ⟨0, by simp⟩
  | v :: l, h => by
    rw [List.sum_cons]
    exact (h v (by simp)).add (coarse_sum fun w hw => h w (by simp [hw]))

theorem value_integral {v : SparseVector} (hv : Clean v.entries) (h : ∀ e ∈ v.entries, ∃ k : ℤ, e.value = k)
    (j : Int) : ∃ k : ℤ, v.value j = k := by
  by_cases hj : ∃ e ∈ v.entries, e.index = j
  · obtain ⟨e, he, rfl⟩ := hj
    obtain ⟨k, hk⟩ := h e he
    exact ⟨k, (value_of_mem hv he).trans hk⟩
  · push Not at hj
    refine ⟨0, ?_⟩
    rw [SparseVector.value, SparseVector.valueAt_eq_sumAt hv.1]
    simpa using SparseVector.sumAt_eq_zero hj

/-- The LP has integral data where the rows with weights are concerned. -/
structure IntegralLp (lp : LpView) : Prop where
  rows : ∀ row ∈ lp.rows, ∀ e ∈ row.entries, ∃ k : ℤ, e.value = k
  lhs : ∀ (i : Nat) q, lp.lhs[i]? = some (.fin q) → ∃ k : ℤ, q = k
  rhs : ∀ (i : Nat) q, lp.rhs[i]? = some (.fin q) → ∃ k : ℤ, q = k
  shifts : ∀ j q, (shiftAt lp j = .lower q ∨ shiftAt lp j = .upper q) → ∃ k : ℤ, q = k

/-- The row in non-negative variables has the denominator of the weights. -/
theorem coarse_row {lp : LpView} (hr : RowsClean lp) (hI : IntegralLp lp) {N : ℕ} {w : SparseVector}
    (hw : Clean w.entries) (hN : ∀ e ∈ w.entries, Coarse N e.value) {u : List Bool} {a a' : AggRow} {ok : Bool}
    (ha : aggregateByWeight lp w u = .ok a) (ht : toNonNegative lp a = .ok (a', ok)) :
    (∀ e ∈ a'.vars.entries, Coarse N e.value) ∧ (∀ e ∈ a'.slackCoefs.entries, Coarse N e.value) ∧
      ∀ b, a'.rhs = some b → Coarse N b := by
  have hag := aggregate_spec hr hw ha
  have hin := aggregate_inRange' ha
  obtain ⟨-, hent, e1, -, -, -, l, hl⟩ := shiftRow_vars hag.vars ht
  have hvars : ∀ e ∈ a.vars.entries, Coarse N e.value := by
    intro e he
    rw [← value_of_mem hag.vars.1 he]
    show Coarse N (a.vars.value e.index)
    rw [hag.value]
    refine coarse_sum fun v hv => ?_
    obtain ⟨f, hf, rfl⟩ := List.mem_map.1 hv
    obtain ⟨k, hk⟩ := value_integral (hr.rowAt f.index).1
      (hI.rows _ (List.mem_of_getElem? (hin f hf).2.1)) e.index
    rw [hk]
    exact (hN f hf).mul k
  refine ⟨?_, ?_, ?_⟩
  · intro e he
    rw [hent] at he
    obtain ⟨d, hd, rfl⟩ := List.mem_map.1 he
    simp only
    cases shiftAt lp d.index <;> simp only [Shift.coef]
    · exact hvars d hd
    · exact hvars d hd
    · exact (hvars d hd).neg
    · exact hvars d hd
    · exact hvars d hd
  · intro e he
    rw [e1, hag.coefs] at he
    obtain ⟨d, hd, rfl⟩ := List.mem_map.1 he
    simp only
    rcases signAt_cases u d.index with h | h <;> rw [h]
    · rw [one_mul]; exact hN d hd
    · rw [neg_one_mul]; exact (hN d hd).neg
  · intro b' hb'
    have hnone : ∀ c s, Shift.toRhs c s none = none := by
      intro c s; cases s <;> rfl
    rcases hb : a.rhs with _ | b
    · rw [hb, hb'] at hl
      have := shiftEntries_none hnone _ hl
      cases this
    rw [hb, hb'] at hl
    obtain ⟨j1, -⟩ := shiftEntries_rhs hnone
      (delta := fun c s => match s with
        | .lower lb => -(c * lb)
        | .upper ub => -(c * ub)
        | _ => 0) (by
        intro c s r r' hr
        cases s <;> simp only [Shift.toRhs, Option.map_some, Option.some.injEq, reduceCtorEq] at hr <;>
          simp only <;> linarith) (by intro c r; rfl) _ hl
    have hb2 := hag.rhs
    rw [hb] at hb2
    obtain ⟨hfin, hsum⟩ := addSides_some.1 hb2.symm
    rw [j1]
    refine Coarse.add ?_ (coarse_sum fun v hv => ?_)
    · rw [hsum, zero_add]
      refine coarse_sum fun v hv => ?_
      obtain ⟨f, hf, rfl⟩ := List.mem_map.1 hv
      obtain ⟨q, hq⟩ := hfin f hf
      obtain ⟨-, -, hside⟩ := hin f hf
      rw [hq] at hside ⊢
      have : ∃ k : ℤ, q = k := by
        split at hside
        · exact hI.rhs _ _ hside
        · exact hI.lhs _ _ hside
      obtain ⟨k, rfl⟩ := this
      exact (hN f hf).mul k
    · obtain ⟨e, he, rfl⟩ := List.mem_map.1 hv
      rcases hs : shiftAt lp e.index with _ | q | q | _ | _
      · exact ⟨0, by simp⟩
      · obtain ⟨k, rfl⟩ := hI.shifts _ _ (Or.inl hs)
        exact ((hvars e he).mul k).neg
      · obtain ⟨k, rfl⟩ := hI.shifts _ _ (Or.inr hs)
        exact ((hvars e he).mul k).neg
      · exact ⟨0, by simp⟩
      · exact ⟨0, by simp⟩

/-- With weights of a small common denominator the tolerance is exact. -/
theorem exact_row {lp : LpView} (hr : RowsClean lp) (hI : IntegralLp lp) {N : ℕ} (hN0 : 0 < N) {tol : ℚ}
    (ht : N * tol < 1) {w : SparseVector} (hw : Clean w.entries) (hN : ∀ e ∈ w.entries, Coarse N e.value)
    {u : List Bool} {a a' : AggRow} {ok : Bool} (ha : aggregateByWeight lp w u = .ok a)
    (hs : toNonNegative lp a = .ok (a', ok)) : ExactTolerance tol a' := by
  obtain ⟨h1, h2, h3⟩ := coarse_row hr hI hw hN ha hs
  exact ⟨fun e he => (h1 e he).exact hN0 ht, fun e he => (h2 e he).exact hN0 ht,
    fun b hb => (h3 b hb).exact hN0 ht⟩

end MiniMip.Generator
