import Verif.Lemmas.IeeeAggregate

/-!
# C91: how far a cut of MIR rounding computed in doubles is from valid, from the LP to the cut
-/

namespace MiniMip
namespace Ieee

open AVector (StrictSorted Clean lookup Proper)

/-! ## Specification -/

/-- A double of size at most `B`. -/
def Bounded (B : ℚ) (v : Dbl) : Prop := ∃ q, v = .fin q ∧ IsDouble q ∧ |q| ≤ B

/-- The LP relaxation has `n` columns, and all its finite numbers are doubles of size at most `B`.  Every row has a
finite side.  Bounds of integer variables are integral, and so are coefficients and sides of the rows that are taken
for integral, which contain integer variables only. -/
structure Instance (c : GenContext) (n : ℕ) (B : ℚ) : Prop where
  rows : ∀ r ∈ c.lp.rows, r.isClean .ieee = true ∧ ∀ e ∈ r.entries, e.index < n ∧ Bounded B e.value
  lhs : ∀ l ∈ c.lp.lhs, c.lp.isInfinity l.neg = true ∨ Bounded B l
  rhs : ∀ r ∈ c.lp.rhs, c.lp.isInfinity r = true ∨ Bounded B r
  sided : ∀ (i : ℕ) l r, c.lp.lhs[i]? = some l → c.lp.rhs[i]? = some r → c.lp.isInfinity r = true →
    c.lp.isInfinity l.neg = false
  lower : ∀ l ∈ c.lp.lower, c.lp.isInfinity l.neg = true ∨ Dbl.le (.fin 0) l = true ∨ Bounded B l
  upper : ∀ l ∈ c.lp.upper, c.lp.isInfinity l = true ∨ Bounded B l
  integralLower : ∀ (j : ℕ) q, c.isInteger j = true → c.lp.lower[j]? = some (.fin q) → ∃ k : ℤ, q = k
  integralUpper : ∀ (j : ℕ) q, c.isInteger j = true → c.lp.upper[j]? = some (.fin q) → ∃ k : ℤ, q = k
  integralRow : ∀ (i : ℕ) r, c.integralRow[i]? = some true → c.lp.rows[i]? = some r →
    ∀ e ∈ r.entries, c.isInteger e.index = true ∧ ∃ k : ℤ, e.value = .fin k
  integralLhs : ∀ (i : ℕ) q, c.integralRow[i]? = some true → c.lp.lhs[i]? = some (.fin q) → ∃ k : ℤ, q = k
  integralRhs : ∀ (i : ℕ) q, c.integralRow[i]? = some true → c.lp.rhs[i]? = some (.fin q) → ∃ k : ℤ, q = k

/-- The bound on the violation of a cut: `n` columns, at most `m` rows are aggregated, all numbers are at most `B`, and
`f0` is the fraction of the right-hand side of the aggregated row. -/
def violation (n m : ℕ) (B tol f0 : ℚ) : ℚ := (11 * tol + 256 * (n + m) / 2 ^ 53) * (n * m * B ^ 3) / (1 - f0)

/-! ## Feasible points in the transformed space -/

theorem Instance.rowOf {c : GenContext} {n : ℕ} {B : ℚ} (h : Instance c n B) (hB : 0 ≤ B) (i : Int) :
    IsRow n (rowOf c.lp i) ∧ ∀ j, |val (rowOf c.lp i) j| ≤ B := by
  unfold Ieee.rowOf
  cases hr : c.lp.rows[i.toNat]? with
  | none =>
    rw [List.getD_eq_getElem?_getD, hr]
    refine ⟨⟨List.Pairwise.nil, by simp, by simp, by simp⟩, fun j => ?_⟩
    have : val ({} : Vec) j = 0 := rfl
    simpa [this] using hB
  | some r =>
    rw [List.getD_eq_getElem?_getD, hr]
    obtain ⟨h1, h2⟩ := h.rows r (List.mem_of_getElem? hr)
    rw [AVector.isClean_iff] at h1
    have h3 : IsList n B r.entries := ⟨h1.1, fun e he => (h1.2 e he).2, fun e he => (h2 e he).1, fun e he => (h2 e he).2⟩
    exact ⟨h3.isRow r.dirty, h3.val_le hB r.dirty⟩

theorem shiftOf_cases {lp : LpView} {j : Int} {s : Shift} (h : shiftOf lp j = .ok s) :
    ∃ lb ub, 0 ≤ j ∧ lp.lower[j.toNat]? = some lb ∧ lp.upper[j.toNat]? = some ub ∧
      ((s = .keep ∧ Dbl.le (.fin 0) lb = true) ∨
       (s = .lower lb ∧ ¬ Dbl.le (.fin 0) lb = true ∧ lp.isInfinity lb.neg = false) ∨
       (s = .upper ub ∧ lp.isInfinity ub = false) ∨ s = .free) := by
  unfold shiftOf at h
  obtain ⟨lb, h1, h⟩ := Outcome.bind_eq_ok.1 h
  obtain ⟨ub, h2, h⟩ := Outcome.bind_eq_ok.1 h
  simp only [Outcome.pure_eq, Outcome.ok.injEq] at h
  obtain ⟨h0, h1⟩ := listAt_eq_ok.1 h1
  obtain ⟨-, h2⟩ := listAt_eq_ok.1 h2
  refine ⟨lb, ub, h0, h1, h2, ?_⟩
  split_ifs at h with h3 h4 h5
  · exact Or.inl ⟨h.symm, h3⟩
  · exact Or.inr (Or.inl ⟨h.symm, h3, by simpa using h4⟩)
  · exact Or.inr (Or.inr (Or.inl ⟨h.symm, by simpa using h5⟩))
  · exact Or.inr (Or.inr (Or.inr h.symm))

theorem Instance.shifts {c : GenContext} {n : ℕ} {B : ℚ} (h : Instance c n B) : ShiftsOk c.lp B := by
  intro j s hs
  obtain ⟨lb, ub, -, h1, h2, h3⟩ := shiftOf_cases hs
  rcases h3 with ⟨rfl, -⟩ | ⟨rfl, h4, h5⟩ | ⟨rfl, h4⟩ | rfl
  · trivial
  · rcases h.lower lb (List.mem_of_getElem? h1) with h6 | h6 | ⟨q, rfl, -, hq⟩
    · rw [h5] at h6; cases h6
    · exact absurd h6 h4
    · exact ⟨q, rfl, hq⟩
  · rcases h.upper ub (List.mem_of_getElem? h2) with h6 | ⟨q, rfl, -, hq⟩
    · rw [h4] at h6; cases h6
    · exact ⟨q, rfl, hq⟩
  · trivial

/-- The shifted variables are non-negative, integral where they have to be, and bounded. -/
theorem Instance.shifted {c : GenContext} {n : ℕ} {B : ℚ} (h : Instance c n B) {x : Int → ℚ} (hx : Feasible c x)
    (hb : ∀ j, |x j| ≤ B) {j : Int} {s : Shift} (hs : shiftOf c.lp j = .ok s) (hf : s.isFree = false) :
    0 ≤ shifted c.lp x j ∧ shifted c.lp x j ≤ 2 * B ∧ (c.isInteger j = true → ∃ k : ℤ, shifted c.lp x j = k) := by
  have e1 : Ieee.shifted c.lp x j = s.point (x j) := by rw [Ieee.shifted, hs]
  rw [e1]
  have hok := h.shifts j s hs
  obtain ⟨lb, ub, h0, h1, h2, h3⟩ := shiftOf_cases hs
  have hjj : ((j.toNat : ℕ) : Int) = j := by omega
  have hl := hx.lower j.toNat lb h1
  have hu := hx.upper j.toNat ub h2
  rw [hjj] at hl hu
  have hxb := abs_le.1 (hb j)
  rcases h3 with ⟨rfl, h4⟩ | ⟨rfl, h4, h5⟩ | ⟨rfl, h4⟩ | rfl
  · refine ⟨?_, by simp only [Shift.point]; linarith [(abs_nonneg (x j)).trans (hb j)], fun hi => hx.integral j hi⟩
    cases lb with
    | nan => simp [Dbl.le] at h4
    | ninf => simp [Dbl.le] at h4
    | pinf => simp [Dbl.le] at hl
    | fin q => exact ((Dbl.le_fin _ _).1 h4).trans ((Dbl.le_fin _ _).1 hl)
  · obtain ⟨q, rfl, hq⟩ := hok
    have hq' := abs_le.1 hq
    rw [Dbl.le_fin] at hl
    simp only [Shift.point, Generator.finPart]
    refine ⟨by linarith, by linarith, fun hi => ?_⟩
    obtain ⟨k, hk⟩ := hx.integral j hi
    obtain ⟨k', hk'⟩ := h.integralLower j.toNat q (by rw [hjj]; exact hi) h1
    exact ⟨k - k', by rw [hk, hk']; push_cast; ring⟩
  · obtain ⟨q, rfl, hq⟩ := hok
    have hq' := abs_le.1 hq
    rw [Dbl.le_fin] at hu
    simp only [Shift.point, Generator.finPart]
    refine ⟨by linarith, by linarith, fun hi => ?_⟩
    obtain ⟨k, hk⟩ := hx.integral j hi
    obtain ⟨k', hk'⟩ := h.integralUpper j.toNat q (by rw [hjj]; exact hi) h2
    exact ⟨k' - k, by rw [hk, hk']; push_cast; ring⟩
  · simp [Shift.isFree] at hf

theorem eval_integral {l : List (AEntry Dbl)} {x : Int → ℚ}
    (h : ∀ e ∈ l, (∃ k : ℤ, x e.index = k) ∧ ∃ k : ℤ, e.value = .fin k) : ∃ k : ℤ, eval l x = k := by
  induction l with
  | nil => exact ⟨0, by simp [eval]⟩
  | cons e l ih =>
    obtain ⟨k, hk⟩ := ih fun d hd => h d (List.mem_cons_of_mem _ hd)
    obtain ⟨⟨a, ha⟩, b, hb⟩ := h e (List.mem_cons_self ..)
    refine ⟨b * a + k, ?_⟩
    rw [eval_cons, hk, ha, hb]
    simp [Generator.finPart]

theorem eval_le {n : ℕ} {C X : ℚ} {v : Vec} (h : IsRow n v) (hC : ∀ j, |val v j| ≤ C) {x : Int → ℚ} (hx : ∀ j, |x j| ≤ X) :
    |eval v.entries x| ≤ n * (C * X) := by
  rw [h.eval]
  refine (Finset.abs_sum_le_sum_abs _ _).trans ?_
  have : ∀ j ∈ Finset.range n, |val v j * x j| ≤ C * X := fun j _ => by
    rw [abs_mul]; exact mul_le_mul (hC j) (hx j) (abs_nonneg _) ((abs_nonneg _).trans (hC j))
  refine (Finset.sum_le_sum this).trans ?_
  rw [Finset.sum_const, Finset.card_range, nsmul_eq_mul]

/-- The slacks are non-negative, integral where they have to be, and bounded. -/
theorem Instance.slack {c : GenContext} {n : ℕ} {B : ℚ} (h : Instance c n B) (hB : 0 ≤ B) {x : Int → ℚ}
    (hx : Feasible c x) (hb : ∀ j, |x j| ≤ B) {useRhs : List Bool} {i : Int} {r : Vec} {s : ℚ}
    (hr : listAt c.lp.rows i = .ok r)
    (hs : listAt (if useRhs.getD i.toNat true then c.lp.rhs else c.lp.lhs) i = .ok (.fin s)) (hsB : |s| ≤ B) :
    0 ≤ slackOf c.lp useRhs x i ∧ slackOf c.lp useRhs x i ≤ B + n * (B * B) ∧
      (c.integralRow.getD i.toNat false = true → ∃ k : ℤ, slackOf c.lp useRhs x i = k) := by
  have hside : sideOf c.lp useRhs i = .fin s := listAt_getD hs .nan
  have hrow : Ieee.rowOf c.lp i = r := listAt_getD hr {}
  obtain ⟨h1, h2⟩ := h.rowOf hB i
  have h3 := abs_le.1 (eval_le h1 h2 hb)
  have h4 := abs_le.1 hsB
  obtain ⟨-, hr'⟩ := listAt_eq_ok.1 hr
  obtain ⟨-, hs'⟩ := listAt_eq_ok.1 hs
  rw [hrow] at h3
  have hint : c.integralRow.getD i.toNat false = true → (∃ k : ℤ, s = k) ∧ ∃ k : ℤ, eval r.entries x = k := by
    intro hi
    have hi' : c.integralRow[i.toNat]? = some true := by
      rw [List.getD_eq_getElem?_getD] at hi
      cases hc : c.integralRow[i.toNat]? with
      | none => rw [hc] at hi; cases hi
      | some b => rw [hc] at hi; exact congrArg some hi
    constructor
    · split_ifs at hs' with hu
      · exact h.integralRhs _ s hi' hs'
      · exact h.integralLhs _ s hi' hs'
    · refine eval_integral fun e he => ?_
      obtain ⟨h5, h6⟩ := h.integralRow _ r hi' hr' e he
      exact ⟨hx.integral _ h5, h6⟩
  unfold slackOf sgn
  rw [hside, hrow]
  simp only [Generator.finPart]
  split_ifs at hs' ⊢ with hu
  · have := hx.rhs _ r _ hr' hs'
    rw [Dbl.le_fin] at this
    refine ⟨by linarith, by linarith, fun hi => ?_⟩
    obtain ⟨⟨k, hk⟩, k', hk'⟩ := hint hi
    exact ⟨k - k', by rw [hk, hk']; push_cast; ring⟩
  · have := hx.lhs _ r _ hr' hs'
    rw [Dbl.le_fin] at this
    refine ⟨by linarith, by linarith, fun hi => ?_⟩
    obtain ⟨⟨k, hk⟩, k', hk'⟩ := hint hi
    exact ⟨k' - k, by rw [hk, hk']; push_cast; ring⟩

/-! ## The sides that are chosen -/

theorem chooseSides_get {lp : LpView} (acts : List Dbl) : ∀ {k : ℕ} {us : List Bool}, chooseSides lp k acts = .ok us →
    ∀ (i : ℕ) b, us[i]? = some b → ∃ a l r, lp.lhs[k + i]? = some l ∧ lp.rhs[k + i]? = some r ∧
      b = chooseSide lp a l r := by
  induction acts with
  | nil =>
    intro k us h i b hb
    simp only [chooseSides, Outcome.ok.injEq] at h
    subst h
    simp at hb
  | cons a acts ih =>
    intro k us h i b hb
    simp only [chooseSides] at h
    obtain ⟨r, hr, h⟩ := Outcome.bind_eq_ok.1 h
    obtain ⟨l, hl, h⟩ := Outcome.bind_eq_ok.1 h
    obtain ⟨us', hus, h⟩ := Outcome.bind_eq_ok.1 h
    simp only [Outcome.pure_eq, Outcome.ok.injEq] at h
    subst h
    rcases i with _ | i
    · simp only [List.getElem?_cons_zero, Option.some.injEq] at hb
      obtain ⟨-, hr⟩ := listAt_eq_ok.1 hr
      obtain ⟨-, hl⟩ := listAt_eq_ok.1 hl
      exact ⟨a, l, r, by simpa using hl, by simpa using hr, hb.symm⟩
    · simp only [List.getElem?_cons_succ] at hb
      obtain ⟨a', l', r', h1, h2, h3⟩ := ih hus i b hb
      exact ⟨a', l', r', by rw [← h1]; congr 1; omega, by rw [← h2]; congr 1; omega, h3⟩

/-- The chosen side is finite. -/
theorem Instance.chosen {c : GenContext} {n : ℕ} {B : ℚ} (h : Instance c n B) {acts : List Dbl} {useRhs : List Bool}
    (hu : chooseSides c.lp 0 acts = .ok useRhs) {i : Int} {b : Bool} {side : Dbl} (hi : listAt useRhs i = .ok b)
    (hs : listAt (if b then c.lp.rhs else c.lp.lhs) i = .ok side) : Bounded B side := by
  obtain ⟨-, hi⟩ := listAt_eq_ok.1 hi
  obtain ⟨-, hs⟩ := listAt_eq_ok.1 hs
  obtain ⟨a, l, r, h1, h2, h3⟩ := chooseSides_get acts hu i.toNat b hi
  rw [Nat.zero_add] at h1 h2
  cases b with
  | true =>
    rw [if_pos rfl, h2, Option.some.injEq] at hs
    subst hs
    rcases h.rhs r (List.mem_of_getElem? h2) with h4 | h4
    · simp [chooseSide, h4] at h3
    · exact h4
  | false =>
    rw [if_neg (by simp), h1, Option.some.injEq] at hs
    subst hs
    rcases h.lhs l (List.mem_of_getElem? h1) with h4 | h4
    · by_cases h5 : c.lp.isInfinity r = true
      · rw [h.sided _ l r h1 h2 h5] at h4; cases h4
      · simp [chooseSide, h4, h5] at h3
    · exact h4

theorem aggregateLoop_reads {lp : LpView} {useRhs : List Bool} (l : List (AEntry Dbl)) : ∀ {a a' : AggRow},
    aggregateLoop lp useRhs a l = .ok a' → ∀ e ∈ l, ∃ b side r, listAt useRhs e.index = .ok b ∧
      listAt (if b then lp.rhs else lp.lhs) e.index = .ok side ∧ listAt lp.rows e.index = .ok r := by
  induction l with
  | nil => intro a a' _ e he; simp at he
  | cons d l ih =>
    intro a a' h e he
    simp only [aggregateLoop] at h
    obtain ⟨a1, h1, h⟩ := Outcome.bind_eq_ok.1 h
    rcases List.mem_cons.1 he with rfl | he
    · simp only [aggregateStep] at h1
      obtain ⟨b, hb, h1⟩ := Outcome.bind_eq_ok.1 h1
      obtain ⟨side, hs, h1⟩ := Outcome.bind_eq_ok.1 h1
      obtain ⟨r, hr, h1⟩ := Outcome.bind_eq_ok.1 h1
      exact ⟨b, side, r, hb, hs, hr⟩
    · exact ih h e he

/-- Copying a clean vector. -/
theorem rowWeights_clean {v : Vec} (h : Clean .ieee v.entries) : rowWeights v = ⟨v.entries, false⟩ := by
  unfold rowWeights
  suffices ∀ (l done : List (AEntry Dbl)), Clean .ieee (done ++ l) →
      l.foldl (fun w e => AVector.addEntry .ieee w e.index e.value) (⟨done, false⟩ : Vec) = ⟨done ++ l, false⟩ by
    simpa using this v.entries [] (by simpa using h)
  intro l
  induction l with
  | nil => intro done _; simp
  | cons e l ih =>
    intro done hc
    have h1 := hc.2 e (by simp)
    rw [List.foldl_cons, addEntry_append h1.2 (fun d hd =>
      (List.pairwise_append.1 hc.1).2.2 d hd e (List.mem_cons_self ..))]
    have e1 : done ++ e :: l = (done ++ [e]) ++ l := by simp
    rw [e1] at hc ⊢
    have : ([(⟨e.index, e.value⟩ : AEntry Dbl)].filter fun e => !Arith.ieee.isZero e.value) = [e] := by simp [h1.1]
    rw [this]
    exact ih _ hc

/-! ## From the LP to the cut -/

/-- The constants of the analysis: `V` bounds coefficients, `W` bounds right-hand sides. -/
structure Consts (N M B D V W : ℚ) : Prop where
  N1 : 1 ≤ N
  M1 : 1 ≤ M
  B1 : 1 ≤ B
  D1 : 1 ≤ D
  hV : V = M * (B * B) * D
  hW : W = N * B * V
  uN : u * N ≤ 1 / 1000
  uM : u * M ≤ 1 / 1000

namespace Consts
variable {N M B D V W : ℚ} (h : Consts N M B D V W)
include h

theorem bb : 1 ≤ B * B := by nlinarith [h.B1]
theorem bbD : B * B * D ≤ V := by
  have h1 : 1 * (B * B * D) ≤ M * (B * B * D) :=
    mul_le_mul_of_nonneg_right h.M1 (mul_nonneg (by linarith [h.bb]) (by linarith [h.D1]))
  rw [h.hV]
  linarith
theorem one_bbD : 1 ≤ B * B * D := one_le_mul_of_one_le_of_one_le h.bb h.D1
theorem V1 : 1 ≤ V := h.one_bbD.trans h.bbD
theorem VB_W : V * B ≤ W := by
  have h1 : 1 * (V * B) ≤ N * (V * B) :=
    mul_le_mul_of_nonneg_right h.N1 (mul_nonneg (by linarith [h.V1]) (by linarith [h.B1]))
  rw [h.hW]
  linarith
theorem V_VB : V ≤ V * B := by nlinarith [h.V1, h.B1]
theorem V_W : V ≤ W := h.V_VB.trans h.VB_W
theorem W1 : 1 ≤ W := h.V1.trans h.V_W

/-- A rounding error per column costs little. -/
theorem smallN {y : ℚ} (hy : 0 ≤ y) : N * (u * y) ≤ y / 1000 := by
  have := mul_le_mul_of_nonneg_right h.uN hy
  linarith

theorem smallM {y : ℚ} (hy : 0 ≤ y) : M * (u * y) ≤ y / 1000 := by
  have := mul_le_mul_of_nonneg_right h.uM hy
  linarith

end Consts

/-- The sum of `(|a| + 1) x`. -/
theorem size_le {n : ℕ} {C Y : ℚ} {l : List (AEntry Dbl)} (hl : ∀ e ∈ l, |Generator.finPart e.value| ≤ C) (hn : l.length ≤ n)
    (hC : 0 ≤ C) {x : Int → ℚ} (hY : 0 ≤ Y) (hx : ∀ e ∈ l, 0 ≤ x e.index ∧ x e.index ≤ Y) : size l x ≤ n * ((C + 1) * Y) := by
  have h1 : size l x ≤ l.length * ((C + 1) * Y) := by
    clear hn
    induction l with
    | nil => simp [size]
    | cons e l ih =>
      have h2 := ih (fun d hd => hl d (List.mem_cons_of_mem _ hd)) (fun d hd => hx d (List.mem_cons_of_mem _ hd))
      rw [size_cons]
      have h3 := hl e (List.mem_cons_self ..)
      obtain ⟨h4, h5⟩ := hx e (List.mem_cons_self ..)
      have h6 : (|Generator.finPart e.value| + 1) * x e.index ≤ (C + 1) * Y :=
        mul_le_mul (by linarith) h5 h4 (by linarith)
      have h7 : ((e :: l).length : ℚ) = l.length + 1 := by simp
      rw [h7]
      linarith
  refine h1.trans (mul_le_mul_of_nonneg_right (by exact_mod_cast hn) (mul_nonneg (by linarith) hY))

/-- The side values that are stored. -/
theorem sides_value {lp : LpView} {useRhs : List Bool} {l : List (AEntry Dbl)} (hs : StrictSorted l) {e : AEntry Dbl}
    (he : e ∈ l) :
    AVector.value .ieee ⟨(l.map fun e => (⟨e.index, sideOf lp useRhs e.index⟩ : AEntry Dbl)).filter
      fun e => !Arith.ieee.isZero e.value, false⟩ e.index = sideOf lp useRhs e.index := by
  have h1 : StrictSorted (l.map fun e => (⟨e.index, sideOf lp useRhs e.index⟩ : AEntry Dbl)) :=
    AVector.map_strictSorted hs _ fun _ => rfl
  rw [AVector.value_eq_lookup .ieee (v := ⟨_, false⟩) (h1.filter _)]
  simp only
  rw [AVector.lookup_filter h1]
  have h2 := lookup_of_mem h1 (List.mem_map.2 ⟨e, he, rfl⟩)
  simp only at h2
  rw [h2]
  exact AVector.nonzero_getD _

theorem signs_value {useRhs : List Bool} {l : List (AEntry Dbl)} (hs : StrictSorted l) {e : AEntry Dbl} (he : e ∈ l) :
    AVector.value .ieee ⟨l.map fun e => (⟨e.index, .fin (sgn useRhs e.index)⟩ : AEntry Dbl), false⟩ e.index =
      .fin (sgn useRhs e.index) := by
  have h1 : StrictSorted (l.map fun e => (⟨e.index, .fin (sgn useRhs e.index)⟩ : AEntry Dbl)) :=
    AVector.map_strictSorted hs _ fun _ => rfl
  exact value_of_mem (v := ⟨_, false⟩) h1 (List.mem_map.2 ⟨e, he, rfl⟩)

/-- The constants before rounding. -/
structure Scale (n m : ℕ) (B N M V0 W0 : ℚ) : Prop where
  hN : N = n
  hM : M = m
  k0 : Consts N M B 1 V0 W0
  hW0b : W0 ≤ 2 ^ 360

theorem Scale.big {n m : ℕ} {B N M V0 W0 : ℚ} (h : Scale n m B N M V0 W0) : ∀ y, y ≤ 100 * W0 → y ≤ 2 ^ 900 :=
  fun y hy => hy.trans (by
    calc 100 * W0 ≤ 2 ^ 7 * 2 ^ 360 := mul_le_mul (by norm_num) h.hW0b (by linarith [h.k0.W1]) (by norm_num)
      _ = 2 ^ 367 := by rw [← pow_add]
      _ ≤ 2 ^ 900 := pow_le_pow_right₀ (by norm_num) (by norm_num))

theorem scale {n m : ℕ} {B : ℚ} (hB : 1 ≤ B) (hB' : B ≤ 2 ^ 100) (hn1 : 1 ≤ n) (hn : n ≤ 2 ^ 30)
    (hm1 : 1 ≤ m) (hm : m ≤ 2 ^ 30) : ∃ N M V0 W0, Scale n m B N M V0 W0 := by
  have hu0 := u_pos
  have hB0 : 0 ≤ B := by linarith
  obtain ⟨N, hN⟩ : ∃ N : ℚ, N = n := ⟨_, rfl⟩
  obtain ⟨M, hM⟩ : ∃ M : ℚ, M = m := ⟨_, rfl⟩
  have hN1 : 1 ≤ N := by rw [hN]; exact_mod_cast hn1
  have hM1 : 1 ≤ M := by rw [hM]; exact_mod_cast hm1
  have hNb : N ≤ 2 ^ 30 := by rw [hN]; exact_mod_cast hn
  have hMb : M ≤ 2 ^ 30 := by rw [hM]; exact_mod_cast hm
  have huN : u * N ≤ 1 / 1000 := by
    calc u * N ≤ u * 2 ^ 30 := mul_le_mul_of_nonneg_left hNb hu0.le
      _ ≤ _ := by unfold u; norm_num
  have huM : u * M ≤ 1 / 1000 := by
    calc u * M ≤ u * 2 ^ 30 := mul_le_mul_of_nonneg_left hMb hu0.le
      _ ≤ _ := by unfold u; norm_num
  obtain ⟨V0, hV0⟩ : ∃ V0 : ℚ, V0 = M * (B * B) * 1 := ⟨_, rfl⟩
  obtain ⟨W0, hW0⟩ : ∃ W0 : ℚ, W0 = N * B * V0 := ⟨_, rfl⟩
  have k0 : Consts N M B 1 V0 W0 := ⟨hN1, hM1, hB, le_rfl, hV0, hW0, huN, huM⟩
  have hW0b : W0 ≤ 2 ^ 360 := by
    have h1 : B * B ≤ 2 ^ 100 * 2 ^ 100 := mul_le_mul hB' hB' hB0 (by norm_num)
    have h2 : M * (B * B) ≤ 2 ^ 30 * (2 ^ 100 * 2 ^ 100) := mul_le_mul hMb h1 (mul_nonneg hB0 hB0) (by norm_num)
    have h3 : N * B ≤ 2 ^ 30 * 2 ^ 100 := mul_le_mul hNb hB' hB0 (by norm_num)
    rw [hW0, hV0, mul_one]
    calc N * B * (M * (B * B)) ≤ (2 ^ 30 * 2 ^ 100) * (2 ^ 30 * (2 ^ 100 * 2 ^ 100)) :=
          mul_le_mul h3 h2 (mul_nonneg (by linarith) (mul_nonneg hB0 hB0)) (by norm_num)
      _ = 2 ^ 360 := by simp only [← pow_add]
  exact ⟨N, M, V0, W0, hN, hM, k0, hW0b⟩

/-- What is known of the aggregated row in non-negative variables. -/
structure Prepared (c : GenContext) (n m : ℕ) (B : ℚ) (useRhs : List Bool) (v : Vec) (x : Int → ℚ) (N M V0 W0 : ℚ)
    (a' : AggRow) (b : ℚ) : Prop where
  hvc : Clean .ieee v.entries
  hvl : v.entries.length ≤ m
  hreads : ∀ e ∈ v.entries, ∃ s r, listAt c.lp.rows e.index = .ok r ∧
      listAt (if useRhs.getD e.index.toNat true then c.lp.rhs else c.lp.lhs) e.index = .ok (.fin s) ∧
      IsDouble s ∧ |s| ≤ B
  hb : a'.rhs = .fin b
  hbd : IsDouble b
  hbs : |b| ≤ 5 * W0
  hlist' : IsList n (2 * V0) a'.vars.entries
  slacks : a'.slackCoefs =
    ⟨v.entries.map fun e => ⟨e.index, .fin (sgn useRhs e.index * Generator.finPart e.value)⟩, false⟩
  signs : a'.slackSigns = ⟨v.entries.map fun e => ⟨e.index, .fin (sgn useRhs e.index)⟩, false⟩
  sides : a'.sideValues = ⟨(v.entries.map fun e => (⟨e.index, sideOf c.lp useRhs e.index⟩ : AEntry Dbl)).filter
    fun e => !Arith.ieee.isZero e.value, false⟩
  hslist : IsList c.lp.rows.length B a'.slackCoefs.entries
  hrow : eval a'.vars.entries (shifted c.lp x) + eval a'.slackCoefs.entries (slackOf c.lp useRhs x) ≤
    b + (M * (u * (10 * W0)) + N * (u * (11 * W0)))
  hadm : Feasible c x → ∀ e ∈ a'.vars.entries, 0 ≤ shifted c.lp x e.index ∧ shifted c.lp x e.index ≤ 2 * B ∧
      (c.isInteger e.index = true → ∃ k : ℤ, shifted c.lp x e.index = k)
  hadms : Feasible c x → ∀ e ∈ a'.slackCoefs.entries, 0 ≤ slackOf c.lp useRhs x e.index ∧
      slackOf c.lp useRhs x e.index ≤ B + n * (B * B) ∧
      (c.integralRow.getD e.index.toNat false = true → ∃ k : ℤ, slackOf c.lp useRhs x e.index = k)
  hsz1 : Feasible c x → size a'.vars.entries (shifted c.lp x) ≤ 6 * W0
  hsz2 : Feasible c x → size a'.slackCoefs.entries (slackOf c.lp useRhs x) ≤ 4 * W0

set_option maxHeartbeats 4000000 in
/-- Aggregation and the transformation to non-negative variables. -/
theorem prepare {c : GenContext} {n m : ℕ} {B N M V0 W0 : ℚ} (hI : Instance c n B) (hB : 1 ≤ B)
    (hsc : Scale n m B N M V0 W0) {acts : List Dbl} {useRhs : List Bool} (hu : chooseSides c.lp 0 acts = .ok useRhs)
    {v : Vec} (hvc : v.isClean .ieee = true) (hvl : v.entries.length ≤ m) (hvB : ∀ e ∈ v.entries, Bounded B e.value)
    {a a' : AggRow} (hagg : aggregateByWeight c.lp (rowWeights v) useRhs = .ok a)
    (hnn : toNonNegative c.lp a = .ok (a', true)) (x : Int → ℚ) (hxB : ∀ j, |x j| ≤ B) :
    ∃ b, Prepared c n m B useRhs v x N M V0 W0 a' b := by
  have hu0 := u_pos
  have hB0 : 0 ≤ B := by linarith
  rw [AVector.isClean_iff] at hvc
  rw [rowWeights_clean hvc] at hagg
  have big0 := hsc.big
  obtain ⟨hN, hM, k0, hW0b⟩ := hsc
  have hN1 := k0.N1
  have hM1 := k0.M1
  have hV0 := k0.hV
  have hW0 := k0.hW
  have b9 : (2 : ℚ) ^ 900 ≤ 2 ^ 1000 := big_mono (by norm_num)
  -- what the aggregation reads
  have hloop : ∃ a1, aggregateLoop c.lp useRhs {} v.entries = .ok a1 := by
    unfold aggregateByWeight at hagg
    obtain ⟨a1, h1, -⟩ := Outcome.bind_eq_ok.1 hagg
    exact ⟨a1, h1⟩
  obtain ⟨a1, hloop⟩ := hloop
  have hreads : ∀ e ∈ v.entries, ∃ s r, listAt c.lp.rows e.index = .ok r ∧
      listAt (if useRhs.getD e.index.toNat true then c.lp.rhs else c.lp.lhs) e.index = .ok (.fin s) ∧
      IsDouble s ∧ |s| ≤ B := by
    intro e he
    obtain ⟨b, side, r, h1, h2, h3⟩ := aggregateLoop_reads v.entries hloop e he
    obtain ⟨s, rfl, h4, h5⟩ := hI.chosen hu h1 h2
    exact ⟨s, r, h3, by rw [listAt_getD h1 true]; exact h2, h4, h5⟩
  have hwok : ∀ e ∈ v.entries, WeightOk c.lp useRhs n B e := by
    intro e he
    obtain ⟨s, r, h1, h2, h3, h4⟩ := hreads e he
    obtain ⟨w, hw, hwd, hwB⟩ := hvB e he
    refine ⟨(hvc.2 e he).2, ⟨w, hw, hwd, hwB, ?_⟩, ⟨s, listAt_getD h2 .nan, h3, h4⟩, (hI.rowOf hB0 _).1, (hI.rowOf hB0 _).2⟩
    rintro rfl
    have := (hvc.2 e he).1
    rw [hw] at this
    simp [Arith.ieee, Dbl.eq] at this
  -- aggregation
  have hlenM : (v.entries.length : ℚ) ≤ M := by rw [hM]; exact_mod_cast hvl
  obtain ⟨E1, hE1⟩ : ∃ E1, E1 = u * (2 * V0 + 3 * (B * B)) := ⟨_, rfl⟩
  have hBV : B * B ≤ V0 := by have := k0.bbD; linarith
  have hE10 : 0 ≤ E1 := by rw [hE1]; exact mul_nonneg hu0.le (by linarith [k0.V1, k0.bb])
  have hE1b : E1 ≤ u * (5 * V0) := by rw [hE1]; exact mul_le_mul_of_nonneg_left (by linarith) hu0.le
  have hG0 : 0 ≤ B * B + E1 := by linarith [k0.bb]
  have hcapA : M * (B * B + E1) ≤ 2 * V0 := by
    have h1 := mul_le_mul_of_nonneg_left hE1b (show 0 ≤ M by linarith)
    have h2 := k0.smallM (y := 5 * V0) (by linarith [k0.V1])
    have h3 : M * (B * B) = V0 := by rw [hV0, mul_one]
    linarith [k0.V1]
  have hcapA' : (v.entries.length : ℚ) * (B * B + E1) ≤ 2 * V0 := (mul_le_mul_of_nonneg_right hlenM hG0).trans hcapA
  have hinv := aggregate_inv (weights := ⟨v.entries, false⟩) hB hE1 hE10 hxB
    ((big0 _ (by linarith [k0.V_W, k0.W1])).trans b9) hcapA' hwok hvc.1 hagg
  obtain ⟨b0, hb0, hb0d, hb0s, hdisc⟩ := hinv.rhs
  have hdisc' : |eval a.vars.entries x + eval a.slackCoefs.entries (slackOf c.lp useRhs x) - b0| ≤ M * (u * (10 * W0)) := by
    refine hdisc.trans (mul_le_mul hlenM ?_ ?_ (by linarith))
    · have h1 : E1 * B ≤ u * (5 * V0) * B := mul_le_mul_of_nonneg_right hE1b hB0
      have h2 := mul_le_mul_of_nonneg_left h1 (show 0 ≤ N by linarith)
      have h3 : N * (u * (5 * V0) * B) = u * (5 * W0) := by rw [hW0]; ring
      have h4 : u * (5 * V0) ≤ u * (5 * W0) := mul_le_mul_of_nonneg_left (by linarith [k0.V_W]) hu0.le
      rw [← hN]
      linarith
    · have := mul_nonneg (Nat.cast_nonneg n : (0 : ℚ) ≤ n) (mul_nonneg hE10 hB0)
      linarith
  have hlist : IsList n (2 * V0) a.vars.entries := hinv.row.isList fun j => (hinv.size j).trans hcapA'
  -- non-negative variables
  have hR1 : u * (5 * W0 + 3 * (2 * (V0 * B))) ≤ u * (11 * W0) :=
    mul_le_mul_of_nonneg_left (by linarith [k0.VB_W]) hu0.le
  obtain ⟨b, hb, hbd, hbs, hlist', hsl', hsg', hsi', hfree, herr1⟩ := toNonNegative_spec (x := x) (P := 2 * (V0 * B))
    (R := 5 * W0) hI.shifts hB0 hlist hb0 hb0d (by linarith) (by linarith [k0.V_VB, k0.V1]) (by linarith [k0.W1]) (by
      have h1 := mul_le_mul_of_nonneg_left hR1 (show 0 ≤ N by linarith)
      have h2 := k0.smallN (y := 11 * W0) (by linarith [k0.W1])
      have h3 : N * (2 * (V0 * B)) = 2 * W0 := by rw [hW0]; ring
      rw [← hN]
      linarith [k0.V_W, k0.W1]) ((big0 _ (by linarith [k0.VB_W, k0.W1])).trans b9) hnn
  rw [← hN] at herr1
  have herr1' : |eval a'.vars.entries (shifted c.lp x) - b - (eval a.vars.entries x - b0)| ≤ N * (u * (11 * W0)) :=
    herr1.trans (mul_le_mul_of_nonneg_left hR1 (by linarith))
  have hslist : IsList c.lp.rows.length B a'.slackCoefs.entries := by
    rw [hsl', hinv.slacks]
    refine ⟨AVector.map_strictSorted hvc.1 _ fun _ => rfl, ?_, ?_, ?_⟩ <;> intro e he <;>
      obtain ⟨d, hd, rfl⟩ := List.mem_map.1 he
    · exact (hvc.2 d hd).2
    · obtain ⟨s, r, h1, -⟩ := hreads d hd
      obtain ⟨h0, h1⟩ := listAt_eq_ok.1 h1
      have := (List.getElem?_eq_some_iff.1 h1).1
      simp only
      omega
    · obtain ⟨w, hw, hwd, hwB⟩ := hvB d hd
      refine ⟨_, rfl, ?_, ?_⟩
      · rw [hw]
        simp only [Generator.finPart]
        unfold sgn
        split_ifs
        · rw [one_mul]; exact hwd
        · rw [neg_one_mul]; exact hwd.neg
      · rw [hw, abs_mul, abs_sgn, one_mul]; exact hwB
  have hadm : Feasible c x → ∀ e ∈ a'.vars.entries, 0 ≤ shifted c.lp x e.index ∧ shifted c.lp x e.index ≤ 2 * B ∧
      (c.isInteger e.index = true → ∃ k : ℤ, shifted c.lp x e.index = k) := fun hx e he => by
    obtain ⟨s, h1, h2⟩ := hfree e he
    exact hI.shifted hx hxB h1 h2
  have hadms : Feasible c x → ∀ e ∈ a'.slackCoefs.entries, 0 ≤ slackOf c.lp useRhs x e.index ∧
      slackOf c.lp useRhs x e.index ≤ B + n * (B * B) ∧
      (c.integralRow.getD e.index.toNat false = true → ∃ k : ℤ, slackOf c.lp useRhs x e.index = k) := fun hx e he => by
    rw [hsl', hinv.slacks] at he
    obtain ⟨d, hd, rfl⟩ := List.mem_map.1 he
    obtain ⟨s, rr, h1, h2, h3, h4⟩ := hreads d hd
    exact hI.slack hB0 hx hxB h1 h2 h4
  refine ⟨b, hvc, hvl, hreads, hb, hbd, hbs, hlist', hsl'.trans hinv.slacks, hsg'.trans hinv.signs, hsi'.trans hinv.sides,
    hslist, ?_, hadm, hadms, fun hx => ?_, fun hx => ?_⟩
  · rw [hsl']
    have h1 := (abs_le.1 hdisc').2
    have h2 := (abs_le.1 herr1').2
    linarith
  · refine (size_le (C := 2 * V0) (Y := 2 * B) (fun e he => ?_) hlist'.length (by linarith [k0.V1]) (by linarith)
      (fun e he => ⟨(hadm hx e he).1, (hadm hx e he).2.1⟩)).trans ?_
    · obtain ⟨q, h2, -, h3⟩ := hlist'.double e he
      rw [h2]; exact h3
    · rw [← hN]
      have h2 : N * ((2 * V0 + 1) * (2 * B)) ≤ N * ((2 * V0 + V0) * (2 * B)) :=
        mul_le_mul_of_nonneg_left (mul_le_mul_of_nonneg_right (by linarith [k0.V1]) (by linarith)) (by linarith)
      have h3 : N * ((2 * V0 + V0) * (2 * B)) = 6 * W0 := by rw [hW0]; ring
      linarith
  · have hNB : 0 ≤ N * (B * B) := mul_nonneg (by linarith) (by linarith [k0.bb])
    refine (size_le (n := m) (C := B) (Y := B + n * (B * B)) (fun e he => ?_) ?_ hB0 (by rw [← hN]; linarith)
      (fun e he => ⟨(hadms hx e he).1, (hadms hx e he).2.1⟩)).trans ?_
    · obtain ⟨q, h2, -, h3⟩ := hslist.double e he
      rw [h2]; exact h3
    · rw [hsl', hinv.slacks, List.length_map]; exact hvl
    · rw [← hN, ← hM]
      have h2 : B ≤ N * (B * B) :=
        (le_mul_of_one_le_right hB0 hB).trans (le_mul_of_one_le_left (mul_nonneg hB0 hB0) hN1)
      have h3 : (B + 1) * (B + N * (B * B)) ≤ (2 * B) * (2 * (N * (B * B))) :=
        mul_le_mul (by linarith) (by linarith) (by linarith) (by linarith)
      have h4 := mul_le_mul_of_nonneg_left h3 (show 0 ≤ M by linarith)
      have h5 : M * ((2 * B) * (2 * (N * (B * B)))) = 4 * W0 := by rw [hW0, hV0]; ring
      linarith

set_option maxHeartbeats 4000000 in
/-- The transformation back and the substitution of slacks. -/
theorem finish {c : GenContext} {n m : ℕ} {B N M V0 W0 b D : ℚ} (hI : Instance c n B) (hB : 1 ≤ B)
    (hsc : Scale n m B N M V0 W0) {useRhs : List Bool} {v : Vec} {a' : AggRow} {x : Int → ℚ} (hxB : ∀ j, |x j| ≤ B)
    (hp : Prepared c n m B useRhs v x N M V0 W0 a' b) (hD1 : 1 ≤ D) (hDb : D ≤ 2 ^ 53) {r r2 r3 : AggRow} {β0 : ℤ}
    (hrrhs : r.rhs = .fin β0) (hβd : IsDouble β0) (hβabs : |(β0 : ℚ)| ≤ 6 * W0) (hrsg : r.slackSigns = a'.slackSigns)
    (hrsi : r.sideValues = a'.sideValues) (hrl : IsList n (12 * (V0 * D)) r.vars.entries)
    (hrsl : IsList c.lp.rows.length (8 * B * D) r.slackCoefs.entries)
    (hrslm : ∀ e ∈ r.slackCoefs.entries, ∃ d ∈ a'.slackCoefs.entries, e.index = d.index)
    (hrslen : r.slackCoefs.entries.length ≤ a'.slackCoefs.entries.length)
    (horig : toOriginal c.lp r = .ok (r2, true)) (hsub : substituteSlacks c.lp r2 = .ok r3) :
    ∃ β, r3.rhs = .fin β ∧ IsDouble β ∧ IsRow n r3.vars ∧
      eval r3.vars.entries x - β ≤
        eval r.vars.entries (shifted c.lp x) + eval r.slackCoefs.entries (slackOf c.lp useRhs x) - β0 +
          (N * (u * (56 * (W0 * D))) + M * (u * (130 * (W0 * D)))) := by
  have hu0 := u_pos
  have hB0 : 0 ≤ B := by linarith
  obtain ⟨hN, hM, k0, hW0b⟩ := hsc
  have hN1 := k0.N1
  have hM1 := k0.M1
  have hV0 := k0.hV
  have hW0 := k0.hW
  obtain ⟨V, hV⟩ : ∃ V : ℚ, V = M * (B * B) * D := ⟨_, rfl⟩
  obtain ⟨W, hW⟩ : ∃ W : ℚ, W = N * B * V := ⟨_, rfl⟩
  have k : Consts N M B D V W := ⟨hN1, hM1, hB, hD1, hV, hW, k0.uN, k0.uM⟩
  have hVV : V = V0 * D := by rw [hV, hV0]; ring
  have hWW : W = W0 * D := by rw [hW, hW0, hVV]; ring
  have hW0W : W0 ≤ W := by rw [hWW]; exact le_mul_of_one_le_right (by linarith [k0.W1]) hD1
  have big : ∀ y, y ≤ 200 * W → y ≤ 2 ^ 1000 := fun y hy => hy.trans (by
    calc 200 * W ≤ 2 ^ 8 * (2 ^ 360 * 2 ^ 53) := by
          rw [hWW]
          exact mul_le_mul (by norm_num) (mul_le_mul hW0b hDb (by linarith) (by norm_num))
            (mul_nonneg (by linarith [k0.W1]) (by linarith)) (by norm_num)
      _ = 2 ^ 421 := by rw [← pow_add, ← pow_add]
      _ ≤ 2 ^ 1000 := pow_le_pow_right₀ (by norm_num) (by norm_num))
  rw [← hVV] at hrl
  rw [← hWW]
  have hvc := hp.hvc
  have hreads := hp.hreads
  have hrslm : ∀ e ∈ r.slackCoefs.entries, ∃ d ∈ v.entries, e.index = d.index := by
    intro e he
    obtain ⟨d, hd, h1⟩ := hrslm e he
    rw [hp.slacks] at hd
    obtain ⟨d', hd', rfl⟩ := List.mem_map.1 hd
    exact ⟨d', hd', h1⟩
  have hrslen : (r.slackCoefs.entries.length : ℚ) ≤ M := by
    rw [hp.slacks, List.length_map] at hrslen
    rw [hM]
    exact_mod_cast hrslen.trans hp.hvl
  have hβabs : |(β0 : ℚ)| ≤ 6 * W := hβabs.trans (by linarith)
  have hR2 : u * (20 * W + 3 * (12 * (V * B))) ≤ u * (56 * W) :=
    mul_le_mul_of_nonneg_left (by linarith [k.VB_W]) hu0.le
  obtain ⟨β1, hβ1', hβ1d, hβ1s, hl2, hsl2, hsg2, hsi2, -, herr2⟩ := toOriginal_spec (x := x) (P := 12 * (V * B))
    (R := 20 * W) hI.shifts hB0 hrl hrrhs hβd (by linarith) (by linarith [k.V_VB, k.V1]) (by linarith [k.W1]) (by
      have h1 := mul_le_mul_of_nonneg_left hR2 (show 0 ≤ N by linarith)
      have h2 := k.smallN (y := 56 * W) (by linarith [k.W1])
      have h3 : N * (12 * (V * B)) = 12 * W := by rw [hW]; ring
      rw [← hN]
      linarith [k.W1]) (big _ (by linarith [k.VB_W, k.W1])) horig
  rw [← hN] at herr2
  have herr2' : |eval r2.vars.entries x - β1 - (eval r.vars.entries (shifted c.lp x) - β0)| ≤ N * (u * (56 * W)) :=
    herr2.trans (mul_le_mul_of_nonneg_left hR2 (by linarith))
  -- substitution of the slacks
  unfold substituteSlacks at hsub
  obtain ⟨⟨v', rr⟩, hloop', hsub⟩ := Outcome.bind_eq_ok.1 hsub
  simp only [Outcome.pure_eq, Outcome.ok.injEq] at hsub
  rw [hβ1', hsl2, hsg2, hsi2, hrsg, hrsi, hp.signs, hp.sides] at hloop'
  have hP1 : 8 * (B * B * D) ≤ 8 * V := by linarith [k.bbD]
  have hE2 : u * (21 * V + 7 * (8 * (B * B * D))) ≤ u * (77 * V) := mul_le_mul_of_nonneg_left (by linarith) hu0.le
  have hE3 : u * (29 * W + 3 * (8 * (B * B * D))) ≤ u * (53 * W) :=
    mul_le_mul_of_nonneg_left (by linarith [k.V_W]) hu0.le
  have hMP : M * (8 * (B * B * D)) = 8 * V := by rw [hV]; ring
  have hone := k.one_bbD
  have hE20 : 0 ≤ u * (21 * V + 7 * (8 * (B * B * D))) := mul_nonneg hu0.le (by linarith [k.V1])
  have hE30 : 0 ≤ u * (29 * W + 3 * (8 * (B * B * D))) := mul_nonneg hu0.le (by linarith [k.W1])
  obtain ⟨β, hβf, hβfd, hrow, herr3⟩ := substitute_loop (lp := c.lp) (useRhs := useRhs) (n := n) (x := x) (X := B) (B := B)
    (S := 8 * B * D) (P := 8 * (B * B * D)) (F := 21 * V) (R := 29 * W) (by linarith) hxB (le_of_eq (by ring))
    (mul_nonneg (by linarith) (by linarith)) (by linarith [k.V1]) (by linarith [k.W1])
    (big _ (by linarith [k.V_W, k.W1])) (big _ (by linarith [k.V_W, k.W1])) r.slackCoefs.entries (by
      intro e he
      obtain ⟨d, hd, hde⟩ := hrslm e he
      obtain ⟨s, rr, h1, h2, h3, h4⟩ := hreads d hd
      refine ⟨hrsl.double e he, ?_, ⟨s, ?_, ?_, h4⟩, (hI.rowOf hB0 _).1, (hI.rowOf hB0 _).2⟩
      · rw [hde]; exact signs_value hvc.1 hd
      · rw [hde]; exact listAt_getD h2 .nan
      · rw [hde, sides_value hvc.1 hd]; exact listAt_getD h2 .nan) (hl2.isRow r2.vars.dirty) hβ1d
    (by
      intro j
      have h1 := hl2.val_le (by linarith [k.V1]) r2.vars.dirty j
      have h2 := mul_le_mul_of_nonneg_right hrslen
        (show 0 ≤ 8 * (B * B * D) + u * (21 * V + 7 * (8 * (B * B * D))) by linarith)
      have h3 := mul_le_mul_of_nonneg_left hE2 (show 0 ≤ M by linarith)
      have h4 := k.smallM (y := 77 * V) (by linarith [k.V1])
      have h5 : |val ⟨r2.vars.entries, r2.vars.dirty⟩ j| ≤ 12 * V := h1
      linarith [k.V1])
    (by
      have h2 := mul_le_mul_of_nonneg_right hrslen
        (show 0 ≤ 8 * (B * B * D) + u * (29 * W + 3 * (8 * (B * B * D))) by linarith)
      have h3 := mul_le_mul_of_nonneg_left hE3 (show 0 ≤ M by linarith)
      have h4 := k.smallM (y := 53 * W) (by linarith [k.W1])
      linarith [k.V_W, k.W1])
    hloop'
  have herr3' : |eval v'.entries x - β - (eval r2.vars.entries x + eval r.slackCoefs.entries (slackOf c.lp useRhs x) - β1)| ≤
      M * (u * (130 * W)) := by
    refine herr3.trans (mul_le_mul hrslen ?_ ?_ (by linarith))
    · have h1 := mul_le_mul_of_nonneg_right hE2 hB0
      have h2 := mul_le_mul_of_nonneg_left h1 (show 0 ≤ N by linarith)
      have h3 : N * (u * (77 * V) * B) = u * (77 * W) := by rw [hW]; ring
      rw [← hN]
      linarith
    · have := mul_nonneg (Nat.cast_nonneg n : (0 : ℚ) ≤ n) (mul_nonneg hE20 hB0)
      linarith
  subst hsub
  refine ⟨β, hβf, hβfd, hrow, ?_⟩
  have h2 := (abs_le.1 herr2').2
  have h3 := (abs_le.1 herr3').2
  simp only
  linarith

/-- The stages of `roundOne`. -/
theorem roundOne_stages {c : GenContext} {a : AggRow} {rounder : Generator.Rounder} {row : Vec} {rhs : Dbl}
    (h : roundOne c a rounder = .ok (some (row, rhs))) : ∃ r r2 r3, roundBy c rounder a = .ok (some r) ∧
      toOriginal c.lp r = .ok (r2, true) ∧ substituteSlacks c.lp r2 = .ok r3 ∧ r3.vars = row ∧ r3.rhs = rhs := by
  unfold roundOne at h
  obtain ⟨rounded, hr, h⟩ := Outcome.bind_eq_ok.1 h
  cases rounded with
  | none => simp at h
  | some r =>
    simp only at h
    obtain ⟨⟨r2, ok⟩, h2, h⟩ := Outcome.bind_eq_ok.1 h
    simp only at h
    cases ok with
    | false => simp at h
    | true =>
      simp only [Bool.not_true, Bool.false_eq_true, if_false] at h
      obtain ⟨r3, h3, h⟩ := Outcome.bind_eq_ok.1 h
      simp only [Outcome.pure_eq, Outcome.ok.injEq, Option.some.injEq, Prod.mk.injEq] at h
      exact ⟨r, r2, r3, hr, h2, h3, h.1, h.2⟩

set_option maxHeartbeats 4000000 in
theorem mir_pipeline {c : GenContext} {n m : ℕ} {B tol : ℚ} (hI : Instance c n B) (ht : c.tol = .fin tol)
    (ht0 : 1 / 2 ^ 54 ≤ tol) (ht1 : tol ≤ 1) (hB : 1 ≤ B) (hB' : B ≤ 2 ^ 100) (hn1 : 1 ≤ n) (hn : n ≤ 2 ^ 30)
    (hm1 : 1 ≤ m) (hm : m ≤ 2 ^ 30) {acts : List Dbl} {useRhs : List Bool} (hu : chooseSides c.lp 0 acts = .ok useRhs)
    {v : Vec} (hvc : v.isClean .ieee = true) (hvl : v.entries.length ≤ m) (hvB : ∀ e ∈ v.entries, Bounded B e.value)
    {a a' : AggRow} (hagg : aggregateByWeight c.lp (rowWeights v) useRhs = .ok a)
    (hnn : toNonNegative c.lp a = .ok (a', true)) {row : Vec} {rhs : Dbl}
    (hro : roundOne c a' .mir = .ok (some (row, rhs))) (x : Int → ℚ) (hxB : ∀ j, |x j| ≤ B) :
    ∃ b β, a'.rhs = .fin b ∧ IsDouble b ∧ rhs = .fin β ∧ IsDouble β ∧ IsRow n row ∧
      (Feasible c x → eval row.entries x ≤ β + violation n m B tol (fraction tol b)) := by
  have hu0 := u_pos
  have ht0' : 0 ≤ tol := le_trans (by norm_num) ht0
  have hB0 : 0 ≤ B := by linarith
  obtain ⟨N, M, V0, W0, hsc⟩ := scale hB hB' hn1 hn hm1 hm
  obtain ⟨b, hp⟩ := prepare hI hB hsc hu hvc hvl hvB hagg hnn x hxB
  have big0 := hsc.big
  have hbd := hp.hbd
  have hb := hp.hb
  have hlist' := hp.hlist'
  have hslist := hp.hslist
  have hN := hsc.hN
  have hM := hsc.hM
  have k0 := hsc.k0
  have hN1 := k0.N1
  have hM1 := k0.M1
  have hV0 := k0.hV
  have hW0 := k0.hW
  obtain ⟨hrep, hf0, hf1⟩ := fraction_bounds hbd.1 (Or.inr (Or.inr ht0) : 0 ≤ b ∨ b ≤ -1 / 2 ∨ 1 / 2 ^ 54 ≤ tol)
  obtain ⟨β0, hβ, hβd, hβ1, hβ2, hβ3⟩ := floor_bounds ht0' hbd
  obtain ⟨f0, hf⟩ : ∃ f0, f0 = fraction tol b := ⟨_, rfl⟩
  rw [← hf] at hrep hf0 hf1 hβ3
  have hy : 0 < 1 - f0 := by linarith
  have hmodv : Moderate a'.vars.entries := fun e he => by
    obtain ⟨q, h1, h2, h3⟩ := hlist'.double e he
    exact ⟨q, h1, h2, h3.trans (big0 _ (by linarith [k0.V_W, k0.W1]))⟩
  have hBW : B ≤ W0 := (le_mul_of_one_le_left hB0 k0.V1).trans k0.VB_W
  have hmods : Moderate a'.slackCoefs.entries := fun e he => by
    obtain ⟨q, h1, h2, h3⟩ := hslist.double e he
    exact ⟨q, h1, h2, h3.trans (big0 _ (by linarith))⟩
  obtain ⟨r, r2, r3, hmir, horig, hsub, rfl, rfl⟩ := roundOne_stages hro
  obtain ⟨hrrhs, hrsg, hrsi, hrv, hrs, -, hvalid⟩ := mir_core c tol ht ht0' a' r b f0 β0 hb
    (by rw [hf]; exact fractionality_eq hbd) hrep hf0 hf1 hβ hmodv hmods hmir
  obtain ⟨D, hD⟩ : ∃ D, D = 1 / (1 - f0) := ⟨_, rfl⟩
  have hD1 : 1 ≤ D := by rw [hD, le_div_iff₀ hy]; linarith
  have hDb : D ≤ 2 ^ 53 := by
    have h1 := hrep.one_sub hf0 hf1
    rw [hD, div_le_iff₀ hy]
    have : u * 2 ^ 53 = 1 := by unfold u; norm_num
    linarith
  have hrl : IsList n (12 * (V0 * D)) r.vars.entries := by
    rw [hrv]
    refine (hlist'.mir ht0' hrep hf0 hf1 (big0 _ (by linarith [k0.V_W, k0.W1])) ?_ c.isInteger).filter _
    have e1 : 4 * (2 * V0 + 1) / (1 - f0) = 4 * (2 * V0 + 1) * D := by rw [hD]; ring
    rw [e1]
    have h1 : D ≤ V0 * D := le_mul_of_one_le_left (by linarith) k0.V1
    linarith
  have hrsl : IsList c.lp.rows.length (8 * B * D) r.slackCoefs.entries := by
    rw [hrs]
    refine (hslist.mir ht0' hrep hf0 hf1 (big0 _ (by linarith)) ?_
      (fun i => c.integralRow.getD i.toNat false)).filter _
    have e1 : 4 * (B + 1) / (1 - f0) = 4 * (B + 1) * D := by rw [hD]; ring
    rw [e1]
    have h1 : D ≤ B * D := le_mul_of_one_le_left (by linarith) hB
    linarith
  obtain ⟨β, hβf, hβfd, hrow, herr⟩ := finish hI hB hsc hxB hp hD1 hDb hrrhs hβd (by
      have h1 := abs_le.1 hp.hbs
      rw [abs_le]
      constructor <;> linarith [k0.W1]) hrsg hrsi hrl hrsl (fun e he => by
        rw [hrs] at he
        obtain ⟨d, hd, rfl⟩ := List.mem_map.1 (List.mem_filter.1 he).1
        exact ⟨d, hd, rfl⟩) (by
        rw [hrs]
        exact (List.length_filter_le _ _).trans (by simp)) horig hsub
  refine ⟨b, β, hb, hbd, hβf, hβfd, hrow, fun hx => ?_⟩
  have hadm := hp.hadm hx
  have hadms := hp.hadms hx
  have hsz1 := hp.hsz1 hx
  have hsz2 := hp.hsz2 hx
  have hrow1 : eval a'.vars.entries (shifted c.lp x) + eval a'.slackCoefs.entries (slackOf c.lp useRhs x) ≤
      β0 + f0 + (M * (u * (10 * W0)) + N * (u * (11 * W0)) + (tol + 1 / 2 ^ 53)) := by
    have := hp.hrow
    linarith
  have hε : 0 ≤ M * (u * (10 * W0)) + N * (u * (11 * W0)) + (tol + 1 / 2 ^ 53) := by
    have h1 : 0 ≤ M * (u * (10 * W0)) := mul_nonneg (by linarith) (mul_nonneg hu0.le (by linarith [k0.W1]))
    have h2 : 0 ≤ N * (u * (11 * W0)) := mul_nonneg (by linarith) (mul_nonneg hu0.le (by linarith [k0.W1]))
    have h3 : (0 : ℚ) ≤ 1 / 2 ^ 53 := by norm_num
    linarith
  have h1 := hvalid (shifted c.lp x) (slackOf c.lp useRhs x) (fun e he => ⟨(hadm e he).1, (hadm e he).2.2⟩)
    (fun e he => ⟨(hadms e he).1, (hadms e he).2.2⟩) _ hε hrow1
  have hfin : (M * (u * (10 * W0)) + N * (u * (11 * W0)) + (tol + 1 / 2 ^ 53) +
      (tol + 1 / 2 ^ 49) * (size a'.vars.entries (shifted c.lp x) + size a'.slackCoefs.entries (slackOf c.lp useRhs x))) /
      (1 - f0) + N * (u * (56 * (W0 * D))) + M * (u * (130 * (W0 * D))) ≤ violation n m B tol f0 := by
    have e1 : violation n m B tol f0 = (11 * tol + 256 * (N + M) * u) * W0 * D := by
      rw [violation, hD, hW0, hV0, ← hN, ← hM]
      unfold u
      ring
    have e2 : ∀ y : ℚ, y / (1 - f0) = y * D := fun y => by rw [hD]; ring
    have e3 : (1 : ℚ) / 2 ^ 53 = u := rfl
    have e4 : (1 : ℚ) / 2 ^ 49 = 16 * u := by unfold u; norm_num
    rw [e1, e2, e3, e4]
    have h4 : (tol + 16 * u) * (size a'.vars.entries (shifted c.lp x) + size a'.slackCoefs.entries (slackOf c.lp useRhs x)) ≤
        (tol + 16 * u) * (10 * W0) := mul_le_mul_of_nonneg_left (by linarith) (by linarith)
    have h5 : tol ≤ tol * W0 := le_mul_of_one_le_right ht0' k0.W1
    have h6 : u ≤ u * W0 := le_mul_of_one_le_right hu0.le k0.W1
    have huW : 0 ≤ u * W0 := mul_nonneg hu0.le (by linarith [k0.W1])
    have h7 : u * W0 ≤ N * (u * W0) := le_mul_of_one_le_left huW hN1
    have h8 : u * W0 ≤ M * (u * W0) := le_mul_of_one_le_left huW hM1
    have h9 : M * (u * (10 * W0)) + N * (u * (11 * W0)) + (tol + u) + (tol + 16 * u) *
        (size a'.vars.entries (shifted c.lp x) + size a'.slackCoefs.entries (slackOf c.lp useRhs x)) ≤
        (11 * tol + 126 * (N + M) * u) * W0 := by
      linarith
    have h10 := mul_le_mul_of_nonneg_right h9 (show 0 ≤ D by linarith)
    have h11 : 0 ≤ N * (u * W0) * D := mul_nonneg (mul_nonneg (by linarith) huW) (by linarith)
    linarith
  rw [← hf]
  linarith

/-! ## The generator -/

theorem roundAll_mem {c : GenContext} {opt : Vec} {a : AggRow} (rs : List Generator.Rounder) :
    ∀ {total : ℕ} {cuts : List Cut}, roundAll c opt a total rs = .ok cuts → ∀ cut ∈ cuts, ∃ rounder ∈ rs, ∃ t : ℕ,
      roundOne c a rounder = .ok (some (cut.row, cut.rhs)) ∧ cut.name = rounder.name ++ toString t := by
  induction rs with
  | nil =>
    intro total cuts h cut hc
    simp only [roundAll, Outcome.ok.injEq] at h
    subst h
    simp at hc
  | cons rounder rs ih =>
    intro total cuts h cut hc
    simp only [roundAll] at h
    obtain ⟨res, hres, h⟩ := Outcome.bind_eq_ok.1 h
    cases res with
    | none =>
      obtain ⟨r, hr, h2⟩ := ih h cut hc
      exact ⟨r, List.mem_cons_of_mem _ hr, h2⟩
    | some res =>
      obtain ⟨row, rhs⟩ := res
      simp only at h
      split_ifs at h with hrem
      · obtain ⟨cuts', h', h⟩ := Outcome.bind_eq_ok.1 h
        simp only [Outcome.pure_eq, Outcome.ok.injEq] at h
        subst h
        rcases List.mem_cons.1 hc with rfl | hc
        · exact ⟨rounder, List.mem_cons_self .., total, hres, rfl⟩
        · obtain ⟨r, hr, h2⟩ := ih h' cut hc
          exact ⟨r, List.mem_cons_of_mem _ hr, h2⟩
      · obtain ⟨r, hr, h2⟩ := ih h cut hc
        exact ⟨r, List.mem_cons_of_mem _ hr, h2⟩

theorem tableauRow_mem {c : GenContext} {s : SolverView} {rs : List Generator.Rounder} {useRhs : List Bool} {opt : Vec}
    {k : ℕ} {cuts : List Cut} (h : tableauRow c s rs useRhs opt k = .ok cuts) : ∀ cut ∈ cuts, ∃ v a a', s.bInverted k = .ok v ∧
      aggregateByWeight c.lp (rowWeights v) useRhs = .ok a ∧ toNonNegative c.lp a = .ok (a', true) ∧
      ∃ rounder ∈ rs, ∃ t : ℕ, roundOne c a' rounder = .ok (some (cut.row, cut.rhs)) ∧
        cut.name = rounder.name ++ toString t := by
  intro cut hc
  unfold tableauRow at h
  obtain ⟨basic, -, h⟩ := Outcome.bind_eq_ok.1 h
  have nil : (Outcome.ok ([] : List Cut)) = .ok cuts → False := by
    intro h
    simp only [Outcome.ok.injEq] at h
    subst h
    simp at hc
  cases basic with
  | none => exact absurd h nil
  | some col =>
    simp only at h
    split_ifs at h
    · exact absurd h nil
    · exact absurd h nil
    · obtain ⟨v, hv, h⟩ := Outcome.bind_eq_ok.1 h
      obtain ⟨a, ha, h⟩ := Outcome.bind_eq_ok.1 h
      obtain ⟨⟨a', ok⟩, ha', h⟩ := Outcome.bind_eq_ok.1 h
      cases ok with
      | false => exact absurd h nil
      | true => exact ⟨v, a, a', hv, ha, ha', roundAll_mem rs (by simpa using h) cut hc⟩

theorem tableauLoop_mem {c : GenContext} {s : SolverView} {rs : List Generator.Rounder} {limit : Int} {useRhs : List Bool}
    {opt : Vec} (n : ℕ) : ∀ {k : ℕ} {done cuts : List Cut}, tableauLoop c s rs limit useRhs opt n k done = .ok cuts →
    ∀ cut ∈ cuts, cut ∈ done ∨ ∃ k new, tableauRow c s rs useRhs opt k = .ok new ∧ cut ∈ new := by
  induction n with
  | zero =>
    intro k done cuts h cut hc
    simp only [tableauLoop, Outcome.ok.injEq] at h
    subst h
    exact Or.inl hc
  | succ n ih =>
    intro k done cuts h cut hc
    simp only [tableauLoop] at h
    split_ifs at h
    · obtain ⟨new, hnew, h⟩ := Outcome.bind_eq_ok.1 h
      rcases ih h cut hc with h1 | h1
      · rcases List.mem_append.1 h1 with h1 | h1
        · exact Or.inl h1
        · exact Or.inr ⟨k, new, hnew, h1⟩
      · exact Or.inr h1
    · simp only [Outcome.ok.injEq] at h
      subst h
      exact Or.inl hc

/-- **C91, from the LP to the cut.**  All cuts that the generator makes in doubles with MIR rounding are valid up to an
explicit error: no feasible point whose variables are at most `B` violates them by more than
`(11 tol + 256 (n + m) 2^-53) n m B^3 / (1 - f0)`.  Here the LP has `n` columns and numbers of size at most `B`; the
rows of the inverse of the basis matrix are whatever the LP solver says, as long as they are clean and have at most `m`
entries, of size at most `B` (their accuracy does not matter, as any combination of rows is valid); `f0` is the fraction
of the right-hand side `b` of the aggregated row in non-negative variables.  The integrality tolerance is at least
`2^-54` (the default is `10^-6`).  The bound includes the errors of aggregation, of the transformation to non-negative
variables, of rounding, of the transformation back, and of the substitution of slacks; the cuts have finite doubles for
columns below `n` only.  Missing: cuts of strong Chvátal-Gomory rounding, which may be off by a constant
(`C91_strong_cg_violated`). -/
theorem C91_generator_partial (c : GenContext) (s : SolverView) (n m : ℕ) (B tol : ℚ) (hI : Instance c n B)
    (ht : c.tol = .fin tol) (ht0 : 1 / 2 ^ 54 ≤ tol) (ht1 : tol ≤ 1) (hB : 1 ≤ B) (hB' : B ≤ 2 ^ 100) (hn1 : 1 ≤ n)
    (hn : n ≤ 2 ^ 30) (hm1 : 1 ≤ m) (hm : m ≤ 2 ^ 30)
    (hinv : ∀ k v, s.bInverted k = .ok v → v.isClean .ieee = true ∧ v.entries.length ≤ m ∧
      ∀ e ∈ v.entries, Bounded B e.value)
    (rs : List Generator.Rounder) (limit : Int) (cuts : List Cut) (h : generateCuttingPlanes c s rs limit = .ok cuts) :
    ∀ cut ∈ cuts, (∃ t : ℕ, cut.name = Generator.Rounder.strongCG.name ++ toString t) ∨
      ∃ (b β : ℚ), (∃ k v acts useRhs a a', s.bInverted k = .ok v ∧ s.activities = .ok acts ∧
          chooseSides c.lp 0 acts = .ok useRhs ∧ aggregateByWeight c.lp (rowWeights v) useRhs = .ok a ∧
          toNonNegative c.lp a = .ok (a', true) ∧ roundOne c a' .mir = .ok (some (cut.row, cut.rhs)) ∧ a'.rhs = .fin b) ∧
        cut.rhs = .fin β ∧ IsDouble β ∧
        (∀ e ∈ cut.row.entries, 0 ≤ e.index ∧ e.index < n ∧ ∃ q, e.value = .fin q ∧ IsDouble q) ∧
        0 ≤ fraction tol b ∧ fraction tol b < 1 ∧
        ∀ x, Feasible c x → (∀ j, |x j| ≤ B) → eval cut.row.entries x ≤ β + violation n m B tol (fraction tol b) := by
  intro cut hc
  unfold generateCuttingPlanes at h
  split at h
  · cases h
  split at h
  · cases h
  obtain ⟨acts, hacts, h⟩ := Outcome.bind_eq_ok.1 h
  obtain ⟨useRhs, hu, h⟩ := Outcome.bind_eq_ok.1 h
  obtain ⟨primal, -, h⟩ := Outcome.bind_eq_ok.1 h
  simp only at h
  split at h
  · cases h
  rcases tableauLoop_mem _ h cut hc with h1 | ⟨k, new, hnew, h1⟩
  · simp at h1
  obtain ⟨v, a, a', hv, ha, ha', rounder, -, t, hr, hname⟩ := tableauRow_mem hnew cut h1
  cases rounder with
  | strongCG => exact Or.inl ⟨t, hname⟩
  | mir =>
    right
    obtain ⟨h2, h3, h4⟩ := hinv k v hv
    have key := mir_pipeline hI ht ht0 ht1 hB hB' hn1 hn hm1 hm hu h2 h3 h4 ha ha' hr
    obtain ⟨b, β, hb, hbd, hβ, hβd, hrow, -⟩ := key (fun _ => 0) (fun _ => by rw [abs_zero]; linarith)
    obtain ⟨-, hf0, hf1⟩ := fraction_bounds hbd.1 (Or.inr (Or.inr ht0) : 0 ≤ b ∨ b ≤ -1 / 2 ∨ 1 / 2 ^ 54 ≤ tol)
    refine ⟨b, β, ⟨k, v, acts, useRhs, a, a', hv, hacts, hu, ha, ha', hr, hb⟩, hβ, hβd,
      fun e he => ⟨hrow.nonneg e he, hrow.cols e he, hrow.double e he⟩, hf0, hf1, fun x hx hxB => ?_⟩
    obtain ⟨b', β', hb', -, hβ', -, -, hle⟩ := key x hxB
    rw [hb, Dbl.fin.injEq] at hb'
    rw [hβ, Dbl.fin.injEq] at hβ'
    subst hb' hβ'
    exact hle hx

/-- The hypotheses are met by the LP of `C91_mir_violated`, on which a cut is generated. -/
example : ∃ (tol : ℚ) (cut : Cut), Instance third 1 9 ∧ third.tol = .fin tol ∧ 1 / 2 ^ 54 ≤ tol ∧ tol ≤ 1 ∧
    (∀ k v, thirdView.bInverted k = .ok v → v.isClean .ieee = true ∧ v.entries.length ≤ 1 ∧
      ∀ e ∈ v.entries, Bounded 9 e.value) ∧
    generateCuttingPlanes third thirdView [.mir] 100 = .ok [cut] ∧ cut.name = "MIR0" ∧ Feasible third (fun _ => 1) := by
  have hd : ∀ k : ℤ, |k| ≤ 9 → Bounded 9 (.fin k) := fun k hk =>
    ⟨k, rfl, (dyadic (m := k) (n := 0) (lt_of_le_of_lt hk (by norm_num)) (by norm_num) (by simp)).1, by exact_mod_cast hk⟩
  refine ⟨4722366482869645 / 2 ^ 72, ⟨⟨[⟨0, .fin (4503599627370495 / 2 ^ 52)⟩], false⟩,
    .fin (9007199254740989 / 2 ^ 53), "MIR0"⟩, ?_, by decide +kernel, by norm_num, by norm_num, ?_, ?_, rfl, third_feasible⟩
  · refine ⟨?_, ?_, ?_, ?_, ?_, ?_, ?_, ?_, ?_, ?_, ?_⟩
    · intro r hr
      simp only [third, List.mem_singleton] at hr
      subst hr
      refine ⟨by decide +kernel, fun e he => ?_⟩
      simp only [List.mem_singleton] at he
      subst he
      exact ⟨by norm_num, by exact_mod_cast hd 3 (by norm_num)⟩
    · intro l hl
      simp only [third, List.mem_singleton] at hl
      subst hl
      exact Or.inl rfl
    · intro l hl
      simp only [third, List.mem_singleton] at hl
      subst hl
      exact Or.inr (by exact_mod_cast hd 4 (by norm_num))
    · intro i l r _ hr hinf
      rcases i with _ | i <;> simp [third] at hr
      subst hr
      simp [LpView.isInfinity, third, Dbl.le] at hinf
    · intro l hl
      simp only [third, List.mem_singleton] at hl
      subst hl
      exact Or.inr (Or.inl (by simp [Dbl.le]))
    · intro l hl
      simp only [third, List.mem_singleton] at hl
      subst hl
      exact Or.inr (by exact_mod_cast hd 9 (by norm_num))
    · intro j q _ h
      rcases j with _ | j <;> simp [third] at h
      exact ⟨0, by simp [← h]⟩
    · intro j q _ h
      rcases j with _ | j <;> simp [third] at h
      exact ⟨9, by simp [← h]⟩
    · intro i r _ h e he
      rcases i with _ | i <;> simp [third] at h
      subst h
      simp only [List.mem_singleton] at he
      subst he
      exact ⟨by decide +kernel, 3, by simp⟩
    · intro i q _ h
      rcases i with _ | i <;> simp [third] at h
    · intro i q _ h
      rcases i with _ | i <;> simp [third] at h
      exact ⟨4, by simp [← h]⟩
  · intro k v h
    have hv : v = ⟨[⟨0, round (1 / 3)⟩], false⟩ := by
      have : (Outcome.ok (⟨[⟨0, round (1 / 3)⟩], false⟩ : Vec)) = .ok v := h
      simp only [Outcome.ok.injEq] at this
      exact this.symm
    subst hv
    refine ⟨by decide +kernel, by simp, fun e he => ?_⟩
    simp only [List.mem_singleton] at he
    subst he
    refine ⟨6004799503160661 / 2 ^ 54, by decide +kernel,
      (dyadic (m := 6004799503160661) (n := 54) (by norm_num) (by norm_num) (by norm_num)).1, by norm_num [abs_le]⟩
  · rw [third_generate _ _ (by norm_num)]
    simp only [roundAll, third_mir, Outcome.bind_ok, third_dot _ _ (show Dbl.lt (.fin (9007199254740989 / 2 ^ 53))
      (add (.fin 0) (mul (.fin (4503599627370495 / 2 ^ 52)) (round (4 / 3)))) = true by decide +kernel), if_true,
      Outcome.pure_eq]
    decide +kernel

end Ieee
end MiniMip
