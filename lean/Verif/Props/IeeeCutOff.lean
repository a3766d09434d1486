import Verif.Props.IeeeCuts
import Verif.Props.IeeeBranching

/-!
# C95: what the generator returns in doubles, whatever the sizes of the numbers

Rows of cuts are clean, cuts come from basic integer variables with fractional values, they are violated by the LP
optimum up to the rounding errors of one dot product, and there are not too many of them.
-/

namespace MiniMip
namespace Ieee

open AVector (StrictSorted Clean lookup isClean_iff matched toRat)

/-! ## Specification -/

/-- The point with the given coordinates, and zero elsewhere. -/
def point (values : List ℚ) (j : Int) : ℚ := if 0 ≤ j then values.getD j.toNat 0 else 0

/-! ## The sparse copy of the LP optimum -/

theorem ofDenseFrom_index (l : List Dbl) : ∀ (k : Int), ∀ e ∈ ofDenseFrom k l, k ≤ e.index := by
  induction l with
  | nil => intro k e he; simp [ofDenseFrom] at he
  | cons x r ih =>
    intro k e he
    simp only [ofDenseFrom] at he
    split at he
    · rcases List.mem_cons.1 he with rfl | he
      · exact le_rfl
      · have := ih _ e he; omega
    · have := ih _ e he; omega

theorem ofDenseFrom_sorted (l : List Dbl) : ∀ (k : Int), StrictSorted (ofDenseFrom k l) := by
  induction l with
  | nil => intro k; simp [ofDenseFrom, StrictSorted]
  | cons x r ih =>
    intro k
    simp only [ofDenseFrom]
    split
    · refine List.pairwise_cons.2 ⟨fun e he => ?_, ih _⟩
      have := ofDenseFrom_index r (k + 1) e he
      show k < e.index
      omega
    · exact ih _

theorem ofDenseFrom_lookup (l : List ℚ) : ∀ (k j : Int), k ≤ j →
    (lookup (ofDenseFrom k (l.map .fin)) j).getD (.fin 0) = .fin (l.getD (j - k).toNat 0) := by
  induction l with
  | nil => intro k j _; simp [ofDenseFrom, lookup]
  | cons x r ih =>
    intro k j hkj
    simp only [List.map_cons, ofDenseFrom]
    rcases hkj.eq_or_lt with rfl | hlt
    · have hnone : lookup (ofDenseFrom (k + 1) (r.map .fin)) k = none :=
        AVector.lookup_none fun e he => by have := ofDenseFrom_index _ _ e he; omega
      rw [sub_self]
      split
      · rw [AVector.lookup_cons, if_pos rfl]; rfl
      · rename_i h
        have h0 : x = 0 := by simpa [Dbl.ne, Dbl.eq] using h
        rw [hnone, h0]; rfl
    · have h1 := ih (k + 1) j (by omega)
      have h2 : (j - k).toNat = (j - (k + 1)).toNat + 1 := by omega
      rw [h2, List.getD_cons_succ]
      split
      · rw [AVector.lookup_cons, if_neg (by show ¬ k = j; omega)]
        exact h1
      · exact h1

theorem ofDense_value (l : List ℚ) (j : Int) : (ofDense (l.map .fin)).value .ieee j = .fin (point l j) := by
  have h := AVector.value_eq_lookup .ieee (v := ofDense (l.map .fin)) (ofDenseFrom_sorted _ 0) j
  rw [h]
  unfold point
  split
  · rename_i hj
    have := ofDenseFrom_lookup l 0 j hj
    rw [sub_zero] at this
    exact this
  · rename_i hj
    have : lookup (ofDense (l.map .fin)).entries j = none :=
      AVector.lookup_none fun e he => by have := ofDenseFrom_index _ _ e he; omega
    rw [this]; rfl

theorem point_le {values : List ℚ} {X : ℚ} (hX : 0 ≤ X) (h : ∀ v ∈ values, |v| ≤ X) (j : Int) : |point values j| ≤ X := by
  unfold point
  split
  · rw [List.getD]
    cases hv : values[j.toNat]? with
    | none => simpa using hX
    | some v => exact h v (List.mem_of_getElem? hv)
  · simpa using hX

/-! ## The dot product -/

theorem dot_acc {P R : ℚ} (h1 : 1 ≤ P) (hbig : R + 2 * P ≤ 2 ^ 1000) (hR0 : 0 ≤ R) (l : List (Dbl × Dbl))
    (hl : ∀ ab ∈ l, ∃ a b, ab = (.fin a, .fin b) ∧ |a * b| ≤ P) : ∀ (p : ℚ), |p| + l.length * (P + u * (R + 3 * P)) ≤ R →
    ∃ z, l.foldl (fun p ab => add p (mul ab.1 ab.2)) (.fin p) = .fin z ∧
      |z - (p + (l.map fun ab => toRat ab.1 * toRat ab.2).sum)| ≤ l.length * (u * (R + 3 * P)) := by
  have hE : 0 ≤ u * (R + 3 * P) := mul_nonneg u_pos.le (by linarith)
  induction l with
  | nil => intro p _; exact ⟨p, rfl, by simp⟩
  | cons ab r ih =>
    intro p hp
    obtain ⟨a, b, rfl, hab⟩ := hl ab (List.mem_cons_self ..)
    have hlen : (((Dbl.fin a, Dbl.fin b) :: r).length : ℚ) = r.length + 1 := by simp
    rw [hlen] at hp ⊢
    have hr0 : 0 ≤ (r.length : ℚ) * (P + u * (R + 3 * P)) := mul_nonneg (Nat.cast_nonneg _) (by linarith)
    obtain ⟨y, hy1, -, hy3⟩ := acc_add (r := p) (R := R) (by linarith) hab h1 hbig
    rw [List.foldl_cons, hy1]
    have hyp : |y| ≤ |p| + (P + u * (R + 3 * P)) := by
      have h4 := neg_abs_le p
      have h5 := le_abs_self p
      rw [abs_le] at hy3 hab ⊢
      constructor <;> linarith [hy3.1, hy3.2, hab.1, hab.2]
    obtain ⟨z, hz1, hz2⟩ := ih (fun ab h => hl ab (List.mem_cons_of_mem _ h)) y (by linarith)
    refine ⟨z, hz1, ?_⟩
    rw [List.map_cons, List.sum_cons]
    have e : toRat (Dbl.fin a) * toRat (Dbl.fin b) = a * b := rfl
    rw [e]
    rw [abs_le] at hz2 hy3 ⊢
    constructor <;> linarith [hz2.1, hz2.2, hy3.1, hy3.2]

theorem matched_eval {w : Vec} (hw : StrictSorted w.entries) {x : Int → ℚ} (hx : ∀ j, w.value .ieee j = .fin (x j))
    (l : List (AEntry Dbl)) :
    ((matched l w.entries).map fun ab => toRat ab.1 * toRat ab.2).sum = eval l x := by
  induction l with
  | nil => rfl
  | cons e r ih =>
    rw [eval_cons, ← ih]
    have h1 := AVector.value_eq_lookup .ieee hw e.index
    rw [hx] at h1
    have hfp : toRat e.value = Generator.finPart e.value := by cases e.value <;> rfl
    unfold matched
    rw [List.filterMap_cons]
    cases hl : lookup w.entries e.index with
    | none =>
      rw [hl] at h1
      have h2 : x e.index = 0 := by simpa [Arith.ieee] using h1
      simp [h2]
    | some y =>
      rw [hl] at h1
      have h2 : y = .fin (x e.index) := by simpa using h1.symm
      have h3 : toRat y = x e.index := by rw [h2]; rfl
      simp only [Option.map_some, List.map_cons, List.sum_cons]
      rw [hfp, h3]

theorem dot_bound {row w : Vec} (hrow : StrictSorted row.entries) (hw : StrictSorted w.entries) {x : Int → ℚ}
    (hx : ∀ j, w.value .ieee j = .fin (x j)) {C X : ℚ} (hC : 1 ≤ C) (hX : 1 ≤ X) (hxX : ∀ j, |x j| ≤ X)
    (hfin : ∀ e ∈ row.entries, ∃ q, e.value = .fin q ∧ |q| ≤ C) (hlen : row.entries.length ≤ 2 ^ 30)
    (hbig : C * X ≤ 2 ^ 900) :
    ∃ z, row.dotProduct .ieee w = .fin z ∧
      |z - eval row.entries x| ≤ 8 * (row.entries.length : ℚ) ^ 2 / 2 ^ 53 * (C * X) := by
  have hu := u_pos
  obtain ⟨P, hP⟩ : ∃ P, P = C * X := ⟨_, rfl⟩
  obtain ⟨N, hN⟩ : ∃ N : ℚ, N = row.entries.length := ⟨_, rfl⟩
  have hP1 : 1 ≤ P := by rw [hP]; exact one_le_mul_of_one_le_of_one_le hC hX
  have hN0 : 0 ≤ N := by rw [hN]; exact Nat.cast_nonneg _
  have hNb : N ≤ 2 ^ 30 := by rw [hN]; exact_mod_cast hlen
  have hml : ((matched row.entries w.entries).length : ℚ) ≤ N := by
    rw [hN]; exact_mod_cast List.length_filterMap_le _ _
  have hNP : N * P ≤ 2 ^ 30 * P := mul_le_mul_of_nonneg_right hNb (by linarith)
  have hNP0 : 0 ≤ N * P := mul_nonneg hN0 (by linarith)
  have huN : u * N ≤ 1 / 1000 := by
    calc u * N ≤ u * 2 ^ 30 := mul_le_mul_of_nonneg_left hNb hu.le
      _ ≤ _ := by unfold u; norm_num
  have hu1 : u ≤ 1 / 1000 := by unfold u; norm_num
  have hE : N * (u * (2 * N * P + 3 * P)) ≤ N * P / 100 := by
    have h1 : N * (u * (2 * N * P + 3 * P)) = 2 * (u * N) * (N * P) + 3 * u * (N * P) := by ring
    have h2 : (u * N) * (N * P) ≤ 1 / 1000 * (N * P) := mul_le_mul_of_nonneg_right huN hNP0
    have h3 : u * (N * P) ≤ 1 / 1000 * (N * P) := mul_le_mul_of_nonneg_right hu1 hNP0
    rw [h1]
    linarith
  have hmatch : ∀ ab ∈ matched row.entries w.entries, ∃ a b, ab = (.fin a, .fin b) ∧ |a * b| ≤ P := by
    intro ab hab
    obtain ⟨e, he, hab⟩ := List.mem_filterMap.1 hab
    obtain ⟨y, hy, rfl⟩ := Option.map_eq_some_iff.1 hab
    obtain ⟨q, hq, hqC⟩ := hfin e he
    have h1 := AVector.value_eq_lookup .ieee hw e.index
    rw [hx, hy] at h1
    have h2 : y = .fin (x e.index) := by simpa using h1.symm
    refine ⟨q, x e.index, by rw [hq, h2], ?_⟩
    rw [abs_mul, hP]
    exact mul_le_mul hqC (hxX _) (abs_nonneg _) (by linarith)
  obtain ⟨z, hz1, hz2⟩ := dot_acc (P := P) (R := 2 * N * P) hP1 (by
      have h2 : P ≤ 2 ^ 900 := by rw [hP]; exact hbig
      calc 2 * N * P + 2 * P ≤ 2 ^ 32 * P := by linarith
        _ ≤ 2 ^ 32 * 2 ^ 900 := mul_le_mul_of_nonneg_left h2 (by norm_num)
        _ = 2 ^ 932 := by rw [← pow_add]
        _ ≤ 2 ^ 1000 := pow_le_pow_right₀ (by norm_num) (by norm_num)) (by linarith) (matched row.entries w.entries) hmatch 0 (by
      have h2 : 0 ≤ u * (2 * N * P + 3 * P) := mul_nonneg hu.le (by linarith)
      have h3 := mul_le_mul_of_nonneg_right hml (show 0 ≤ P + u * (2 * N * P + 3 * P) by linarith)
      rw [abs_zero]
      linarith)
  refine ⟨z, ?_, ?_⟩
  · rw [AVector.dotProduct, AVector.dotWalk_eq _ _ _ _ hrow hw]
    exact hz1
  · rw [matched_eval hw hx, _root_.zero_add] at hz2
    refine hz2.trans ?_
    have h2 : 0 ≤ u * (2 * N * P + 3 * P) := mul_nonneg hu.le (by linarith)
    have h3 := mul_le_mul_of_nonneg_right hml h2
    refine h3.trans ?_
    rw [← hP, ← hN]
    have e1 : 8 * N ^ 2 / 2 ^ 53 * P = 8 * u * (N * (N * P)) := by unfold u; ring
    have e2 : N * (u * (2 * N * P + 3 * P)) = 2 * u * (N * (N * P)) + 3 * u * (N * P) := by ring
    rw [e1, e2]
    have h5 : N * P ≤ N * (N * P) := by
      rw [hN]
      rcases Nat.eq_zero_or_pos row.entries.length with h | h
      · rw [h]; simp
      · exact le_mul_of_one_le_left (mul_nonneg (Nat.cast_nonneg _) (by linarith)) (by exact_mod_cast h)
    have h6 := mul_le_mul_of_nonneg_left h5 hu.le
    have h7 : 0 ≤ u * (N * (N * P)) := mul_nonneg hu.le (mul_nonneg hN0 hNP0)
    linarith

/-! ## Rows of cuts are clean -/

theorem clean_map {l : List (AEntry Dbl)} (h : Clean .ieee l) (g : AEntry Dbl → Dbl) :
    Clean .ieee ((l.map fun e => (⟨e.index, g e⟩ : AEntry Dbl)).filter fun e => !Arith.ieee.isZero e.value) := by
  refine ⟨(AVector.map_strictSorted h.1 (fun e => ⟨e.index, g e⟩) fun _ => rfl).filter _, fun e he => ?_⟩
  obtain ⟨h1, h2⟩ := List.mem_filter.1 he
  obtain ⟨d, hd, rfl⟩ := List.mem_map.1 h1
  exact ⟨by simpa using h2, (h.2 d hd).2⟩

theorem listAt_member {α : Type} {l : List α} {i : Int} {a : α} (h : listAt l i = .ok a) : a ∈ l := by
  unfold listAt at h
  split_ifs at h
  cases hx : l[i.toNat]? with
  | none => rw [hx] at h; cases h
  | some v =>
    rw [hx] at h
    simp only [Outcome.ok.injEq] at h
    rw [← h]
    exact List.mem_of_getElem? hx

theorem shiftEntries_map {lp : LpView} {change : Dbl → Shift → Dbl → Dbl} (l : List (AEntry Dbl)) :
    ∀ {r r' : Dbl} {l' : List (AEntry Dbl)} {ok : Bool}, shiftEntries lp change l r = .ok (l', r', ok) →
    l' = l.map fun e => ⟨e.index, match shiftOf lp e.index with | .ok s => s.coef e.value | _ => e.value⟩ := by
  induction l with
  | nil =>
    intro r r' l' ok h
    simp only [shiftEntries, Outcome.ok.injEq, Prod.mk.injEq] at h
    rw [← h.1]; rfl
  | cons e l ih =>
    intro r r' l' ok h
    simp only [shiftEntries] at h
    obtain ⟨s, hs, h⟩ := Outcome.bind_eq_ok.1 h
    obtain ⟨⟨l2, r2, ok2⟩, h2, h⟩ := Outcome.bind_eq_ok.1 h
    simp only [Outcome.pure_eq, Outcome.ok.injEq, Prod.mk.injEq] at h
    rw [← h.1, List.map_cons, ih h2, hs]

theorem shiftRow_clean {lp : LpView} {change : Dbl → Shift → Dbl → Dbl} {a a' : AggRow} {ok : Bool}
    (h : shiftRow lp change a = .ok (a', ok)) (ha : Clean .ieee a.vars.entries) : Clean .ieee a'.vars.entries := by
  unfold shiftRow at h
  obtain ⟨⟨l, r', ok'⟩, h2, h⟩ := Outcome.bind_eq_ok.1 h
  simp only [Outcome.pure_eq, Outcome.ok.injEq, Prod.mk.injEq] at h
  rw [← h.1]
  rw [shiftEntries_map _ h2]
  exact clean_map ha _

theorem aggregateLoop_clean {lp : LpView} (hrows : ∀ r ∈ lp.rows, r.isClean .ieee = true) {useRhs : List Bool}
    (l : List (AEntry Dbl)) : ∀ {a a' : AggRow}, aggregateLoop lp useRhs a l = .ok a' → Clean .ieee a.vars.entries →
    Clean .ieee a'.vars.entries := by
  induction l with
  | nil =>
    intro a a' h ha
    simp only [aggregateLoop, Outcome.ok.injEq] at h
    rwa [← h]
  | cons e l ih =>
    intro a a' h ha
    simp only [aggregateLoop] at h
    obtain ⟨a1, h1, h⟩ := Outcome.bind_eq_ok.1 h
    refine ih h ?_
    unfold aggregateStep at h1
    obtain ⟨u, -, h1⟩ := Outcome.bind_eq_ok.1 h1
    obtain ⟨side, -, h1⟩ := Outcome.bind_eq_ok.1 h1
    obtain ⟨row, hr, h1⟩ := Outcome.bind_eq_ok.1 h1
    obtain ⟨vars, hv, h1⟩ := Outcome.bind_eq_ok.1 h1
    simp only [Outcome.pure_eq, Outcome.ok.injEq] at h1
    obtain ⟨m, hm, hc, -⟩ := AVector.addMultiple_spec (A := .ieee) rfl e.value ha
      ((isClean_iff _ _).1 (hrows row (listAt_member hr)))
    rw [hm, Outcome.ok.injEq] at hv
    rw [← h1, ← hv]
    exact hc

theorem substituteLoop_clean {lp : LpView} (hrows : ∀ r ∈ lp.rows, r.isClean .ieee = true) {signs sides : Vec}
    (l : List (AEntry Dbl)) : ∀ {v v' : Vec} {r r' : Dbl}, substituteLoop lp signs sides l v r = .ok (v', r') →
    Clean .ieee v.entries → Clean .ieee v'.entries := by
  induction l with
  | nil =>
    intro v v' r r' h hv
    simp only [substituteLoop, Outcome.ok.injEq, Prod.mk.injEq] at h
    rwa [← h.1]
  | cons e l ih =>
    intro v v' r r' h hv
    simp only [substituteLoop] at h
    obtain ⟨row, hr, h⟩ := Outcome.bind_eq_ok.1 h
    obtain ⟨v1, hv1, h⟩ := Outcome.bind_eq_ok.1 h
    refine ih h ?_
    have hrow := (isClean_iff _ _).1 (hrows row (listAt_member hr))
    have hsc : StrictSorted (row.scale .ieee (mul (signs.value .ieee e.index) e.value)).entries ∧
        ∀ d ∈ (row.scale .ieee (mul (signs.value .ieee e.index) e.value)).entries, 0 ≤ d.index := by
      unfold AVector.scale
      split
      · exact ⟨List.Pairwise.nil, by simp⟩
      · refine ⟨AVector.map_strictSorted hrow.1 _ fun _ => rfl, fun d hd => ?_⟩
        obtain ⟨d', hd', rfl⟩ := List.mem_map.1 hd
        exact (hrow.2 d' hd').2
    obtain ⟨m, hm, hc, -⟩ := AVector.addMultiple_sorted (A := .ieee) rfl (.fin (-1)) hv.1 (fun e he => (hv.2 e he).2)
      hsc.1 hsc.2
    rw [hm, Outcome.ok.injEq] at hv1
    rw [← hv1]
    exact hc

theorem roundBy_clean {c : GenContext} {rounder : Generator.Rounder} {a r : AggRow}
    (h : roundBy c rounder a = .ok (some r)) (ha : Clean .ieee a.vars.entries) : Clean .ieee r.vars.entries := by
  cases rounder with
  | mir =>
    simp only [roundBy, mirRound] at h
    obtain ⟨sl, -, h⟩ := Outcome.bind_eq_ok.1 h
    simp only [Outcome.pure_eq, Outcome.ok.injEq, Option.some.injEq] at h
    rw [← h]
    exact clean_map ha _
  | strongCG =>
    simp only [roundBy, strongCGRound] at h
    obtain ⟨ok, -, h⟩ := Outcome.bind_eq_ok.1 h
    split_ifs at h
    · simp at h
    · simp at h
    · obtain ⟨sl, -, h⟩ := Outcome.bind_eq_ok.1 h
      simp only [Outcome.pure_eq, Outcome.ok.injEq, Option.some.injEq] at h
      rw [← h]
      exact clean_map ha _

theorem roundOne_clean {c : GenContext} (hrows : ∀ r ∈ c.lp.rows, r.isClean .ieee = true) {useRhs : List Bool}
    {w : Vec} {a a' : AggRow} (ha : aggregateByWeight c.lp w useRhs = .ok a) {ok : Bool}
    (ha' : toNonNegative c.lp a = .ok (a', ok)) {rounder : Generator.Rounder} {row : Vec} {rhs : Dbl}
    (h : roundOne c a' rounder = .ok (some (row, rhs))) : Clean .ieee row.entries := by
  unfold aggregateByWeight at ha
  obtain ⟨a0, h0, ha⟩ := Outcome.bind_eq_ok.1 ha
  simp only [Outcome.pure_eq, Outcome.ok.injEq] at ha
  have c0 : Clean .ieee a.vars.entries := by
    have h1 := aggregateLoop_clean hrows _ h0 (⟨List.Pairwise.nil, by simp⟩ : Clean .ieee ([] : List (AEntry Dbl)))
    rw [← ha]
    exact h1
  obtain ⟨r, r2, r3, h1, h2, h3, rfl, -⟩ := roundOne_stages h
  have c2 := shiftRow_clean h2 (roundBy_clean h1 (shiftRow_clean ha' c0))
  unfold substituteSlacks at h3
  obtain ⟨⟨v, rr⟩, h4, h3⟩ := Outcome.bind_eq_ok.1 h3
  simp only [Outcome.pure_eq, Outcome.ok.injEq] at h3
  rw [← h3]
  exact substituteLoop_clean hrows _ h4 c2

/-! ## The generator -/

theorem roundAll_removes {c : GenContext} {opt : Vec} {a : AggRow} (rs : List Generator.Rounder) :
    ∀ {total : ℕ} {cuts : List Cut}, roundAll c opt a total rs = .ok cuts → cuts.length ≤ rs.length ∧
      ∀ cut ∈ cuts, removesLPOptimum cut.row cut.rhs opt = true := by
  induction rs with
  | nil =>
    intro total cuts h
    simp only [roundAll, Outcome.ok.injEq] at h
    subst h
    simp
  | cons rounder rs ih =>
    intro total cuts h
    simp only [roundAll] at h
    obtain ⟨res, hres, h⟩ := Outcome.bind_eq_ok.1 h
    cases res with
    | none =>
      obtain ⟨h1, h2⟩ := ih h
      exact ⟨by simp; omega, h2⟩
    | some res =>
      obtain ⟨row, rhs⟩ := res
      simp only at h
      split_ifs at h with hrem
      · obtain ⟨cuts', h', h⟩ := Outcome.bind_eq_ok.1 h
        simp only [Outcome.pure_eq, Outcome.ok.injEq] at h
        subst h
        obtain ⟨h1, h2⟩ := ih h'
        refine ⟨by simp; omega, fun cut hc => ?_⟩
        rcases List.mem_cons.1 hc with rfl | hc
        · exact hrem
        · exact h2 cut hc
      · obtain ⟨h1, h2⟩ := ih h
        exact ⟨by simp; omega, h2⟩

/-- A tableau row gives cuts only if the basic variable is an integer variable with a fractional value. -/
theorem tableauRow_origin {c : GenContext} {s : SolverView} {rs : List Generator.Rounder} {useRhs : List Bool} {opt : Vec}
    {k : ℕ} {cuts : List Cut} (h : tableauRow c s rs useRhs opt k = .ok cuts) : cuts.length ≤ rs.length ∧
      ∀ cut ∈ cuts, removesLPOptimum cut.row cut.rhs opt = true ∧ ∃ col, s.basis[k]? = some (some col) ∧
        c.isInteger col = true ∧ isIntegerWithinTolerance c.tol (opt.value .ieee col) = false := by
  unfold tableauRow at h
  obtain ⟨basic, hb, h⟩ := Outcome.bind_eq_ok.1 h
  have nil : (Outcome.ok ([] : List Cut)) = .ok cuts → cuts = [] := by
    intro h
    simp only [Outcome.ok.injEq] at h
    exact h.symm
  have hk : s.basis[k]? = some basic := by
    unfold listAt at hb
    split_ifs at hb
    simp only [Int.toNat_natCast] at hb
    cases hx : s.basis[k]? with
    | none => rw [hx] at hb; cases hb
    | some v => rw [hx] at hb; simp only [Outcome.ok.injEq] at hb; rw [hb]
  cases basic with
  | none => rw [nil h]; simp
  | some col =>
    simp only at h
    split_ifs at h with h1 h2
    · rw [nil h]; simp
    · rw [nil h]; simp
    · obtain ⟨v, hv, h⟩ := Outcome.bind_eq_ok.1 h
      obtain ⟨a, ha, h⟩ := Outcome.bind_eq_ok.1 h
      obtain ⟨⟨a', ok⟩, ha', h⟩ := Outcome.bind_eq_ok.1 h
      cases ok with
      | false => rw [nil h]; simp
      | true =>
        obtain ⟨h3, h4⟩ := roundAll_removes rs (by simpa using h)
        exact ⟨h3, fun cut hc => ⟨h4 cut hc, col, hk, by simpa using h1, by simpa using h2⟩⟩

theorem tableauLoop_count {c : GenContext} {s : SolverView} {rs : List Generator.Rounder} {limit : Int} {useRhs : List Bool}
    {opt : Vec} (n : ℕ) : ∀ {k : ℕ} {done cuts : List Cut}, tableauLoop c s rs limit useRhs opt n k done = .ok cuts →
    cuts.length ≤ done.length ∨ (cuts.length : Int) < limit + rs.length := by
  induction n with
  | zero =>
    intro k done cuts h
    simp only [tableauLoop, Outcome.ok.injEq] at h
    subst h
    exact Or.inl le_rfl
  | succ n ih =>
    intro k done cuts h
    simp only [tableauLoop] at h
    split_ifs at h with hlt
    · obtain ⟨new, hnew, h⟩ := Outcome.bind_eq_ok.1 h
      have h1 := (tableauRow_origin hnew).1
      rcases ih h with h2 | h2
      · rw [List.length_append] at h2
        right
        omega
      · exact Or.inr h2
    · simp only [Outcome.ok.injEq] at h
      subst h
      exact Or.inl le_rfl

/-- The rows of the cuts are clean if the rows of the LP are. -/
theorem generated_clean {c : GenContext} (hrows : ∀ r ∈ c.lp.rows, r.isClean .ieee = true) {s : SolverView}
    {rs : List Generator.Rounder} {limit : Int} {cuts : List Cut} (h : generateCuttingPlanes c s rs limit = .ok cuts) :
    ∀ cut ∈ cuts, Clean .ieee cut.row.entries := by
  unfold generateCuttingPlanes at h
  split at h
  · cases h
  split at h
  · cases h
  obtain ⟨acts, hacts, h⟩ := Outcome.bind_eq_ok.1 h
  obtain ⟨useRhs, hu, h⟩ := Outcome.bind_eq_ok.1 h
  obtain ⟨primal, hprimal, h⟩ := Outcome.bind_eq_ok.1 h
  simp only at h
  split at h
  · cases h
  intro cut hc
  rcases tableauLoop_mem _ h cut hc with h1 | ⟨k, new, hnew, h1⟩
  · simp at h1
  obtain ⟨v, a, a', -, ha, ha', rounder, -, t, hr, -⟩ := tableauRow_mem hnew cut h1
  exact roundOne_clean hrows ha ha' hr

/-- **C95.**  What the generator returns in doubles, whatever the numbers of the LP and the answers of its solver.
There are less than the limit plus the number of rounders of cuts.  The LP is solved to optimality.  The row of every
cut is clean (strictly increasing non-negative indices, no stored zeros) if the rows of the LP are, and the cut comes
from a row of the tableau whose basic variable is an integer variable that is farther than the tolerance from every
integer.  Unless its coefficients are infinite or too large, the LP optimum violates the cut up to the rounding errors
of one dot product. -/
theorem C95_generated (c : GenContext) (s : SolverView) (rs : List Generator.Rounder) (limit : Int) (cuts : List Cut)
    (h : generateCuttingPlanes c s rs limit = .ok cuts) (tol : ℚ) (ht : c.tol = .fin tol) (values : List ℚ)
    (hp : s.primal = .ok (values.map .fin)) (hd : ∀ v ∈ values, IsDouble v) :
    (cuts = [] ∨ (cuts.length : Int) < limit + rs.length) ∧ s.isSolved = true ∧ s.isOptimal = true ∧ 0 ≤ limit ∧
    ∀ cut ∈ cuts,
      (∃ (k : ℕ) (col : Int), s.basis[k]? = some (some col) ∧ c.isInteger col = true ∧
        ¬ ∃ z : ℤ, |point values col - z| ≤ tol) ∧
      ((∀ r ∈ c.lp.rows, r.isClean .ieee = true) → cut.row.isClean .ieee = true ∧
        ∀ β C X : ℚ, cut.rhs = .fin β → 1 ≤ C → 1 ≤ X → (∀ v ∈ values, |v| ≤ X) →
          (∀ e ∈ cut.row.entries, ∃ q, e.value = .fin q ∧ |q| ≤ C) → cut.row.entries.length ≤ 2 ^ 30 → C * X ≤ 2 ^ 900 →
          β < eval cut.row.entries (point values) + 8 * (cut.row.entries.length : ℚ) ^ 2 / 2 ^ 53 * (C * X)) := by
  unfold generateCuttingPlanes at h
  split at h
  · cases h
  rename_i hs
  split at h
  · cases h
  rename_i ho
  obtain ⟨acts, hacts, h⟩ := Outcome.bind_eq_ok.1 h
  obtain ⟨useRhs, hu, h⟩ := Outcome.bind_eq_ok.1 h
  obtain ⟨primal, hprimal, h⟩ := Outcome.bind_eq_ok.1 h
  rw [hp, Outcome.ok.injEq] at hprimal
  subst hprimal
  simp only at h
  split at h
  · cases h
  rename_i hlim
  refine ⟨?_, by simpa using hs, by simpa using ho, by omega, fun cut hc => ?_⟩
  · rcases tableauLoop_count _ h with h1 | h1
    · left
      simpa using h1
    · exact Or.inr h1
  rcases tableauLoop_mem _ h cut hc with h1 | ⟨k, new, hnew, h1⟩
  · simp at h1
  obtain ⟨hrem, col, hk, hint, hfrac⟩ := (tableauRow_origin hnew).2 cut h1
  refine ⟨⟨k, col, hk, hint, ?_⟩, fun hrows => ?_⟩
  · rw [ofDense_value, ht, ← Bool.not_eq_true] at hfrac
    have hpd : IsDouble (point values col) := by
      unfold point
      split
      · rw [List.getD]
        cases hv : values[col.toNat]? with
        | none => exact isDouble_zero
        | some v => exact hd v (List.mem_of_getElem? hv)
      · exact isDouble_zero
    rwa [(C86_tests tol _ hpd).1] at hfrac
  · obtain ⟨v, a, a', -, ha, ha', rounder, -, t, hr, -⟩ := tableauRow_mem hnew cut h1
    have hcl := roundOne_clean hrows ha ha' hr
    refine ⟨(isClean_iff _ _).2 hcl, fun β C X hβ hC hX hv hfin hlen hbig => ?_⟩
    obtain ⟨z, hz1, hz2⟩ := dot_bound (w := ofDense (values.map .fin)) hcl.1 (ofDenseFrom_sorted _ 0) (ofDense_value values)
      hC hX (point_le (by linarith) hv) hfin hlen hbig
    unfold removesLPOptimum at hrem
    rw [hz1, hβ] at hrem
    have h2 : β < z := by simpa [Dbl.lt] using hrem
    have h3 := (abs_le.1 hz2).2
    linarith

/-- The hypotheses are met by the LP of `C91_mir_violated`: one cut with finite coefficients is generated. -/
example : ∃ (tol : ℚ) (values : List ℚ) (cut : Cut), third.tol = .fin tol ∧ thirdView.primal = .ok (values.map .fin) ∧
    (∀ v ∈ values, IsDouble v ∧ |v| ≤ 2) ∧ generateCuttingPlanes third thirdView [.mir] 100 = .ok [cut] ∧
    (∀ r ∈ third.lp.rows, r.isClean .ieee = true) ∧ (∃ β, cut.rhs = .fin β) ∧
    ∀ e ∈ cut.row.entries, ∃ q, e.value = .fin q ∧ |q| ≤ 1 := by
  refine ⟨4722366482869645 / 2 ^ 72, [6004799503160661 / 2 ^ 52], ⟨⟨[⟨0, .fin (4503599627370495 / 2 ^ 52)⟩], false⟩,
    .fin (9007199254740989 / 2 ^ 53), "MIR0"⟩, by decide +kernel, by decide +kernel, ?_, ?_, by decide +kernel, ⟨_, rfl⟩, ?_⟩
  · intro v hv
    simp only [List.mem_singleton] at hv
    subst hv
    exact ⟨(dyadic (m := 6004799503160661) (n := 52) (by norm_num) (by norm_num) (by norm_num)).1, by norm_num [abs_le]⟩
  · rw [third_generate _ _ (by norm_num)]
    simp only [roundAll, third_mir, Outcome.bind_ok, third_dot _ _ (show Dbl.lt (.fin (9007199254740989 / 2 ^ 53))
      (add (.fin 0) (mul (.fin (4503599627370495 / 2 ^ 52)) (round (4 / 3)))) = true by decide +kernel), if_true,
      Outcome.pure_eq]
    decide +kernel
  · intro e he
    simp only [List.mem_singleton] at he
    subst he
    exact ⟨_, rfl, by norm_num [abs_le]⟩

end Ieee
end MiniMip
