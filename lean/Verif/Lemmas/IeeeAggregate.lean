import Verif.Props.ArithVector
import Verif.Props.IeeeGenerator
import Verif.Lemmas.Generator
import Mathlib.Algebra.BigOperators.Intervals
import Mathlib.Algebra.Order.BigOperators.Group.Finset

/-!
# Rounding errors of the cut generator: aggregation, shifting of variables, substitution of slacks
-/

namespace MiniMip
namespace Ieee

open AVector (StrictSorted Clean lookup Proper)

/-! ## One operation -/

/-- Rounding a number of size at most `Y`. -/
theorem round_step {y Y : ℚ} (h : |y| ≤ Y) (h1 : 1 ≤ Y) (h2 : Y ≤ 2 ^ 1000) :
    ∃ z, round y = .fin z ∧ IsDouble z ∧ |z - y| ≤ u * Y := by
  have hr := round_fin (h.trans h2)
  refine ⟨rnd y, hr, ?_, ?_⟩
  · have := AVector.proper_round y
    rw [hr] at this
    exact this
  · refine (rnd_error y).trans (max_le (mul_le_mul_of_nonneg_left h u_pos.le) (eta_le_u.trans ?_))
    have := u_pos
    nlinarith

theorem u_le_one : u ≤ 1 := by unfold u; norm_num

/-- `r + c * s`. -/
theorem acc_add {r c s R P : ℚ} (hr : |r| ≤ R) (hp : |c * s| ≤ P) (h1 : 1 ≤ P) (hbig : R + 2 * P ≤ 2 ^ 1000) :
    ∃ z, add (.fin r) (mul (.fin c) (.fin s)) = .fin z ∧ IsDouble z ∧ |z - (r + c * s)| ≤ u * (R + 3 * P) := by
  have hu := u_pos
  have hR := (abs_nonneg r).trans hr
  obtain ⟨p, hp1, -, hp3⟩ := round_step hp h1 (le_trans (by linarith) hbig)
  have hpP : |p| ≤ 2 * P := by
    have h2 : |p| ≤ |p - c * s| + |c * s| := by have := abs_add_le (p - c * s) (c * s); rwa [sub_add_cancel] at this
    have := u_le_one
    nlinarith
  obtain ⟨z, hz1, hz2, hz3⟩ := round_step (y := r + p) ((abs_add_le r p).trans (add_le_add hr hpP)) (by linarith) hbig
  refine ⟨z, ?_, hz2, ?_⟩
  · show add (.fin r) (round (c * s)) = _
    rw [hp1, add_fin, hz1]
  · have : z - (r + c * s) = (z - (r + p)) + (p - c * s) := by ring
    rw [this]
    refine (abs_add_le _ _).trans ?_
    linarith

/-- `r - c * s`. -/
theorem acc_sub {r c s R P : ℚ} (hr : |r| ≤ R) (hp : |c * s| ≤ P) (h1 : 1 ≤ P) (hbig : R + 2 * P ≤ 2 ^ 1000) :
    ∃ z, sub (.fin r) (mul (.fin c) (.fin s)) = .fin z ∧ IsDouble z ∧ |z - (r - c * s)| ≤ u * (R + 3 * P) := by
  have hu := u_pos
  have hR := (abs_nonneg r).trans hr
  obtain ⟨p, hp1, -, hp3⟩ := round_step hp h1 (le_trans (by linarith) hbig)
  have hpP : |p| ≤ 2 * P := by
    have h2 : |p| ≤ |p - c * s| + |c * s| := by have := abs_add_le (p - c * s) (c * s); rwa [sub_add_cancel] at this
    have := u_le_one
    nlinarith
  obtain ⟨z, hz1, hz2, hz3⟩ := round_step (y := r - p) ((abs_sub r p).trans (add_le_add hr hpP)) (by linarith) hbig
  refine ⟨z, ?_, hz2, ?_⟩
  · show sub (.fin r) (round (c * s)) = _
    rw [hp1, sub_fin, hz1]
  · have : z - (r - c * s) = (z - (r - p)) - (p - c * s) := by ring
    rw [this]
    refine (abs_sub _ _).trans ?_
    linarith

/-! ## Rows -/

/-- A sorted row over the columns below `n` whose coefficients are doubles. -/
structure IsRow (n : ℕ) (v : Vec) : Prop where
  sorted : StrictSorted v.entries
  nonneg : ∀ e ∈ v.entries, 0 ≤ e.index
  cols : ∀ e ∈ v.entries, e.index < n
  double : ∀ e ∈ v.entries, ∃ q, e.value = .fin q ∧ IsDouble q

/-- The coefficient of column `j`. -/
def val (v : Vec) (j : Int) : ℚ := Generator.finPart (v.value .ieee j)

theorem IsRow.value {n : ℕ} {v : Vec} (h : IsRow n v) (j : Int) : v.value .ieee j = .fin (val v j) ∧ IsDouble (val v j) := by
  have h1 := AVector.value_eq_lookup .ieee h.sorted j
  cases hl : lookup v.entries j with
  | none =>
    rw [hl] at h1
    have h2 : v.value .ieee j = .fin 0 := h1
    rw [val, h2]
    exact ⟨rfl, isDouble_zero⟩
  | some x =>
    rw [hl] at h1
    obtain ⟨q, hq, hd⟩ := h.double _ (AVector.lookup_mem hl)
    have h2 : v.value .ieee j = .fin q := h1.trans hq
    rw [val, h2]
    exact ⟨rfl, hd⟩

theorem lookup_of_mem {l : List (AEntry Dbl)} (h : StrictSorted l) {e : AEntry Dbl} (he : e ∈ l) :
    lookup l e.index = some e.value := by
  induction l with
  | nil => simp at he
  | cons d r ih =>
    rw [AVector.lookup_cons]
    rcases List.mem_cons.1 he with rfl | he
    · rw [if_pos rfl]
    · have h2 := (List.pairwise_cons.1 h).1 e he
      rw [if_neg (by omega), ih (List.pairwise_cons.1 h).2 he]

theorem value_of_mem {v : Vec} (h : StrictSorted v.entries) {e : AEntry Dbl} (he : e ∈ v.entries) :
    v.value .ieee e.index = e.value := by
  rw [AVector.value_eq_lookup .ieee h, lookup_of_mem h he]
  rfl

theorem eval_lookup {n : ℕ} (l : List (AEntry Dbl)) (x : Int → ℚ) (hs : StrictSorted l) (h0 : ∀ e ∈ l, 0 ≤ e.index)
    (hn : ∀ e ∈ l, e.index < n) :
    eval l x = ∑ j ∈ Finset.range n, Generator.finPart ((lookup l j).getD (.fin 0)) * x j := by
  induction l with
  | nil =>
    rw [eval]
    symm
    apply Finset.sum_eq_zero
    intro j _
    simp [AVector.lookup_nil, Generator.finPart]
  | cons e r ih =>
    have hr := (List.pairwise_cons.1 hs).1
    rw [eval_cons, ih (List.pairwise_cons.1 hs).2 (fun d hd => h0 d (List.mem_cons_of_mem _ hd))
      (fun d hd => hn d (List.mem_cons_of_mem _ hd))]
    have e0 := h0 e (List.mem_cons_self ..)
    have en := hn e (List.mem_cons_self ..)
    have hk : e.index.toNat ∈ Finset.range n := by rw [Finset.mem_range]; omega
    have hkk : ((e.index.toNat : ℕ) : Int) = e.index := by omega
    rw [← Finset.add_sum_erase _ _ hk, ← Finset.add_sum_erase (Finset.range n) _ hk]
    have hnone : lookup r e.index = none := AVector.lookup_none fun d hd => by have := hr d hd; omega
    simp only [hkk, hnone, AVector.lookup_cons, if_true, Option.getD_some, Option.getD_none, Generator.finPart, zero_mul,
      zero_add]
    congr 1
    apply Finset.sum_congr rfl
    intro j hj
    have : e.index ≠ (j : Int) := fun hc => (Finset.mem_erase.1 hj).1 (by omega)
    rw [if_neg this]

theorem IsRow.eval {n : ℕ} {v : Vec} (h : IsRow n v) (x : Int → ℚ) :
    eval v.entries x = ∑ j ∈ Finset.range n, val v j * x j := by
  rw [eval_lookup v.entries x h.sorted h.nonneg h.cols]
  apply Finset.sum_congr rfl
  intro j _
  rw [val, AVector.value_eq_lookup .ieee h.sorted]
  rfl

/-- The number of entries. -/
theorem IsRow.length {n : ℕ} {v : Vec} (h : IsRow n v) : v.entries.length ≤ n := by
  have h1 : (v.entries.map fun e => e.index.toNat).Nodup := by
    rw [List.Nodup, List.pairwise_map]
    refine h.sorted.imp_of_mem ?_
    intro a b ha hb hlt hc
    have := h.nonneg a ha
    have := h.nonneg b hb
    omega
  have h2 : (v.entries.map fun e => e.index.toNat).toFinset ⊆ Finset.range n := by
    intro k hk
    rw [List.mem_toFinset, List.mem_map] at hk
    obtain ⟨e, he, rfl⟩ := hk
    rw [Finset.mem_range]
    have := h.nonneg e he
    have := h.cols e he
    omega
  have h3 := Finset.card_le_card h2
  rw [List.toFinset_card_of_nodup h1, Finset.card_range, List.length_map] at h3
  exact h3

/-- Rows that are close coefficient by coefficient are close at bounded points. -/
theorem eval_close {n : ℕ} {r v w : Vec} (hr : IsRow n r) (hv : IsRow n v) (hw : IsRow n w) {s E X : ℚ}
    (h : ∀ j, |val r j - (val v j + s * val w j)| ≤ E) {x : Int → ℚ} (hx : ∀ j, |x j| ≤ X) :
    |eval r.entries x - (eval v.entries x + s * eval w.entries x)| ≤ n * (E * X) := by
  rw [hr.eval, hv.eval, hw.eval, Finset.mul_sum, ← Finset.sum_add_distrib, ← Finset.sum_sub_distrib]
  refine (Finset.abs_sum_le_sum_abs _ _).trans ?_
  have : ∀ j ∈ Finset.range n, |val r j * x j - (val v j * x j + s * (val w j * x j))| ≤ E * X := by
    intro j _
    have e1 : val r j * x j - (val v j * x j + s * (val w j * x j)) = (val r j - (val v j + s * val w j)) * x j := by ring
    rw [e1, abs_mul]
    exact mul_le_mul (h j) (hx j) (abs_nonneg _) ((abs_nonneg _).trans (h j))
  refine (Finset.sum_le_sum this).trans ?_
  rw [Finset.sum_const, Finset.card_range, nsmul_eq_mul]

/-- Adding a multiple of a row. -/
theorem addMultiple_row {n : ℕ} {v w : Vec} (hv : IsRow n v) (hw : IsRow n w) {s F P : ℚ} (hF : ∀ j, |val v j| ≤ F)
    (hP : ∀ j, |val w j * s| ≤ P) (h1 : 1 ≤ P) (hbig : F + 2 * P ≤ 2 ^ 1000) :
    ∃ r, v.addMultiple .ieee (.fin s) w = .ok r ∧ IsRow n r ∧ r.dirty = v.dirty ∧
      (∀ e ∈ r.entries, Arith.ieee.isZero e.value = false) ∧
      ∀ j, |val r j - (val v j + s * val w j)| ≤ u * (F + 3 * P) := by
  obtain ⟨l, h2, h3, h4⟩ := AVector.addMultiple_value s hv.sorted hv.nonneg hw.sorted hw.nonneg (fun e he => by
    obtain ⟨q, hq, hd⟩ := hv.double e he
    rw [hq]; exact hd)
  have hval : ∀ j, ∃ z, AVector.value .ieee ⟨l, v.dirty⟩ j = .fin z ∧ IsDouble z ∧
      |z - (val v j + s * val w j)| ≤ u * (F + 3 * P) := by
    intro j
    obtain ⟨z, hz, hd, he⟩ := acc_add (hF j) (hP j) h1 hbig
    refine ⟨z, ?_, hd, by rw [mul_comm s]; exact he⟩
    rw [h4 j, (hv.value j).1, (hw.value j).1, hz]
  refine ⟨⟨l, v.dirty⟩, h2, ⟨h3.1, fun e he => (h3.2 e he).2, ?_, ?_⟩, rfl, fun e he => (h3.2 e he).1, ?_⟩
  · intro e he
    by_contra hc
    -- a column not below `n` has the value 0, and zeros are not stored
    have hc1 : ∀ d ∈ v.entries, d.index ≠ e.index := fun d hd => by have := hv.cols d hd; omega
    have hc2 : ∀ d ∈ w.entries, d.index ≠ e.index := fun d hd => by have := hw.cols d hd; omega
    have h5 := h4 e.index
    rw [AVector.value_eq_lookup .ieee hv.sorted, AVector.value_eq_lookup .ieee hw.sorted, AVector.lookup_none hc1,
      AVector.lookup_none hc2] at h5
    have h6 : AVector.value .ieee ⟨l, v.dirty⟩ e.index = e.value := value_of_mem (v := ⟨l, v.dirty⟩) h3.1 he
    rw [h6] at h5
    have h7 := (h3.2 e he).1
    rw [h5] at h7
    have h8 : Ieee.add (.fin 0) (Ieee.mul (.fin 0) (.fin s)) = .fin 0 := by
      show Ieee.add (.fin 0) (round (0 * s)) = _
      rw [zero_mul, round_rep isDouble_zero.1 isDouble_zero.2, add_fin, add_zero, round_rep isDouble_zero.1 isDouble_zero.2]
    change Arith.ieee.isZero (Ieee.add (.fin 0) (Ieee.mul (.fin 0) (.fin s))) = false at h7
    rw [h8] at h7
    simp [Arith.ieee, Dbl.eq] at h7
  · intro e he
    obtain ⟨z, hz, hd, -⟩ := hval e.index
    have h6 : AVector.value .ieee ⟨l, v.dirty⟩ e.index = e.value := value_of_mem (v := ⟨l, v.dirty⟩) h3.1 he
    exact ⟨z, by rw [← h6, hz], hd⟩
  · intro j
    obtain ⟨z, hz, -, he⟩ := hval j
    rw [val, hz]
    exact he

/-- Scaling a row. -/
theorem scale_row {n : ℕ} {w : Vec} (hw : IsRow n w) {s P : ℚ} (hP : ∀ j, |val w j * s| ≤ P) (h1 : 1 ≤ P)
    (hbig : P ≤ 2 ^ 1000) :
    IsRow n (w.scale .ieee (.fin s)) ∧ ∀ j, |val (w.scale .ieee (.fin s)) j - val w j * s| ≤ u * P := by
  have hu := u_pos
  unfold AVector.scale
  by_cases hz : s = 0
  · have h0 : Arith.ieee.isZero (.fin s) = true := by simp [Arith.ieee, Dbl.eq, hz]
    rw [if_pos h0]
    refine ⟨⟨List.Pairwise.nil, by simp, by simp, by simp⟩, fun j => ?_⟩
    have : val (⟨[], w.dirty⟩ : Vec) j = 0 := rfl
    rw [this, hz, mul_zero, sub_zero, abs_zero]
    nlinarith
  · have h0 : ¬ Arith.ieee.isZero (.fin s) = true := by simp [Arith.ieee, Dbl.eq, hz]
    rw [if_neg h0]
    set v : Vec := ⟨w.entries.map fun e => ⟨e.index, Arith.ieee.mul e.value (.fin s)⟩, w.dirty⟩ with hv
    have hs : StrictSorted v.entries := AVector.map_strictSorted hw.sorted _ fun _ => rfl
    have hval : ∀ j, ∃ z, v.value .ieee j = .fin z ∧ IsDouble z ∧ |z - val w j * s| ≤ u * P := by
      intro j
      have h2 := AVector.value_eq_lookup .ieee hs j
      rw [hv] at h2
      rw [hv]
      rw [show lookup _ j = _ from AVector.lookup_map w.entries (fun _ x => Arith.ieee.mul x (.fin s)) j] at h2
      cases hl : lookup w.entries j with
      | none =>
        rw [hl] at h2
        have h3 : val w j = 0 := by rw [val, AVector.value_eq_lookup .ieee hw.sorted, hl]; rfl
        refine ⟨0, h2, isDouble_zero, ?_⟩
        rw [h3, zero_mul, sub_zero, abs_zero]
        nlinarith
      | some a =>
        rw [hl] at h2
        have h3 : w.value .ieee j = a := by rw [AVector.value_eq_lookup .ieee hw.sorted, hl]; rfl
        obtain ⟨z, hz1, hz2, hz3⟩ := round_step (hP j) h1 hbig
        refine ⟨z, ?_, hz2, hz3⟩
        rw [h2, ← hz1]
        show Ieee.mul a (.fin s) = _
        rw [← h3, (hw.value j).1]
        rfl
    refine ⟨⟨hs, ?_, ?_, ?_⟩, fun j => ?_⟩
    · intro e he
      obtain ⟨d, hd, rfl⟩ := List.mem_map.1 he
      exact hw.nonneg d hd
    · intro e he
      obtain ⟨d, hd, rfl⟩ := List.mem_map.1 he
      exact hw.cols d hd
    · intro e he
      obtain ⟨z, hz, hd, -⟩ := hval e.index
      exact ⟨z, by rw [← value_of_mem hs he, hz], hd⟩
    · obtain ⟨z, hz, -, h⟩ := hval j
      rw [val, hz]
      exact h

/-! ## Aggregation -/

/-- The sign of the slack of row `i`. -/
def sgn (useRhs : List Bool) (i : Int) : ℚ := if useRhs.getD i.toNat true then 1 else -1

/-- The chosen side of row `i`. -/
def sideOf (lp : LpView) (useRhs : List Bool) (i : Int) : Dbl :=
  (if useRhs.getD i.toNat true then lp.rhs else lp.lhs).getD i.toNat .nan

/-- Row `i`. -/
def rowOf (lp : LpView) (i : Int) : Vec := lp.rows.getD i.toNat {}

/-- The slack of row `i` at `x`. -/
def slackOf (lp : LpView) (useRhs : List Bool) (x : Int → ℚ) (i : Int) : ℚ :=
  sgn useRhs i * (Generator.finPart (sideOf lp useRhs i) - eval (rowOf lp i).entries x)

theorem sgn_sq (useRhs : List Bool) (i : Int) : sgn useRhs i * sgn useRhs i = 1 := by
  unfold sgn; split_ifs <;> norm_num

theorem abs_sgn (useRhs : List Bool) (i : Int) : |sgn useRhs i| = 1 := by
  unfold sgn; split_ifs <;> norm_num

theorem sgn_ne (useRhs : List Bool) (i : Int) : sgn useRhs i ≠ 0 := by
  unfold sgn; split_ifs <;> norm_num

theorem listAt_getD {α : Type} {l : List α} {i : Int} {a : α} (h : listAt l i = .ok a) (d : α) : l.getD i.toNat d = a := by
  obtain ⟨-, h⟩ := listAt_eq_ok.1 h
  rw [List.getD_eq_getElem?_getD, h]
  rfl

/-- Row, side and weight are doubles of size at most `B`. -/
structure WeightOk (lp : LpView) (useRhs : List Bool) (n : ℕ) (B : ℚ) (e : AEntry Dbl) : Prop where
  index : 0 ≤ e.index
  weight : ∃ w, e.value = .fin w ∧ IsDouble w ∧ |w| ≤ B ∧ w ≠ 0
  side : ∃ s, sideOf lp useRhs e.index = .fin s ∧ IsDouble s ∧ |s| ≤ B
  row : IsRow n (rowOf lp e.index)
  coefs : ∀ j, |val (rowOf lp e.index) j| ≤ B

/-- What is known after the rows with the weights `done`. -/
structure AggInv (lp : LpView) (useRhs : List Bool) (n : ℕ) (x : Int → ℚ) (G D : ℚ) (done : List (AEntry Dbl))
    (a : AggRow) : Prop where
  row : IsRow n a.vars
  nz : ∀ e ∈ a.vars.entries, Arith.ieee.isZero e.value = false
  clean : a.vars.dirty = false
  size : ∀ j, |val a.vars j| ≤ done.length * G
  slacks : a.slackCoefs = ⟨done.map fun e => ⟨e.index, .fin (sgn useRhs e.index * Generator.finPart e.value)⟩, false⟩
  signs : a.slackSigns = ⟨done.map fun e => ⟨e.index, .fin (sgn useRhs e.index)⟩, false⟩
  sides : a.sideValues = ⟨(done.map fun e => (⟨e.index, sideOf lp useRhs e.index⟩ : AEntry Dbl)).filter
    fun e => !Arith.ieee.isZero e.value, false⟩
  rhs : ∃ b, a.rhs = .fin b ∧ IsDouble b ∧ |b| ≤ done.length * G ∧
    |eval a.vars.entries x + eval a.slackCoefs.entries (slackOf lp useRhs x) - b| ≤ done.length * D

theorem lastIndex_lt {v : Vec} {i : Int} (h0 : 0 ≤ i) (h : ∀ e ∈ v.entries, e.index < i) : v.lastIndex < i := by
  unfold AVector.lastIndex
  cases hl : v.entries.getLast? with
  | none => simp only; omega
  | some e => exact h e (List.mem_of_getLast? hl)

theorem addEntry_append {l : List (AEntry Dbl)} {i : Int} (h0 : 0 ≤ i) (h : ∀ e ∈ l, e.index < i) (v : Dbl) :
    AVector.addEntry .ieee ⟨l, false⟩ i v =
      ⟨l ++ [(⟨i, v⟩ : AEntry Dbl)].filter fun e => !Arith.ieee.isZero e.value, false⟩ := by
  have hl := lastIndex_lt (v := ⟨l, false⟩) h0 h
  unfold AVector.addEntry
  simp only [Bool.false_eq_true, if_false, if_neg (not_le.2 hl)]
  by_cases hz : Arith.ieee.isZero v = true
  · rw [if_pos hz]
    simp [hz]
  · rw [if_neg hz]
    simp [hz]

theorem mul_sign (useRhs : List Bool) (i : Int) {w : ℚ} (hw : IsDouble w) :
    mul (.fin (sgn useRhs i)) (.fin w) = .fin (sgn useRhs i * w) := by
  show round (sgn useRhs i * w) = _
  unfold sgn
  split_ifs
  · rw [one_mul, round_rep hw.1 hw.2]
  · rw [neg_one_mul, round_rep hw.neg.1 hw.neg.2]

theorem aggregateStep_inv {lp : LpView} {useRhs : List Bool} {n : ℕ} {x : Int → ℚ} {B X F E : ℚ} (hB : 1 ≤ B)
    (hE : E = u * (F + 3 * (B * B))) (hx : ∀ j, |x j| ≤ X) (hbig : F + 2 * (B * B) ≤ 2 ^ 1000)
    {done : List (AEntry Dbl)} {a a' : AggRow} {e : AEntry Dbl}
    (hinv : AggInv lp useRhs n x (B * B + E) (n * (E * X) + E) done a) (hF : done.length * (B * B + E) ≤ F)
    (he : WeightOk lp useRhs n B e) (hlast : ∀ d ∈ done, d.index < e.index)
    (h : aggregateStep lp useRhs a e.index e.value = .ok a') :
    AggInv lp useRhs n x (B * B + E) (n * (E * X) + E) (done ++ [e]) a' := by
  have hBB : 1 ≤ B * B := by nlinarith
  obtain ⟨w, hw, hwd, hwB, hw0⟩ := he.weight
  obtain ⟨s, hs, hsd, hsB⟩ := he.side
  obtain ⟨b, hb, hbd, hbF, hdisc⟩ := hinv.rhs
  simp only [aggregateStep] at h
  obtain ⟨ur, hu1, h⟩ := Outcome.bind_eq_ok.1 h
  obtain ⟨side, hside, h⟩ := Outcome.bind_eq_ok.1 h
  obtain ⟨r, hr, h⟩ := Outcome.bind_eq_ok.1 h
  obtain ⟨vars, hvars, h⟩ := Outcome.bind_eq_ok.1 h
  simp only [Outcome.pure_eq, Outcome.ok.injEq] at h
  have hur : useRhs.getD e.index.toNat true = ur := listAt_getD hu1 true
  have hrr : rowOf lp e.index = r := listAt_getD hr {}
  have hss : side = .fin s := by
    rw [← hs, sideOf, hur]
    exact (listAt_getD hside .nan).symm
  have hsg : (.fin (if ur = true then 1 else -1) : Dbl) = .fin (sgn useRhs e.index) := by rw [sgn, hur]
  have hrow : IsRow n r := hrr ▸ he.row
  have hcoef : ∀ j, |val r j| ≤ B := hrr ▸ he.coefs
  rw [hw] at hvars
  obtain ⟨v', hv1, hv2, hv3, hv4, hv5⟩ := addMultiple_row (s := w) (P := B * B) hinv.row hrow
    (fun j => (hinv.size j).trans hF) (fun j => by
      rw [abs_mul]; exact mul_le_mul (hcoef j) hwB (abs_nonneg _) (by linarith)) hBB hbig
  rw [hv1, Outcome.ok.injEq] at hvars
  obtain ⟨z, hz1, hz2, hz3⟩ := acc_add (c := w) (s := s) (hbF.trans hF) (P := B * B) (by
    rw [abs_mul]; exact mul_le_mul hwB hsB (abs_nonneg _) (by linarith)) hBB hbig
  rw [← hE] at hz3 hv5
  have hlen : ((done ++ [e]).length : ℚ) = done.length + 1 := by simp
  subst h
  rw [hsg, hss, hw, hb, ← hvars, mul_sign useRhs e.index hwd]
  have hsl : AVector.addEntry .ieee a.slackCoefs e.index (.fin (sgn useRhs e.index * w)) =
      ⟨(done ++ [e]).map fun e => ⟨e.index, .fin (sgn useRhs e.index * Generator.finPart e.value)⟩, false⟩ := by
    rw [hinv.slacks, addEntry_append he.index (fun d hd => by
      obtain ⟨d', hd', rfl⟩ := List.mem_map.1 hd
      exact hlast d' hd')]
    have : Arith.ieee.isZero (.fin (sgn useRhs e.index * w)) = false := by
      simp [Arith.ieee, Dbl.eq, sgn_ne, hw0]
    simp [this, hw, Generator.finPart]
  refine ⟨hv2, hv4, hv3.trans hinv.clean, ?_, hsl, ?_, ?_, z, hz1, hz2, ?_, ?_⟩
  · intro j
    have h1 := hv5 j
    have h2 := hinv.size j
    have h3 : |w * val r j| ≤ B * B := by
      rw [abs_mul]; exact mul_le_mul hwB (hcoef j) (abs_nonneg _) (by linarith)
    rw [hlen]
    rw [abs_le] at h1 h2 h3 ⊢
    constructor <;> linarith [h1.1, h1.2, h2.1, h2.2, h3.1, h3.2]
  · rw [hinv.signs, addEntry_append he.index (fun d hd => by
      obtain ⟨d', hd', rfl⟩ := List.mem_map.1 hd
      exact hlast d' hd')]
    have : Arith.ieee.isZero (.fin (sgn useRhs e.index)) = false := by
      simp [Arith.ieee, Dbl.eq, sgn_ne]
    simp [this]
  · rw [hinv.sides, addEntry_append he.index (fun d hd => by
      obtain ⟨d', hd', rfl⟩ := List.mem_map.1 (List.mem_filter.1 hd).1
      exact hlast d' hd'), ← hs]
    simp
  · have h3 : |w * s| ≤ B * B := by
      rw [abs_mul]; exact mul_le_mul hwB hsB (abs_nonneg _) (by linarith)
    rw [hlen]
    rw [abs_le] at hz3 hbF h3 ⊢
    constructor <;> linarith [hz3.1, hz3.2, hbF.1, hbF.2, h3.1, h3.2]
  · have h1 := eval_close hv2 hinv.row hrow hv5 hx
    have h2 : eval (AVector.addEntry .ieee a.slackCoefs e.index (.fin (sgn useRhs e.index * w))).entries
        (slackOf lp useRhs x) = eval a.slackCoefs.entries (slackOf lp useRhs x) + w * (s - eval r.entries x) := by
      rw [hsl, hinv.slacks]
      have h4 : sgn useRhs e.index * w * slackOf lp useRhs x e.index = w * (s - eval r.entries x) := by
        rw [slackOf, hs, hrr]
        have := sgn_sq useRhs e.index
        calc _ = sgn useRhs e.index * sgn useRhs e.index * (w * (Generator.finPart (.fin s) - eval r.entries x)) := by ring
          _ = _ := by rw [this, one_mul]; rfl
      simp only [eval, List.map_append, List.map_map, List.sum_append, List.map_cons, List.map_nil, List.sum_cons,
        List.sum_nil, add_zero, hw]
      rw [show Generator.finPart (.fin w) = w from rfl]
      exact congrArg _ h4
    show |eval v'.entries x + eval (AVector.addEntry .ieee a.slackCoefs e.index (.fin (sgn useRhs e.index * w))).entries
        (slackOf lp useRhs x) - z| ≤ _
    rw [h2, hlen]
    rw [abs_le] at h1 hz3 hdisc ⊢
    have e1 : w * (s - eval r.entries x) = w * s - w * eval r.entries x := by ring
    rw [e1]
    constructor <;> linarith [hz3.1, hz3.2, h1.1, h1.2, hdisc.1, hdisc.2]

theorem aggregateLoop_inv {lp : LpView} {useRhs : List Bool} {n : ℕ} {x : Int → ℚ} {B X F E : ℚ} (hB : 1 ≤ B)
    (hE : E = u * (F + 3 * (B * B))) (hE0 : 0 ≤ E) (hx : ∀ j, |x j| ≤ X) (hbig : F + 2 * (B * B) ≤ 2 ^ 1000)
    (l : List (AEntry Dbl)) : ∀ {done : List (AEntry Dbl)} {a a' : AggRow},
    AggInv lp useRhs n x (B * B + E) (n * (E * X) + E) done a → ((done ++ l).length : ℚ) * (B * B + E) ≤ F →
    (∀ e ∈ l, WeightOk lp useRhs n B e) → StrictSorted (done ++ l) →
    aggregateLoop lp useRhs a l = .ok a' → AggInv lp useRhs n x (B * B + E) (n * (E * X) + E) (done ++ l) a' := by
  induction l with
  | nil =>
    intro done a a' h _ _ _ h2
    simp only [aggregateLoop, Outcome.ok.injEq] at h2
    subst h2
    simpa using h
  | cons e r ih =>
    intro done a a' h hF hok hs h2
    simp only [aggregateLoop] at h2
    obtain ⟨a1, h3, h2⟩ := Outcome.bind_eq_ok.1 h2
    have hG : 0 ≤ B * B + E := by nlinarith
    have hlen : (done.length : ℚ) ≤ ((done ++ e :: r).length : ℚ) := by
      rw [List.length_append]; push_cast; linarith [(Nat.cast_nonneg (e :: r).length : (0 : ℚ) ≤ _)]
    have h4 := aggregateStep_inv hB hE hx hbig h ((mul_le_mul_of_nonneg_right hlen hG).trans hF)
      (hok e (List.mem_cons_self ..)) (fun d hd => (List.pairwise_append.1 hs).2.2 d hd e (List.mem_cons_self ..)) h3
    have e1 : done ++ e :: r = (done ++ [e]) ++ r := by simp
    rw [e1] at hF hs ⊢
    exact ih h4 hF (fun d hd => hok d (List.mem_cons_of_mem _ hd)) hs h2

/-- Aggregation. -/
theorem aggregate_inv {lp : LpView} {useRhs : List Bool} {n : ℕ} {x : Int → ℚ} {B X F E : ℚ} (hB : 1 ≤ B)
    (hE : E = u * (F + 3 * (B * B))) (hE0 : 0 ≤ E) (hx : ∀ j, |x j| ≤ X) (hbig : F + 2 * (B * B) ≤ 2 ^ 1000)
    {weights : Vec} {a : AggRow} (hF : (weights.entries.length : ℚ) * (B * B + E) ≤ F)
    (hok : ∀ e ∈ weights.entries, WeightOk lp useRhs n B e) (hs : StrictSorted weights.entries)
    (h : aggregateByWeight lp weights useRhs = .ok a) :
    AggInv lp useRhs n x (B * B + E) (n * (E * X) + E) weights.entries a := by
  unfold aggregateByWeight at h
  obtain ⟨a1, h1, h⟩ := Outcome.bind_eq_ok.1 h
  simp only [Outcome.pure_eq, Outcome.ok.injEq] at h
  have h0 : AggInv lp useRhs n x (B * B + E) (n * (E * X) + E) [] {} := by
    refine ⟨⟨List.Pairwise.nil, by simp, by simp, by simp⟩, by simp, rfl, ?_, rfl, rfl, rfl, 0, rfl, isDouble_zero, by simp,
      by simp [eval]⟩
    intro j
    have : val ({} : Vec) j = 0 := rfl
    simp [this]
  have h2 := aggregateLoop_inv hB hE hE0 hx hbig weights.entries h0 (by simpa using hF) hok (by simpa using hs) h1
  rw [List.nil_append] at h2
  subst h
  have c1 : a1.slackCoefs.cleanUpIfNeeded .ieee = a1.slackCoefs := by rw [h2.slacks]; rfl
  have c2 : a1.slackSigns.cleanUpIfNeeded .ieee = a1.slackSigns := by rw [h2.signs]; rfl
  have c3 : a1.sideValues.cleanUpIfNeeded .ieee = a1.sideValues := by rw [h2.sides]; rfl
  rw [c1, c2, c3]
  exact h2

/-! ## Shifting variables -/

/-- The value of the shifted variable. -/
def Shift.point : Shift → ℚ → ℚ
  | .lower lb, x => x - Generator.finPart lb
  | .upper ub, x => Generator.finPart ub - x
  | _, x => x

/-- The bound used is a double of size at most `B`. -/
def Shift.Ok (B : ℚ) : Shift → Prop
  | .lower lb => ∃ q, lb = .fin q ∧ |q| ≤ B
  | .upper ub => ∃ q, ub = .fin q ∧ |q| ≤ B
  | _ => True

/-- The shifted variables. -/
def shifted (lp : LpView) (x : Int → ℚ) (j : Int) : ℚ :=
  match shiftOf lp j with
  | .ok s => s.point (x j)
  | _ => x j

theorem toRhs_step {B R P c r x : ℚ} {s : Shift} (hs : s.Ok B) (hf : s.isFree = false) (hr : |r| ≤ R)
    (hd : IsDouble r) (hP : |c| * B ≤ P) (h1 : 1 ≤ P) (hbig : R + 2 * P ≤ 2 ^ 1000) :
    ∃ z, s.toRhs (.fin c) (.fin r) = .fin z ∧ IsDouble z ∧ |z| ≤ |r| + (P + u * (R + 3 * P)) ∧
      |(Generator.finPart (s.coef (.fin c)) * s.point x - z) - (c * x - r)| ≤ u * (R + 3 * P) := by
  have hu := u_pos
  have hE : 0 ≤ u * (R + 3 * P) := mul_nonneg hu.le (by linarith [(abs_nonneg r).trans hr])
  have key : ∀ q, |q| ≤ B → |c * q| ≤ P := fun q hq => by
    rw [abs_mul]; exact (mul_le_mul_of_nonneg_left hq (abs_nonneg c)).trans hP
  have grow : ∀ q z, |q| ≤ B → |z - (r - c * q)| ≤ u * (R + 3 * P) → |z| ≤ |r| + (P + u * (R + 3 * P)) := by
    intro q z hq hz
    have h2 := key q hq
    have h3 := neg_abs_le r
    have h4 := le_abs_self r
    rw [abs_le] at hz h2 ⊢
    constructor <;> linarith [hz.1, hz.2, h2.1, h2.2]
  cases s with
  | keep => exact ⟨r, rfl, hd, by linarith, by simpa [Shift.coef, Shift.point, Generator.finPart] using hE⟩
  | free => simp [Shift.isFree] at hf
  | lower lb =>
    obtain ⟨q, rfl, hq⟩ := hs
    obtain ⟨z, hz1, hz2, hz3⟩ := acc_sub hr (key q hq) h1 hbig
    refine ⟨z, hz1, hz2, grow q z hq hz3, ?_⟩
    have : (Generator.finPart ((Shift.lower (.fin q)).coef (.fin c)) * (Shift.lower (.fin q)).point x - z) - (c * x - r) =
        -(z - (r - c * q)) := by
      simp only [Shift.coef, Shift.point, Generator.finPart]; ring
    rw [this, abs_neg]
    exact hz3
  | upper ub =>
    obtain ⟨q, rfl, hq⟩ := hs
    obtain ⟨z, hz1, hz2, hz3⟩ := acc_sub hr (key q hq) h1 hbig
    refine ⟨z, hz1, hz2, grow q z hq hz3, ?_⟩
    have : (Generator.finPart ((Shift.upper (.fin q)).coef (.fin c)) * (Shift.upper (.fin q)).point x - z) - (c * x - r) =
        -(z - (r - c * q)) := by
      simp only [Shift.coef, Shift.point, Generator.finPart, Dbl.neg]; ring
    rw [this, abs_neg]
    exact hz3

theorem backRhs_step {B R P c r x : ℚ} {s : Shift} (hs : s.Ok B) (hf : s.isFree = false) (hr : |r| ≤ R)
    (hd : IsDouble r) (hP : |c| * B ≤ P) (h1 : 1 ≤ P) (hbig : R + 2 * P ≤ 2 ^ 1000) :
    ∃ z, s.backRhs (.fin c) (.fin r) = .fin z ∧ IsDouble z ∧ |z| ≤ |r| + (P + u * (R + 3 * P)) ∧
      |(Generator.finPart (s.coef (.fin c)) * x - z) - (c * s.point x - r)| ≤ u * (R + 3 * P) := by
  have hu := u_pos
  have hE : 0 ≤ u * (R + 3 * P) := mul_nonneg hu.le (by linarith [(abs_nonneg r).trans hr])
  have key : ∀ q, |q| ≤ B → |c * q| ≤ P := fun q hq => by
    rw [abs_mul]; exact (mul_le_mul_of_nonneg_left hq (abs_nonneg c)).trans hP
  cases s with
  | keep => exact ⟨r, rfl, hd, by linarith, by simpa [Shift.coef, Shift.point, Generator.finPart] using hE⟩
  | free => simp [Shift.isFree] at hf
  | lower lb =>
    obtain ⟨q, rfl, hq⟩ := hs
    have h2 := key q hq
    obtain ⟨z, hz1, hz2, hz3⟩ := acc_add hr h2 h1 hbig
    refine ⟨z, hz1, hz2, ?_, ?_⟩
    · have h3 := neg_abs_le r
      have h4 := le_abs_self r
      rw [abs_le] at hz3 h2 ⊢
      constructor <;> linarith [hz3.1, hz3.2, h2.1, h2.2]
    · have : (Generator.finPart ((Shift.lower (.fin q)).coef (.fin c)) * x - z) - (c * (Shift.lower (.fin q)).point x - r) =
          -(z - (r + c * q)) := by
        simp only [Shift.coef, Shift.point, Generator.finPart]; ring
      rw [this, abs_neg]
      exact hz3
  | upper ub =>
    obtain ⟨q, rfl, hq⟩ := hs
    have h2 := key q hq
    obtain ⟨z, hz1, hz2, hz3⟩ := acc_sub hr h2 h1 hbig
    refine ⟨z, hz1, hz2, ?_, ?_⟩
    · have h3 := neg_abs_le r
      have h4 := le_abs_self r
      rw [abs_le] at hz3 h2 ⊢
      constructor <;> linarith [hz3.1, hz3.2, h2.1, h2.2]
    · have : (Generator.finPart ((Shift.upper (.fin q)).coef (.fin c)) * x - z) - (c * (Shift.upper (.fin q)).point x - r) =
          -(z - (r - c * q)) := by
        simp only [Shift.coef, Shift.point, Generator.finPart, Dbl.neg]; ring
      rw [this, abs_neg]
      exact hz3

/-- The coefficients after shifting. -/
def shiftedEntries (lp : LpView) (l : List (AEntry Dbl)) : List (AEntry Dbl) :=
  l.map fun e => ⟨e.index, match shiftOf lp e.index with
    | .ok s => s.coef e.value
    | _ => e.value⟩

/-- The loop of the two transformations: `p` and `q` are the values of the variables before and after. -/
theorem shift_loop {lp : LpView} {change : Dbl → Shift → Dbl → Dbl} {p q : Int → ℚ} {R G E : ℚ} (hG : 0 ≤ G)
    (l : List (AEntry Dbl)) (hstep : ∀ e ∈ l, ∀ s, shiftOf lp e.index = .ok s → s.isFree = false → ∀ r, IsDouble r →
      |r| ≤ R → ∃ z, change e.value s (.fin r) = .fin z ∧ IsDouble z ∧ |z| ≤ |r| + G ∧
        |(Generator.finPart (s.coef e.value) * q e.index - z) - (Generator.finPart e.value * p e.index - r)| ≤ E) :
    ∀ {r : ℚ} {l' : List (AEntry Dbl)} {r' : Dbl}, IsDouble r → |r| + l.length * G ≤ R →
    shiftEntries lp change l (.fin r) = .ok (l', r', true) →
    ∃ z, r' = .fin z ∧ IsDouble z ∧ |z| ≤ |r| + l.length * G ∧ l' = shiftedEntries lp l ∧
      (∀ e ∈ l, ∃ s, shiftOf lp e.index = .ok s ∧ s.isFree = false) ∧
      |(eval l' q - z) - (eval l p - r)| ≤ l.length * E := by
  induction l with
  | nil =>
    intro r l' r' hd _ h
    simp only [shiftEntries, Outcome.ok.injEq, Prod.mk.injEq] at h
    obtain ⟨rfl, rfl, -⟩ := h
    exact ⟨r, rfl, hd, by simp, rfl, by simp, by simp [eval]⟩
  | cons e l ih =>
    intro r l' r' hd hR h
    simp only [shiftEntries] at h
    obtain ⟨s, hs, h⟩ := Outcome.bind_eq_ok.1 h
    obtain ⟨⟨l1, r1, ok⟩, h1, h⟩ := Outcome.bind_eq_ok.1 h
    simp only [Outcome.pure_eq, Outcome.ok.injEq, Prod.mk.injEq] at h
    obtain ⟨rfl, rfl, hok⟩ := h
    rw [Bool.and_eq_true] at hok
    obtain ⟨hf, rfl⟩ := hok
    have hf : s.isFree = false := by simpa using hf
    have hlen : ((e :: l).length : ℚ) = l.length + 1 := by simp
    rw [hlen] at hR ⊢
    have hl0 : 0 ≤ (l.length : ℚ) * G := mul_nonneg (Nat.cast_nonneg _) hG
    obtain ⟨z, hz1, hz2, hz3, hz4⟩ := hstep e (List.mem_cons_self ..) s hs hf r hd (by linarith)
    rw [hz1] at h1
    obtain ⟨y, hy1, hy2, hy3, hy4, hy5, hy6⟩ := ih (fun d hd => hstep d (List.mem_cons_of_mem _ hd)) hz2 (by linarith) h1
    refine ⟨y, hy1, hy2, by linarith, ?_, ?_, ?_⟩
    · rw [hy4]
      simp [shiftedEntries, hs]
    · intro d hd
      rcases List.mem_cons.1 hd with rfl | hd
      exacts [⟨s, hs, hf⟩, hy5 d hd]
    · rw [eval_cons, eval_cons]
      simp only
      rw [abs_le] at hz4 hy6 ⊢
      constructor <;> linarith [hz4.1, hz4.2, hy6.1, hy6.2]

theorem coef_neg_or (s : Shift) (v : Dbl) : s.coef v = v ∨ s.coef v = v.neg := by
  cases s <;> simp [Shift.coef]

theorem shiftedEntries_coef (lp : LpView) (l : List (AEntry Dbl)) : ∀ e ∈ shiftedEntries lp l, ∃ d ∈ l,
    e.index = d.index ∧ (e.value = d.value ∨ e.value = d.value.neg) := by
  intro e he
  obtain ⟨d, hd, rfl⟩ := List.mem_map.1 he
  refine ⟨d, hd, rfl, ?_⟩
  simp only
  cases shiftOf lp d.index <;> first | exact coef_neg_or _ _ | exact Or.inl rfl

/-- A list of entries over the columns below `n`, with doubles of size at most `C`. -/
structure IsList (n : ℕ) (C : ℚ) (l : List (AEntry Dbl)) : Prop where
  sorted : StrictSorted l
  nonneg : ∀ e ∈ l, 0 ≤ e.index
  cols : ∀ e ∈ l, e.index < n
  double : ∀ e ∈ l, ∃ q, e.value = .fin q ∧ IsDouble q ∧ |q| ≤ C

theorem IsList.isRow {n : ℕ} {C : ℚ} {l : List (AEntry Dbl)} (h : IsList n C l) (d : Bool) : IsRow n ⟨l, d⟩ :=
  ⟨h.sorted, h.nonneg, h.cols, fun e he => by
    obtain ⟨q, h1, h2, -⟩ := h.double e he
    exact ⟨q, h1, h2⟩⟩

theorem IsList.val_le {n : ℕ} {C : ℚ} {l : List (AEntry Dbl)} (h : IsList n C l) (hC : 0 ≤ C) (d : Bool) (j : Int) :
    |val ⟨l, d⟩ j| ≤ C := by
  have h1 := AVector.value_eq_lookup .ieee (v := ⟨l, d⟩) h.sorted j
  simp only at h1
  cases hl : lookup l j with
  | none =>
    rw [hl] at h1
    rw [val, h1]
    simpa [Arith.ieee, Generator.finPart] using hC
  | some x =>
    rw [hl] at h1
    obtain ⟨q, hq, -, hc⟩ := h.double _ (AVector.lookup_mem hl)
    simp only at hq
    rw [val, h1, hq]
    exact hc

theorem IsRow.isList {n : ℕ} {C : ℚ} {v : Vec} (h : IsRow n v) (hC : ∀ j, |val v j| ≤ C) : IsList n C v.entries :=
  ⟨h.sorted, h.nonneg, h.cols, fun e he => by
    obtain ⟨q, h1, h2⟩ := h.double e he
    refine ⟨q, h1, h2, ?_⟩
    have := hC e.index
    rw [val, value_of_mem h.sorted he, h1] at this
    exact this⟩

theorem IsList.filter {n : ℕ} {C : ℚ} {l : List (AEntry Dbl)} (h : IsList n C l) (p : AEntry Dbl → Bool) :
    IsList n C (l.filter p) :=
  ⟨h.sorted.filter _, fun e he => h.nonneg e (List.mem_filter.1 he).1, fun e he => h.cols e (List.mem_filter.1 he).1,
    fun e he => h.double e (List.mem_filter.1 he).1⟩

theorem IsList.shifted {n : ℕ} {C : ℚ} {l : List (AEntry Dbl)} (h : IsList n C l) (lp : LpView) :
    IsList n C (shiftedEntries lp l) := by
  refine ⟨AVector.map_strictSorted h.sorted _ fun _ => rfl, ?_, ?_, ?_⟩ <;> intro e he <;>
    obtain ⟨d, hd, h1, h2⟩ := shiftedEntries_coef lp l e he
  · rw [h1]; exact h.nonneg d hd
  · rw [h1]; exact h.cols d hd
  · obtain ⟨q, hq, hqd, hqC⟩ := h.double d hd
    rcases h2 with h2 | h2
    · exact ⟨q, h2.trans hq, hqd, hqC⟩
    · exact ⟨-q, by rw [h2, hq]; rfl, hqd.neg, by rwa [abs_neg]⟩

theorem IsList.length {n : ℕ} {C : ℚ} {l : List (AEntry Dbl)} (h : IsList n C l) : l.length ≤ n :=
  (h.isRow false).length

/-- All bounds that are used for shifting are doubles of size at most `B`. -/
def ShiftsOk (lp : LpView) (B : ℚ) : Prop := ∀ j s, shiftOf lp j = .ok s → s.Ok B

/-- The transformation to non-negative variables. -/
theorem toNonNegative_spec {lp : LpView} {a a' : AggRow} {n : ℕ} {x : Int → ℚ} {B C P R r : ℚ} (hlp : ShiftsOk lp B)
    (hB : 0 ≤ B) (hl : IsList n C a.vars.entries) (hr : a.rhs = .fin r) (hd : IsDouble r) (hP : C * B ≤ P) (h1 : 1 ≤ P)
    (hR0 : 0 ≤ R) (hR : |r| + n * (P + u * (R + 3 * P)) ≤ R) (hbig : R + 2 * P ≤ 2 ^ 1000)
    (h : toNonNegative lp a = .ok (a', true)) :
    ∃ z, a'.rhs = .fin z ∧ IsDouble z ∧ |z| ≤ R ∧ IsList n C a'.vars.entries ∧
      a'.slackCoefs = a.slackCoefs ∧ a'.slackSigns = a.slackSigns ∧ a'.sideValues = a.sideValues ∧
      (∀ e ∈ a'.vars.entries, ∃ s, shiftOf lp e.index = .ok s ∧ s.isFree = false) ∧
      |(eval a'.vars.entries (shifted lp x) - z) - (eval a.vars.entries x - r)| ≤ n * (u * (R + 3 * P)) := by
  unfold toNonNegative shiftRow at h
  obtain ⟨⟨l, r', ok⟩, h2, h⟩ := Outcome.bind_eq_ok.1 h
  simp only [Outcome.pure_eq, Outcome.ok.injEq, Prod.mk.injEq] at h
  obtain ⟨h, rfl⟩ := h
  rw [hr] at h2
  have hlen : (a.vars.entries.length : ℚ) ≤ n := by exact_mod_cast hl.length
  have hE : 0 ≤ u * (R + 3 * P) := mul_nonneg u_pos.le (by linarith)
  have hG : 0 ≤ P + u * (R + 3 * P) := by linarith
  have hle := mul_le_mul_of_nonneg_right hlen hG
  obtain ⟨z, hz1, hz2, hz3, hz4, hz5, hz6⟩ := shift_loop (p := x) (q := shifted lp x) (E := u * (R + 3 * P)) hG a.vars.entries
    (fun e he s hs hf r hrd hrR => by
      obtain ⟨c, hc, -, hcC⟩ := hl.double e he
      have h3 := toRhs_step (x := x e.index) (hlp _ s hs) hf hrR hrd ((mul_le_mul_of_nonneg_right hcC hB).trans hP) h1 hbig
      have h4 : shifted lp x e.index = s.point (x e.index) := by rw [shifted, hs]
      rw [hc, h4]
      exact h3) hd (by linarith) h2
  subst h
  refine ⟨z, hz1, hz2, by linarith, ?_, rfl, rfl, rfl, ?_, ?_⟩
  · rw [hz4]
    exact (hl.shifted lp).filter _
  · intro e he
    rw [hz4] at he
    obtain ⟨d, hd, h3, -⟩ := shiftedEntries_coef lp _ e (List.mem_filter.1 he).1
    rw [h3]
    exact hz5 d hd
  · simp only
    rw [eval_filter]
    exact hz6.trans (mul_le_mul_of_nonneg_right hlen hE)

/-- The transformation back. -/
theorem toOriginal_spec {lp : LpView} {a a' : AggRow} {n : ℕ} {x : Int → ℚ} {B C P R r : ℚ} (hlp : ShiftsOk lp B)
    (hB : 0 ≤ B) (hl : IsList n C a.vars.entries) (hr : a.rhs = .fin r) (hd : IsDouble r) (hP : C * B ≤ P) (h1 : 1 ≤ P)
    (hR0 : 0 ≤ R) (hR : |r| + n * (P + u * (R + 3 * P)) ≤ R) (hbig : R + 2 * P ≤ 2 ^ 1000)
    (h : toOriginal lp a = .ok (a', true)) :
    ∃ z, a'.rhs = .fin z ∧ IsDouble z ∧ |z| ≤ R ∧ IsList n C a'.vars.entries ∧
      a'.slackCoefs = a.slackCoefs ∧ a'.slackSigns = a.slackSigns ∧ a'.sideValues = a.sideValues ∧
      (∀ e ∈ a'.vars.entries, ∃ s, shiftOf lp e.index = .ok s ∧ s.isFree = false) ∧
      |(eval a'.vars.entries x - z) - (eval a.vars.entries (shifted lp x) - r)| ≤ n * (u * (R + 3 * P)) := by
  unfold toOriginal shiftRow at h
  obtain ⟨⟨l, r', ok⟩, h2, h⟩ := Outcome.bind_eq_ok.1 h
  simp only [Outcome.pure_eq, Outcome.ok.injEq, Prod.mk.injEq] at h
  obtain ⟨h, rfl⟩ := h
  rw [hr] at h2
  have hlen : (a.vars.entries.length : ℚ) ≤ n := by exact_mod_cast hl.length
  have hE : 0 ≤ u * (R + 3 * P) := mul_nonneg u_pos.le (by linarith)
  have hG : 0 ≤ P + u * (R + 3 * P) := by linarith
  have hle := mul_le_mul_of_nonneg_right hlen hG
  obtain ⟨z, hz1, hz2, hz3, hz4, hz5, hz6⟩ := shift_loop (p := shifted lp x) (q := x) (E := u * (R + 3 * P)) hG a.vars.entries
    (fun e he s hs hf r hrd hrR => by
      obtain ⟨c, hc, -, hcC⟩ := hl.double e he
      have h3 := backRhs_step (x := x e.index) (hlp _ s hs) hf hrR hrd ((mul_le_mul_of_nonneg_right hcC hB).trans hP) h1 hbig
      have h4 : shifted lp x e.index = s.point (x e.index) := by rw [shifted, hs]
      rw [hc, h4]
      exact h3) hd (by linarith) h2
  subst h
  refine ⟨z, hz1, hz2, by linarith, ?_, rfl, rfl, rfl, ?_, ?_⟩
  · rw [hz4]
    exact (hl.shifted lp).filter _
  · intro e he
    rw [hz4] at he
    obtain ⟨d, hd, h3, -⟩ := shiftedEntries_coef lp _ e (List.mem_filter.1 he).1
    rw [h3]
    exact hz5 d hd
  · simp only
    rw [eval_filter]
    exact hz6.trans (mul_le_mul_of_nonneg_right hlen hE)

/-! ## Substituting slacks -/

theorem scaled_step {n : ℕ} {v w : Vec} (hv : IsRow n v) (hw : IsRow n w) {f F P : ℚ} (hF : ∀ j, |val v j| ≤ F)
    (hP : ∀ j, |val w j * f| ≤ P) (h1 : 1 ≤ P) (hbig : F + 4 * P ≤ 2 ^ 1000) :
    ∃ r, v.addMultiple .ieee (.fin (-1)) (w.scale .ieee (.fin f)) = .ok r ∧ IsRow n r ∧
      (∀ e ∈ r.entries, Arith.ieee.isZero e.value = false) ∧
      (∀ j, |val r j| ≤ |val v j| + (P + u * (F + 7 * P))) ∧
      ∀ j, |val r j - (val v j + (-f) * val w j)| ≤ u * (F + 7 * P) := by
  have hu := u_pos
  have hu1 := u_le_one
  have hF0 : 0 ≤ F := (abs_nonneg _).trans (hF 0)
  obtain ⟨hs1, hs2⟩ := scale_row hw hP h1 (le_trans (by linarith) hbig)
  obtain ⟨r, hr1, hr2, -, hr4, hr5⟩ := addMultiple_row (s := -1) (P := 2 * P) hv hs1 hF (fun j => by
    have h2 := hs2 j
    have h3 := hP j
    have h4 : u * P ≤ P := by nlinarith
    rw [mul_neg_one, abs_neg]
    rw [abs_le] at h2 h3 ⊢
    constructor <;> linarith [h2.1, h2.2, h3.1, h3.2]) (by linarith) (le_trans (by linarith) hbig)
  have key : ∀ j, |val r j - (val v j + (-f) * val w j)| ≤ u * (F + 7 * P) := by
    intro j
    have h2 := hs2 j
    have h3 := hr5 j
    have e1 : u * (F + 7 * P) = u * (F + 3 * (2 * P)) + u * P := by ring
    rw [e1]
    rw [abs_le] at h2 h3 ⊢
    constructor <;> linarith [h2.1, h2.2, h3.1, h3.2]
  refine ⟨r, hr1, hr2, hr4, fun j => ?_, key⟩
  have h2 := key j
  have h3 := hP j
  have h4 := neg_abs_le (val v j)
  have h5 := le_abs_self (val v j)
  rw [abs_le] at h2 h3 ⊢
  constructor <;> linarith [h2.1, h2.2, h3.1, h3.2]

/-- The loop over the slacks. -/
theorem substitute_loop {lp : LpView} {useRhs : List Bool} {signs sides : Vec} {n : ℕ} {x : Int → ℚ} {B X S P F R : ℚ}
    (h1 : 1 ≤ P) (hX : ∀ j, |x j| ≤ X) (hSB : S * B ≤ P) (hS : 0 ≤ S) (hF0 : 0 ≤ F) (hR0 : 0 ≤ R)
    (hbigF : F + 4 * P ≤ 2 ^ 1000) (hbigR : R + 2 * P ≤ 2 ^ 1000)
    (l : List (AEntry Dbl)) (hl : ∀ e ∈ l, (∃ s, e.value = .fin s ∧ IsDouble s ∧ |s| ≤ S) ∧
      signs.value .ieee e.index = .fin (sgn useRhs e.index) ∧
      (∃ b, sideOf lp useRhs e.index = .fin b ∧ sides.value .ieee e.index = .fin b ∧ |b| ≤ B) ∧
      IsRow n (rowOf lp e.index) ∧ ∀ j, |val (rowOf lp e.index) j| ≤ B) :
    ∀ {v v' : Vec} {r : ℚ} {r' : Dbl}, IsRow n v → IsDouble r →
    (∀ j, |val v j| + l.length * (P + u * (F + 7 * P)) ≤ F) → |r| + l.length * (P + u * (R + 3 * P)) ≤ R →
    substituteLoop lp signs sides l v (.fin r) = .ok (v', r') →
    ∃ z, r' = .fin z ∧ IsDouble z ∧ IsRow n v' ∧
      |(eval v'.entries x - z) - (eval v.entries x + eval l (slackOf lp useRhs x) - r)| ≤
        l.length * (n * (u * (F + 7 * P) * X) + u * (R + 3 * P)) := by
  have hu := u_pos
  have hEF : 0 ≤ u * (F + 7 * P) := mul_nonneg hu.le (by linarith)
  have hER : 0 ≤ u * (R + 3 * P) := mul_nonneg hu.le (by linarith)
  induction l with
  | nil =>
    intro v v' r r' hv hd _ _ h
    simp only [substituteLoop, Outcome.ok.injEq, Prod.mk.injEq] at h
    obtain ⟨rfl, rfl⟩ := h
    exact ⟨r, rfl, hd, hv, by simp [eval]⟩
  | cons e l ih =>
    intro v v' r r' hv hd hcapF hcapR h
    obtain ⟨⟨s, hs, hsd, hsS⟩, hsg, ⟨b, hb1, hb2, hbB⟩, hrow, hcoef⟩ := hl e (List.mem_cons_self ..)
    simp only [substituteLoop] at h
    obtain ⟨row, hr1, h⟩ := Outcome.bind_eq_ok.1 h
    have hrr : rowOf lp e.index = row := listAt_getD hr1 {}
    rw [hrr] at hrow hcoef
    rw [hsg, hs, mul_sign useRhs e.index hsd] at h
    set f := sgn useRhs e.index * s with hf
    have hfS : |f| ≤ S := by rw [hf, abs_mul, abs_sgn, one_mul]; exact hsS
    obtain ⟨v1, hv1, h⟩ := Outcome.bind_eq_ok.1 h
    have hlen : ((e :: l).length : ℚ) = l.length + 1 := by simp
    rw [hlen] at hcapR ⊢
    simp only [hlen] at hcapF
    have hl0 : 0 ≤ (l.length : ℚ) := Nat.cast_nonneg _
    have hlF : 0 ≤ (l.length : ℚ) * (P + u * (F + 7 * P)) := mul_nonneg hl0 (by linarith)
    have hlR : 0 ≤ (l.length : ℚ) * (P + u * (R + 3 * P)) := mul_nonneg hl0 (by linarith)
    obtain ⟨w, hw1, hw2, -, hw3, hw4⟩ := scaled_step hv hrow (f := f) (F := F) (P := P) (fun j => by linarith [hcapF j])
      (fun j => by
        rw [abs_mul, mul_comm]
        exact (mul_le_mul hfS (hcoef j) (abs_nonneg _) hS).trans hSB) h1 hbigF
    rw [hw1, Outcome.ok.injEq] at hv1
    subst hv1
    have hfb : |f * b| ≤ P := by
      rw [abs_mul]
      exact (mul_le_mul hfS hbB (abs_nonneg _) hS).trans hSB
    obtain ⟨y, hy1, hy2, hy3⟩ := acc_sub (r := r) (R := R) (by linarith) hfb h1 hbigR
    rw [hb2, hy1] at h
    have hyr : |y| ≤ |r| + (P + u * (R + 3 * P)) := by
      have h4 := neg_abs_le r
      have h5 := le_abs_self r
      rw [abs_le] at hy3 hfb ⊢
      constructor <;> linarith [hy3.1, hy3.2, hfb.1, hfb.2]
    obtain ⟨z, hz1, hz2, hz3, hz4⟩ := ih (fun d hd => hl d (List.mem_cons_of_mem _ hd)) hw2 hy2
      (fun j => by linarith [hcapF j, hw3 j]) (by linarith) h
    refine ⟨z, hz1, hz2, hz3, ?_⟩
    have h6 := eval_close hw2 hv hrow hw4 hX
    have h7 : eval (e :: l) (slackOf lp useRhs x) = f * (b - eval row.entries x) + eval l (slackOf lp useRhs x) := by
      rw [eval_cons, hs, slackOf, hb1, hrr, hf]
      simp only [Generator.finPart]
      ring
    rw [h7]
    have e1 : f * (b - eval row.entries x) = f * b - f * eval row.entries x := by ring
    rw [e1]
    rw [abs_le] at hz4 h6 hy3 ⊢
    constructor <;> linarith [hz4.1, hz4.2, h6.1, h6.2, hy3.1, hy3.2]

/-! ## The size of the rounded coefficients -/

theorem isDouble_round {y z : ℚ} (h : round y = .fin z) : IsDouble z := by
  have := AVector.proper_round y
  rw [h] at this
  exact this

theorem mirInteger_size {tol a f0 : ℚ} (ht0 : 0 ≤ tol) (ha : IsDouble a) (hf : Rep f0) (h0 : 0 ≤ f0) (h1 : f0 < 1) :
    ∃ r, mirRoundInteger (.fin tol) (.fin a) (.fin f0) = .fin r ∧ IsDouble r ∧ |r| ≤ 4 * (|a| + 1) := by
  have hy : 0 < 1 - f0 := by linarith
  have hfl := Int.floor_le a
  have hfl' := Int.lt_floor_add_one a
  have hc1 := Int.le_ceil a
  have hc2 := Int.ceil_lt_add_one a
  have habs := le_abs_self a
  have habs' := neg_abs_le a
  have hF : |(⌊a⌋ : ℚ)| ≤ |a| + 1 := by rw [abs_le]; constructor <;> linarith
  unfold mirRoundInteger
  simp only [fractionality_fin ha, floorWithTolerance_fin ha]
  by_cases hi : ∃ n : ℤ, |a - n| ≤ tol
  · simp only [if_pos hi, if_pos ((Dbl.le_fin 0 f0).2 h0)]
    refine ⟨_, rfl, ha.roundAway, ?_⟩
    rcases roundAway_cases a with h | h <;> rw [h, abs_le] <;> constructor <;> linarith
  · simp only [if_neg hi]
    set fj := rnd (a - ⌊a⌋) with hfj
    by_cases hle : fj ≤ f0
    · rw [if_pos ((Dbl.le_fin _ _).2 hle)]
      exact ⟨_, rfl, ha.floor, by linarith⟩
    · rw [if_neg (by rw [Dbl.le_fin]; exact hle)]
      push Not at hle
      have hfj1 : fj ≤ 1 := by
        have := rnd_mono (x := a - ⌊a⌋) (y := 1) (by linarith)
        rwa [rnd_rep rep_one] at this
      obtain ⟨q, hq, hqr, hq0, hqle⟩ := quotient_bound hf h0 h1 (rep_rnd (a - ⌊a⌋)) hle hfj1
      rw [hq, add_fin]
      have hu := u_pos
      have hu' : u ≤ 1 / 100 := by unfold u; norm_num
      have hz1 : (fj - f0) / (1 - f0) ≤ 1 := by rw [div_le_one hy]; linarith
      have ha53 : |a| ≤ 2 ^ 53 := by
        rcases ha.1.cases with ⟨n, rfl⟩ | ⟨h2, -⟩
        · exact absurd ⟨n, by simpa using ht0⟩ hi
        · exact h2.trans (by norm_num)
      have hsum : |(⌊a⌋ : ℚ) + q| ≤ |a| + 3 := by
        refine (abs_add_le _ _).trans ?_
        rw [abs_of_nonneg hq0]
        linarith
      have hbig : |(⌊a⌋ : ℚ) + q| ≤ 2 ^ 1000 := by
        refine hsum.trans (le_trans ?_ (big_mono (n := 54) (by norm_num)))
        norm_num at ha53 ⊢
        linarith
      refine ⟨_, round_fin hbig, isDouble_round (round_fin hbig), ?_⟩
      have hrnd := rnd_add_error (ha.1.floor) hqr
      have h5 : u * |(⌊a⌋ : ℚ) + q| ≤ u * (|a| + 3) := mul_le_mul_of_nonneg_left hsum hu.le
      have h6 : |rnd (⌊a⌋ + q)| ≤ |rnd (⌊a⌋ + q) - (⌊a⌋ + q)| + |(⌊a⌋ : ℚ) + q| := by
        have := abs_add_le (rnd (⌊a⌋ + q) - (⌊a⌋ + q)) (⌊a⌋ + q)
        rwa [sub_add_cancel] at this
      have := abs_nonneg a
      nlinarith

theorem mirContinuous_size {a f0 : ℚ} (ha : |a| ≤ 2 ^ 900) (hf : Rep f0) (h0 : 0 ≤ f0) (h1 : f0 < 1) :
    ∃ r, mirRoundContinuous (.fin a) (.fin f0) = .fin r ∧ IsDouble r ∧ |r| ≤ 4 * (|a| + 1) / (1 - f0) := by
  have hy : 0 < 1 - f0 := by linarith
  unfold mirRoundContinuous
  by_cases hs : 0 ≤ a
  · rw [if_pos ((Dbl.le_fin _ _).2 hs)]
    refine ⟨0, rfl, isDouble_zero, ?_⟩
    rw [abs_zero]
    exact div_nonneg (by have := abs_nonneg a; linarith) hy.le
  · rw [if_neg (by rw [Dbl.le_fin]; exact hs)]
    have hu := u_pos
    have hu' : u ≤ 1 / 100 := by unfold u; norm_num
    obtain ⟨d, hd, hd1, hd2⟩ := denominator hf h0 h1
    have hdpos : 0 < d := lt_of_lt_of_le (mul_pos hy (by linarith)) hd1
    have hY := hf.one_sub h0 h1
    have hz0 : 0 ≤ |a| / (1 - f0) := div_nonneg (abs_nonneg a) hy.le
    have h3 : |a| / (1 - f0) ≤ 2 ^ 953 := by
      have h3 : |a| / (1 - f0) ≤ 2 ^ 900 / u := div_le_div₀ (pow_nonneg (by norm_num) _) ha hu hY
      have h4 : ∀ n : ℕ, (2 : ℚ) ^ n / u = 2 ^ (n + 53) := by
        intro n
        unfold u
        rw [div_div_eq_mul_div, div_one, ← pow_add]
      exact h3.trans (h4 900).le
    clear ha
    have habs : |a / d| ≤ 2 * (|a| / (1 - f0)) := by
      rw [abs_div, abs_of_pos hdpos, div_le_iff₀ hdpos]
      have e1 : |a| / (1 - f0) * (1 - f0) = |a| := div_mul_cancel₀ _ hy.ne'
      generalize |a| / (1 - f0) = z at hz0 e1
      have h2 : 2 * z * ((1 - f0) * (1 - u)) ≤ 2 * z * d := mul_le_mul_of_nonneg_left hd1 (by linarith)
      refine le_trans ?_ h2
      have h5 : 0 ≤ z * (1 - f0) := mul_nonneg hz0 hy.le
      nlinarith
    have hbig : |a / d| ≤ 2 ^ 1000 := by
      refine habs.trans ?_
      calc 2 * (|a| / (1 - f0)) ≤ 2 * 2 ^ 953 := mul_le_mul_of_nonneg_left h3 (by norm_num)
        _ = 2 ^ 954 := by rw [← pow_succ']
        _ ≤ 2 ^ 1000 := big_mono (by norm_num)
    clear h3
    refine ⟨rnd (a / d), by rw [hd, div_fin hdpos.ne', round_fin hbig], isDouble_round (round_fin hbig), ?_⟩
    have herr := rnd_error (a / d)
    clear hbig
    have hmax : max (u * |a / d|) eta ≤ |a| / (1 - f0) + 1 := by
      refine max_le ?_ (eta_le_u.trans (by linarith))
      have h5 : u * |a / d| ≤ 1 / 100 * (2 * (|a| / (1 - f0))) := mul_le_mul hu' habs (abs_nonneg _) (by norm_num)
      linarith
    have h6 : |rnd (a / d)| ≤ |rnd (a / d) - a / d| + |a / d| := by
      have := abs_add_le (rnd (a / d) - a / d) (a / d)
      rwa [sub_add_cancel] at this
    have hD : 1 ≤ 1 / (1 - f0) := by rw [le_div_iff₀ hy]; linarith
    have e4 : 4 * (|a| + 1) / (1 - f0) = 4 * (|a| / (1 - f0)) + 4 * (1 / (1 - f0)) := by ring
    rw [e4]
    linarith

theorem mirCoef_size {tol f0 q : ℚ} (ht : 0 ≤ tol) (hf : Rep f0) (h0 : 0 ≤ f0) (h1 : f0 < 1) (int : Bool)
    (hq : IsDouble q) (hb : |q| ≤ 2 ^ 900) :
    ∃ r, mirCoef tol int f0 (.fin q) = .fin r ∧ IsDouble r ∧ |r| ≤ 4 * (|q| + 1) / (1 - f0) := by
  cases int with
  | true =>
    obtain ⟨r, h2, h3, h4⟩ := mirInteger_size ht hq hf h0 h1
    refine ⟨r, by simpa [mirCoef] using h2, h3, h4.trans ?_⟩
    rw [le_div_iff₀ (by linarith)]
    have := abs_nonneg q
    nlinarith
  | false =>
    obtain ⟨r, h2, h3, h4⟩ := mirContinuous_size hb hf h0 h1
    exact ⟨r, by simpa [mirCoef] using h2, h3, h4⟩

/-- The rounded coefficients of a list. -/
theorem IsList.mir {n : ℕ} {C D : ℚ} {l : List (AEntry Dbl)} (h : IsList n C l) {tol f0 : ℚ} (ht : 0 ≤ tol) (hf : Rep f0)
    (h0 : 0 ≤ f0) (h1 : f0 < 1) (hC : C ≤ 2 ^ 900) (hD : 4 * (C + 1) / (1 - f0) ≤ D) (int : Int → Bool) :
    IsList n D (l.map fun e => ⟨e.index, mirCoef tol (int e.index) f0 e.value⟩) := by
  refine ⟨AVector.map_strictSorted h.sorted _ fun _ => rfl, ?_, ?_, ?_⟩ <;> intro e he <;>
    obtain ⟨d, hd, rfl⟩ := List.mem_map.1 he
  · exact h.nonneg d hd
  · exact h.cols d hd
  · obtain ⟨q, hq, hqd, hqC⟩ := h.double d hd
    obtain ⟨r, h2, h3, h4⟩ := mirCoef_size ht hf h0 h1 (int d.index) hqd (hqC.trans hC)
    refine ⟨r, by simp only; rw [hq, h2], h3, h4.trans (le_trans ?_ hD)⟩
    exact div_le_div_of_nonneg_right (by linarith) (by linarith)

end Ieee
end MiniMip
