import Verif.Model.IeeeSelector
import Verif.Lemmas.IeeeAggregate
import Mathlib.Analysis.Real.Sqrt

/-!
# Rounding errors of the measures of cuts
-/

namespace MiniMip
namespace Ieee

open AVector (StrictSorted Clean lookup Proper matched toRat)

theorem pow_one_add_u (k : ℕ) (hk : 2 * ((k : ℚ) * u) ≤ 1) : (1 + u) ^ k ≤ 1 + 2 * (k * u) := by
  have hu := u_pos.le
  induction k with
  | zero => simp
  | succ k ih =>
    push_cast at hk ⊢
    have h1 : 2 * ((k : ℚ) * u) ≤ 1 := by nlinarith
    have h2 : (1 + u) ^ k * (1 + u) ≤ (1 + 2 * (k * u)) * (1 + u) := mul_le_mul_of_nonneg_right (ih h1) (by linarith)
    rw [pow_succ]
    refine h2.trans ?_
    have : 2 * ((k : ℚ) * u) * u ≤ 1 * u := mul_le_mul_of_nonneg_right h1 hu
    nlinarith

/-! ## The dot product -/

theorem matched_sum {n : ℕ} {v w : Vec} (hv : IsRow n v) (hw : IsRow n w) (g : ℚ → ℚ) (hg : g 0 = 0) :
    ((matched v.entries w.entries).map fun ab => g (toRat ab.1 * toRat ab.2)).sum =
      ∑ j ∈ Finset.range n, g (val v j * val w j) := by
  have h := AVector.sum_matched g hg v.entries w hv.sorted hw.sorted ((Finset.range n).map Nat.castEmbedding)
    (fun e he => by
      rw [Finset.mem_map]
      refine ⟨e.index.toNat, ?_, ?_⟩
      · rw [Finset.mem_range]; have := hv.cols e he; have := hv.nonneg e he; omega
      · show ((e.index.toNat : ℕ) : ℤ) = e.index
        have := hv.nonneg e he
        omega) v.dirty
  rw [h, Finset.sum_map]
  rfl

/-- The pairs of values at common positions are finite. -/
theorem matched_fin {n : ℕ} {v w : Vec} (hv : IsRow n v) (hw : IsRow n w) :
    ∀ ab ∈ matched v.entries w.entries, ∃ a b, ab = (.fin a, .fin b) := by
  intro ab hab
  obtain ⟨e, he, h⟩ := List.mem_filterMap.1 hab
  obtain ⟨y, hy, rfl⟩ := Option.map_eq_some_iff.1 h
  obtain ⟨q, hq, -⟩ := hv.double e he
  obtain ⟨r, hr, -⟩ := hw.double _ (AVector.lookup_mem hy)
  exact ⟨q, r, by rw [hq]; exact Prod.ext rfl hr⟩

/-- Bounds on the error factors. -/
theorem factor_bounds {n : ℕ} (hn : n ≤ 2 ^ 30) :
    (1 + u) ^ (n + 1) - 1 ≤ 2 * (n + 1) * u ∧ (1 + u) ^ n ≤ 2 ∧ (2 * (n : ℚ) + 5) * u ≤ 1 / 2 ^ 20 := by
  have hn' : (n : ℚ) ≤ 2 ^ 30 := by exact_mod_cast hn
  have hu := u_pos.le
  have h3 : (2 * (n : ℚ) + 5) * u ≤ 1 / 2 ^ 20 := by
    have : (2 * (n : ℚ) + 5) * u ≤ (2 * 2 ^ 30 + 5) * u := mul_le_mul_of_nonneg_right (by linarith) hu
    refine this.trans ?_
    unfold u
    norm_num
  have h4 : 2 * (((n + 1 : ℕ) : ℚ) * u) ≤ 1 := by
    push_cast
    have : (1 : ℚ) / 2 ^ 20 ≤ 1 := by norm_num
    nlinarith
  refine ⟨?_, ?_, h3⟩
  · have := pow_one_add_u (n + 1) h4
    push_cast at this
    linarith
  · have h5 : 2 * ((n : ℚ) * u) ≤ 1 := by push_cast at h4; nlinarith
    have := pow_one_add_u n h5
    linarith

theorem eta_small : (2 : ℚ) ^ 31 * eta ≤ 1 := by
  unfold eta
  rw [mul_one_div, div_le_one (by positivity)]
  exact pow_le_pow_right₀ (by norm_num) (by norm_num)

theorem big_room {T : ℚ} (hbig : T ≤ 2 ^ 900) : (2 * T + 1) + 2 * (T + 1) ≤ 2 ^ 1000 := by
  have h1 : (1 : ℚ) ≤ 2 ^ 900 := one_le_pow₀ (by norm_num)
  have h2 : (8 : ℚ) * 2 ^ 900 ≤ 2 ^ 1000 := by
    rw [show (8 : ℚ) * 2 ^ 900 = 2 ^ 903 by rw [show (8 : ℚ) = 2 ^ 3 by norm_num, ← pow_add]]
    exact pow_le_pow_right₀ (by norm_num) (by norm_num)
  generalize (2 : ℚ) ^ 900 = B at *
  generalize (2 : ℚ) ^ 1000 = C at *
  linarith

/-- The sums that a dot product goes through are finite. -/
theorem dot_finite {n : ℕ} (hn : n ≤ 2 ^ 30) {T : ℚ} (hbig : T ≤ 2 ^ 900) (l : List (Dbl × Dbl)) (hlen : l.length ≤ n)
    (hfin : ∀ ab ∈ l, ∃ a b, ab = (.fin a, .fin b)) (hT : (l.map fun ab => |toRat ab.1 * toRat ab.2|).sum ≤ T) :
    ∃ z, l.foldl (fun p ab => add p (mul ab.1 ab.2)) (.fin 0) = .fin z ∧ Rep z ∧
      |z - (l.map fun ab => toRat ab.1 * toRat ab.2).sum| ≤ 2 * (n + 1) * u * T + 2 * n * eta := by
  have hu := u_pos.le
  have heta : 0 ≤ eta := by unfold eta; positivity
  obtain ⟨f1, f2, f3⟩ := factor_bounds hn
  have hn0 : 0 ≤ 2 * ((n : ℚ) + 1) := mul_nonneg zero_le_two (add_nonneg (Nat.cast_nonneg n) zero_le_one)
  induction l using List.reverseRecOn generalizing T with
  | nil =>
    have hT0 : 0 ≤ T := by simpa using hT
    exact ⟨0, rfl, ⟨0, 0, by norm_num, by norm_num, by norm_num⟩, by
      simp only [List.map_nil, List.sum_nil, sub_zero, abs_zero]
      exact add_nonneg (mul_nonneg (mul_nonneg hn0 hu) hT0) (mul_nonneg (mul_nonneg (by norm_num) (Nat.cast_nonneg _)) heta)⟩
  | append_singleton l ab ih =>
    rw [List.length_append, List.length_singleton] at hlen
    obtain ⟨a, b, rfl⟩ := hfin ab (by simp)
    rw [List.map_append, List.sum_append, List.map_singleton, List.sum_singleton] at hT
    have hab : |a * b| ≤ T := by
      have : 0 ≤ (l.map fun ab => |toRat ab.1 * toRat ab.2|).sum :=
        List.sum_nonneg (by intro x hx; obtain ⟨y, -, rfl⟩ := List.mem_map.1 hx; exact abs_nonneg _)
      have h2 : |toRat (Dbl.fin a) * toRat (Dbl.fin b)| = |a * b| := rfl
      linarith
    have hl : (l.map fun ab => |toRat ab.1 * toRat ab.2|).sum ≤ T := by
      have : 0 ≤ |toRat (Dbl.fin a) * toRat (Dbl.fin b)| := abs_nonneg _
      linarith
    have hT0 : 0 ≤ T := (abs_nonneg _).trans hab
    obtain ⟨z, hz, hr, he⟩ := ih hbig (by omega) (fun x hx => hfin x (by simp [hx])) hl
    have hz2 : |z| ≤ 2 * T + 1 := by
      have hs : |(l.map fun ab => toRat ab.1 * toRat ab.2).sum| ≤ T := by
        refine le_trans ?_ hl
        clear hz he hr ih hT hlen hfin hl
        induction l with
        | nil => simp
        | cons x r ih => simp only [List.map_cons, List.sum_cons]; exact (abs_add_le _ _).trans (by linarith)
      have h1 : |z| ≤ |z - (l.map fun ab => toRat ab.1 * toRat ab.2).sum| + |(l.map fun ab => toRat ab.1 * toRat ab.2).sum| := by
        have := abs_add_le (z - (l.map fun ab => toRat ab.1 * toRat ab.2).sum) (l.map fun ab => toRat ab.1 * toRat ab.2).sum
        rwa [sub_add_cancel] at this
      have h2 : 2 * ((n : ℚ) + 1) * u ≤ 1 := by
        have : (1 : ℚ) / 2 ^ 20 ≤ 1 := by norm_num
        nlinarith
      have h3 : 2 * (n : ℚ) * eta ≤ 1 := by
        have h4 : (n : ℚ) ≤ 2 ^ 30 := by exact_mod_cast hn
        have : 2 * (n : ℚ) * eta ≤ 2 ^ 31 * eta := mul_le_mul_of_nonneg_right (by linarith) heta
        exact this.trans eta_small
      have h5 : 2 * ((n : ℚ) + 1) * u * T ≤ 1 * T := mul_le_mul_of_nonneg_right h2 hT0
      linarith
    have hbig' : (2 * T + 1) + 2 * (T + 1) ≤ 2 ^ 1000 := big_room hbig
    obtain ⟨z', hz', -, -⟩ := acc_add (r := z) (c := a) (s := b) hz2 (hab.trans (by linarith : T ≤ T + 1)) (by linarith) hbig'
    have hfold : (l ++ [(Dbl.fin a, Dbl.fin b)]).foldl (fun p ab => add p (mul ab.1 ab.2)) (.fin 0) = .fin z' := by
      rw [List.foldl_append, hz]; exact hz'
    obtain ⟨-, e2⟩ := AVector.dot_error (l ++ [(Dbl.fin a, Dbl.fin b)]) 0 0 0 0 z'
      ⟨0, 0, by norm_num, by norm_num, by norm_num⟩ (by simp) (by simp) hfold
    refine ⟨z', hfold, ?_, ?_⟩
    · obtain ⟨p0, m, -, -, rfl⟩ := add_eq_fin hz'
      exact rep_rnd _
    · rw [zero_add, zero_add, zero_add] at e2
      set k := (l ++ [(Dbl.fin a, Dbl.fin b)]).length with hk
      have hkn : k ≤ n := by rw [hk, List.length_append, List.length_singleton]; exact hlen
      have p1 : (1 + u) ^ (k + 1) ≤ (1 + u) ^ (n + 1) := pow_le_pow_right₀ (by linarith) (by omega)
      have p2 : (1 + u) ^ k ≤ (1 + u) ^ n := pow_le_pow_right₀ (by linarith) hkn
      have p3 : (k : ℚ) ≤ n := by exact_mod_cast hkn
      have hS : ((l ++ [(Dbl.fin a, Dbl.fin b)]).map fun ab => |toRat ab.1 * toRat ab.2|).sum ≤ T := by
        rw [List.map_append, List.sum_append, List.map_singleton, List.sum_singleton]; exact hT
      have hS0 : 0 ≤ ((l ++ [(Dbl.fin a, Dbl.fin b)]).map fun ab => |toRat ab.1 * toRat ab.2|).sum :=
        List.sum_nonneg (by intro x hx; obtain ⟨y, -, rfl⟩ := List.mem_map.1 hx; exact abs_nonneg _)
      refine e2.trans (add_le_add ?_ ?_)
      · exact mul_le_mul (by linarith) hS hS0 (mul_nonneg hn0 hu)
      · refine mul_le_mul_of_nonneg_right ?_ heta
        calc (k : ℚ) * (1 + u) ^ k ≤ n * 2 := mul_le_mul p3 (p2.trans f2) (pow_nonneg (by linarith) _) (Nat.cast_nonneg _)
          _ = 2 * n := by ring

/-- The computed dot product. -/
theorem dot_spec {n : ℕ} (hn : n ≤ 2 ^ 30) {v w : Vec} (hv : IsRow n v) (hw : IsRow n w) {T : ℚ}
    (hT : ∑ j ∈ Finset.range n, |val v j * val w j| ≤ T) (hbig : T ≤ 2 ^ 900) :
    ∃ z, v.dotProduct .ieee w = .fin z ∧ Rep z ∧
      |z - ∑ j ∈ Finset.range n, val v j * val w j| ≤ 2 * (n + 1) * u * T + 2 * n * eta := by
  have e1 := matched_sum hv hw id rfl
  have e2 := matched_sum hv hw (fun x => |x|) (by simp)
  simp only [id] at e1
  have hlen : (matched v.entries w.entries).length ≤ n := (List.length_filterMap_le _ _).trans hv.length
  obtain ⟨z, h1, h2, h3⟩ := dot_finite hn hbig _ hlen (matched_fin hv hw) (by rw [e2]; exact hT)
  refine ⟨z, ?_, h2, by rw [← e1]; exact h3⟩
  unfold AVector.dotProduct
  rw [AVector.dotWalk_eq _ _ _ _ hv.sorted hw.sorted]
  exact h1

/-- The squared norm that the selector computes is the dot product of the row with itself. -/
theorem squaredNorm_eq {v : Vec} (hv : StrictSorted v.entries) :
    Selector.squaredNorm v = v.dotProduct .ieee v := by
  unfold AVector.dotProduct
  rw [AVector.dotWalk_eq _ _ _ _ hv hv]
  have h : matched v.entries v.entries = v.entries.map fun e => (e.value, e.value) := by
    unfold matched
    rw [← List.filterMap_eq_map]
    apply List.filterMap_congr
    intro e he
    rw [lookup_of_mem hv he]
    rfl
  rw [h, List.foldl_map]
  rfl

/-! ## Norms -/

/-- The relative error of a norm. -/
noncomputable def kappa (n : ℕ) : ℝ := (2 * n + 5) * (1 / 2 ^ 53)

theorem kappa_cast (n : ℕ) : kappa n = (((2 * n + 5) * u : ℚ) : ℝ) := by unfold kappa u; push_cast; ring

theorem kappa_bounds {n : ℕ} (hn : n ≤ 2 ^ 30) : 5 / 2 ^ 53 ≤ kappa n ∧ kappa n ≤ 1 / 2 ^ 20 := by
  constructor
  · unfold kappa
    have : (0 : ℝ) ≤ n := Nat.cast_nonneg n
    nlinarith
  · rw [kappa_cast]
    have := (factor_bounds hn).2.2
    have h2 : (((2 * n + 5) * u : ℚ) : ℝ) ≤ ((1 / 2 ^ 20 : ℚ) : ℝ) := Rat.cast_le.2 this
    refine h2.trans (le_of_eq ?_)
    norm_num

theorem sqrt_close {N N' w : ℝ} (hN : 0 < N) (h : |N' - N| ≤ w * N) (hw : w ≤ 1) :
    |Real.sqrt N' - Real.sqrt N| ≤ w * Real.sqrt N := by
  have hN' : 0 ≤ N' := by
    have := abs_le.1 h
    nlinarith
  have hs : 0 < Real.sqrt N := Real.sqrt_pos.2 hN
  have hs' : 0 ≤ Real.sqrt N' := Real.sqrt_nonneg _
  have h1 : (Real.sqrt N' - Real.sqrt N) * (Real.sqrt N' + Real.sqrt N) = N' - N := by
    have a := Real.mul_self_sqrt hN'
    have b := Real.mul_self_sqrt hN.le
    nlinarith
  have h2 : |Real.sqrt N' - Real.sqrt N| * Real.sqrt N ≤ w * Real.sqrt N * Real.sqrt N := by
    have h3 : |Real.sqrt N' - Real.sqrt N| * (Real.sqrt N' + Real.sqrt N) = |N' - N| := by
      rw [← h1, abs_mul, abs_of_pos (show 0 < Real.sqrt N' + Real.sqrt N by linarith)]
    have h4 : |Real.sqrt N' - Real.sqrt N| * Real.sqrt N ≤ |Real.sqrt N' - Real.sqrt N| * (Real.sqrt N' + Real.sqrt N) :=
      mul_le_mul_of_nonneg_left (by linarith) (abs_nonneg _)
    have b := Real.mul_self_sqrt hN.le
    rw [mul_assoc, b]
    linarith
  exact le_of_mul_le_mul_right h2 hs

/-- The square of the length of a row. -/
def normSq (n : ℕ) (v : Vec) : ℚ := ∑ j ∈ Finset.range n, val v j * val v j

/-- The length of a row. -/
noncomputable def norm (n : ℕ) (v : Vec) : ℝ := Real.sqrt (normSq n v)

/-- Rows whose length is not extreme. -/
structure MidRow (n : ℕ) (v : Vec) : Prop where
  row : IsRow n v
  lower : 1 / 2 ^ 400 ≤ normSq n v
  upper : normSq n v ≤ 2 ^ 400

theorem eta_le {N : ℚ} (h : 1 / 2 ^ 900 ≤ N) : 2 ^ 31 * eta ≤ u * N := by
  have h1 : (2 : ℚ) ^ 31 * eta ≤ u * (1 / 2 ^ 900) := by
    unfold eta u
    rw [mul_one_div, div_mul_div_comm, one_mul, ← pow_add, div_le_div_iff₀ (by positivity) (by positivity), one_mul, ← pow_add]
    exact pow_le_pow_right₀ (by norm_num) (by norm_num)
  exact h1.trans (mul_le_mul_of_nonneg_left h u_pos.le)

theorem two_n_eta {n : ℕ} (hn : n ≤ 2 ^ 30) : 2 * (n : ℚ) * eta ≤ 2 ^ 31 * eta := by
  have h4 : (n : ℚ) ≤ 2 ^ 30 := by exact_mod_cast hn
  have heta : 0 ≤ eta := by unfold eta; exact one_div_nonneg.2 (pow_nonneg zero_le_two _)
  exact mul_le_mul_of_nonneg_right (by linarith) heta

theorem MidRow.dotSelf {n : ℕ} (hn : n ≤ 2 ^ 30) {v : Vec} (hv : MidRow n v) :
    ∃ z, v.dotProduct .ieee v = .fin z ∧ Rep z ∧ |z - normSq n v| ≤ (2 * n + 3) * u * normSq n v := by
  obtain ⟨z, h1, h2, h3⟩ := dot_spec hn hv.row hv.row (T := normSq n v)
    (le_of_eq (Finset.sum_congr rfl fun j _ => abs_of_nonneg (mul_self_nonneg _)))
    (hv.upper.trans (pow_le_pow_right₀ (by norm_num) (by norm_num)))
  refine ⟨z, h1, h2, h3.trans ?_⟩
  have h4 := eta_le (le_trans (one_div_le_one_div_of_le (by positivity)
    (pow_le_pow_right₀ (by norm_num) (by norm_num : 400 ≤ 900))) hv.lower : 1 / 2 ^ 900 ≤ normSq n v)
  have h5 := two_n_eta hn
  linarith

theorem le_two_pow_maxFinite {x : ℚ} (h : |x| ≤ 2 ^ 1000) : |x| ≤ maxFinite := by
  refine h.trans ?_
  unfold maxFinite
  rw [show (2 : ℚ) ^ 1000 = 2 ^ 29 * 2 ^ 971 by rw [← pow_add]]
  exact mul_le_mul_of_nonneg_right (by norm_num) (pow_nonneg zero_le_two _)

/-- The square root of a computed number that is nearly `N`. -/
theorem root_spec (s : SqrtCode) {z : ℚ} {N w : ℝ} (hz : Rep z) (hN : 0 < N) (hw : w ≤ 1 / 2 ^ 10) (hw0 : 0 ≤ w)
    (hup : N ≤ 2 ^ 900) (h : |(z : ℝ) - N| ≤ w * N) :
    s.sqrt (.fin z) = .fin (s.root z) ∧ |(s.root z : ℝ) - Real.sqrt N| ≤ (w + 2 * (1 / 2 ^ 53)) * Real.sqrt N := by
  have hz0 : (0 : ℝ) ≤ z := by
    have := abs_le.1 h
    nlinarith
  have hz0' : (0 : ℚ) ≤ z := by exact_mod_cast hz0
  have hd : IsDouble z := by
    refine ⟨hz, le_two_pow_maxFinite ?_⟩
    rw [abs_of_nonneg hz0']
    have h1 : (z : ℝ) ≤ 2 * N := by
      have := abs_le.1 h
      nlinarith
    have h2 : (z : ℝ) ≤ 2 ^ 1000 := by
      refine h1.trans ((mul_le_mul_of_nonneg_left hup zero_le_two).trans ?_)
      rw [← pow_succ']
      exact pow_le_pow_right₀ (by norm_num) (by norm_num)
    exact_mod_cast h2
  refine ⟨?_, ?_⟩
  · show (if z < 0 then Dbl.nan else .fin (s.root z)) = _
    rw [if_neg (not_lt.2 hz0')]
  · have h1 := s.error z hd hz0'
    have h2 := sqrt_close hN h (hw.trans (by norm_num))
    have hs : 0 < Real.sqrt N := Real.sqrt_pos.2 hN
    have h3 : Real.sqrt z ≤ (1 + w) * Real.sqrt N := by
      have := abs_le.1 h2
      linarith
    have h4 : |(s.root z : ℝ) - Real.sqrt N| ≤ |(s.root z : ℝ) - Real.sqrt z| + |Real.sqrt z - Real.sqrt N| := by
      have := abs_add_le ((s.root z : ℝ) - Real.sqrt z) (Real.sqrt z - Real.sqrt N)
      rwa [sub_add_sub_cancel] at this
    have h5 : (1 : ℝ) / 2 ^ 53 * Real.sqrt z ≤ 1 / 2 ^ 53 * ((1 + w) * Real.sqrt N) :=
      mul_le_mul_of_nonneg_left h3 (by norm_num)
    have h6 : w * Real.sqrt N ≤ 1 * Real.sqrt N := mul_le_mul_of_nonneg_right (hw.trans (by norm_num)) hs.le
    nlinarith

/-- The computed length of a row. -/
theorem MidRow.root {n : ℕ} (hn : n ≤ 2 ^ 30) {v : Vec} (hv : MidRow n v) (s : SqrtCode) :
    ∃ z, v.dotProduct .ieee v = .fin z ∧ Rep z ∧ |(z : ℝ) - normSq n v| ≤ kappa n * normSq n v ∧
      s.sqrt (.fin z) = .fin (s.root z) ∧ |(s.root z : ℝ) - norm n v| ≤ kappa n * norm n v := by
  obtain ⟨z, h1, h2, h3⟩ := hv.dotSelf hn
  have hk := kappa_bounds hn
  have hN : (0 : ℝ) < normSq n v := by
    have : (0 : ℚ) < normSq n v := lt_of_lt_of_le (by positivity) hv.lower
    exact_mod_cast this
  have h4 : |(z : ℝ) - normSq n v| ≤ (kappa n - 2 * (1 / 2 ^ 53)) * normSq n v := by
    have : ((|z - normSq n v| : ℚ) : ℝ) ≤ (((2 * n + 3) * u * normSq n v : ℚ) : ℝ) := by exact_mod_cast h3
    push_cast at this
    refine this.trans (le_of_eq ?_)
    unfold kappa u
    push_cast
    ring
  have hup : ((normSq n v : ℚ) : ℝ) ≤ 2 ^ 900 := by
    have := hv.upper.trans (pow_le_pow_right₀ (by norm_num : (1 : ℚ) ≤ 2) (by norm_num : 400 ≤ 900))
    exact_mod_cast this
  obtain ⟨h5, h6⟩ := root_spec s h2 hN (by linarith [hk.2, (by norm_num : (1 : ℝ) / 2 ^ 20 ≤ 1 / 2 ^ 10)])
    (by linarith [hk.1, (by norm_num : 2 * ((1 : ℝ) / 2 ^ 53) ≤ 5 / 2 ^ 53)]) hup h4
  refine ⟨z, h1, h2, h4.trans (mul_le_mul_of_nonneg_right (by linarith [(by norm_num : (0 : ℝ) ≤ 2 * (1 / 2 ^ 53))]) hN.le),
    h5, h6.trans (le_of_eq ?_)⟩
  unfold norm
  ring

/-! ## Dot products, angles and parallelism -/

/-- The dot product of two rows. -/
def dot (n : ℕ) (v w : Vec) : ℚ := ∑ j ∈ Finset.range n, val v j * val w j

theorem MidRow.normSq_pos {n : ℕ} {v : Vec} (hv : MidRow n v) : (0 : ℝ) < normSq n v := by
  have : (0 : ℚ) < normSq n v := lt_of_lt_of_le (by positivity) hv.lower
  exact_mod_cast this

theorem MidRow.norm_pos {n : ℕ} {v : Vec} (hv : MidRow n v) : 0 < norm n v := Real.sqrt_pos.2 hv.normSq_pos

theorem MidRow.norm_lower {n : ℕ} {v : Vec} (hv : MidRow n v) : 1 / 2 ^ 200 ≤ norm n v := by
  refine Real.le_sqrt_of_sq_le ?_
  have : ((1 / 2 ^ 400 : ℚ) : ℝ) ≤ normSq n v := Rat.cast_le.2 hv.lower
  refine le_trans (le_of_eq ?_) this
  push_cast
  rw [div_pow, one_pow, ← pow_mul]

theorem MidRow.norm_upper {n : ℕ} {v : Vec} (hv : MidRow n v) : norm n v ≤ 2 ^ 200 := by
  refine (Real.sqrt_le_left (by positivity)).2 ?_
  have : ((normSq n v : ℚ) : ℝ) ≤ ((2 ^ 400 : ℚ) : ℝ) := Rat.cast_le.2 hv.upper
  refine this.trans (le_of_eq ?_)
  push_cast
  rw [← pow_mul]

/-- Cauchy–Schwarz. -/
theorem abs_dot_le (n : ℕ) (v w : Vec) :
    ((∑ j ∈ Finset.range n, |val v j * val w j| : ℚ) : ℝ) ≤ norm n v * norm n w := by
  have h : (∑ j ∈ Finset.range n, |val v j| * |val w j|) ^ 2 ≤
      (∑ j ∈ Finset.range n, |val v j| ^ 2) * ∑ j ∈ Finset.range n, |val w j| ^ 2 :=
    Finset.sum_mul_sq_le_sq_mul_sq _ _ _
  have e : ∀ t : Vec, ∑ j ∈ Finset.range n, |val t j| ^ 2 = normSq n t := by
    intro t
    unfold normSq
    exact Finset.sum_congr rfl fun j _ => by rw [sq_abs, sq]
  rw [e, e] at h
  have e2 : ∑ j ∈ Finset.range n, |val v j| * |val w j| = ∑ j ∈ Finset.range n, |val v j * val w j| :=
    Finset.sum_congr rfl fun j _ => (abs_mul _ _).symm
  rw [e2] at h
  have h' : (((∑ j ∈ Finset.range n, |val v j * val w j|) ^ 2 : ℚ) : ℝ) ≤ ((normSq n v * normSq n w : ℚ) : ℝ) :=
    Rat.cast_le.2 h
  have h0 : (0 : ℝ) ≤ normSq n v := by
    have : 0 ≤ normSq n v := Finset.sum_nonneg fun j _ => mul_self_nonneg _
    exact_mod_cast this
  unfold norm
  rw [← Real.sqrt_mul h0]
  refine Real.le_sqrt_of_sq_le ?_
  rw [Rat.cast_pow, Rat.cast_mul] at h'
  exact h'

theorem abs_dot_le' (n : ℕ) (v w : Vec) : |((dot n v w : ℚ) : ℝ)| ≤ norm n v * norm n w := by
  refine le_trans ?_ (abs_dot_le n v w)
  have : |dot n v w| ≤ ∑ j ∈ Finset.range n, |val v j * val w j| := Finset.abs_sum_le_sum_abs _ _
  have h2 : ((|dot n v w| : ℚ) : ℝ) ≤ _ := Rat.cast_le.2 this
  rwa [Rat.cast_abs] at h2

/-- The dot product of two rows of moderate length. -/
theorem MidRow.dot {n : ℕ} (hn : n ≤ 2 ^ 30) {v w : Vec} (hv : MidRow n v) (hw : MidRow n w) :
    ∃ z, v.dotProduct .ieee w = .fin z ∧ Rep z ∧
      |(z : ℝ) - Ieee.dot n v w| ≤ kappa n * (norm n v * norm n w) := by
  have hcs := abs_dot_le n v w
  have hP0 : (1 : ℝ) / 2 ^ 400 ≤ norm n v * norm n w := by
    have := mul_le_mul hv.norm_lower hw.norm_lower (by positivity) hv.norm_pos.le
    refine le_trans (le_of_eq ?_) this
    rw [div_mul_div_comm, one_mul, ← pow_add]
  have hP1 : norm n v * norm n w ≤ 2 ^ 400 := by
    have := mul_le_mul hv.norm_upper hw.norm_upper hw.norm_pos.le (by positivity)
    refine this.trans (le_of_eq ?_)
    rw [← pow_add]
  set T : ℚ := ∑ j ∈ Finset.range n, |val v j * val w j| with hT
  have hbig : T ≤ 2 ^ 900 := by
    have h1 : (T : ℝ) ≤ ((2 ^ 400 : ℚ) : ℝ) := by
      refine (hcs.trans hP1).trans (le_of_eq ?_)
      push_cast
      rfl
    exact (Rat.cast_le.1 h1).trans (pow_le_pow_right₀ (by norm_num) (by norm_num))
  obtain ⟨z, h1, h2, h3⟩ := dot_spec hn hv.row hw.row (T := T) le_rfl hbig
  refine ⟨z, h1, h2, ?_⟩
  have h4 : ((|z - Ieee.dot n v w| : ℚ) : ℝ) ≤ ((2 * (n + 1) * u * T + 2 * n * eta : ℚ) : ℝ) := Rat.cast_le.2 h3
  rw [Rat.cast_abs, Rat.cast_sub] at h4
  refine h4.trans ?_
  have h5 : ((2 * n * eta : ℚ) : ℝ) ≤ ((u * (1 / 2 ^ 400) : ℚ) : ℝ) := Rat.cast_le.2
    ((two_n_eta hn).trans (eta_le (one_div_le_one_div_of_le (by positivity)
      (pow_le_pow_right₀ (by norm_num) (by norm_num)))))
  have h6 : ((u * (1 / 2 ^ 400) : ℚ) : ℝ) = (u : ℝ) * (1 / 2 ^ 400) := by push_cast; ring
  have hu : (0 : ℝ) ≤ u := by exact_mod_cast u_pos.le
  have h7 : (u : ℝ) * (1 / 2 ^ 400) ≤ u * (norm n v * norm n w) := mul_le_mul_of_nonneg_left hP0 hu
  have h8 : ((2 * (n + 1) * u * T : ℚ) : ℝ) ≤ 2 * (n + 1) * u * (norm n v * norm n w) := by
    push_cast
    exact mul_le_mul_of_nonneg_left hcs
      (mul_nonneg (mul_nonneg zero_le_two (add_nonneg (Nat.cast_nonneg n) zero_le_one)) hu)
  have h9 : kappa n = (2 * n + 5) * (u : ℝ) := by rw [kappa_cast]; push_cast; ring
  have h10 : 0 ≤ (u : ℝ) * (norm n v * norm n w) := mul_nonneg hu (mul_nonneg hv.norm_pos.le hw.norm_pos.le)
  rw [Rat.cast_add, h9]
  rw [h6] at h5
  linarith

/-- A quotient with errors above and below. -/
theorem quot_real {s t r A k E : ℝ} (hA : 0 < A) (hk0 : 0 ≤ k) (hk : k ≤ 1 / 1000) (hr : |r - A| ≤ k * A)
    (hs : |s - t| ≤ E) : 0 < r ∧ |s / r - t / A| ≤ (1 + 2 * k) * (E + k * |t|) / A := by
  have hr1 : (1 - k) * A ≤ r := by have := (abs_le.1 hr).1; linarith
  have hr0 : 0 < r := lt_of_lt_of_le (mul_pos (by linarith) hA) hr1
  refine ⟨hr0, ?_⟩
  have hE : 0 ≤ E := (abs_nonneg _).trans hs
  have e : s / r - t / A = ((s - t) * A + t * (A - r)) / (r * A) := by field_simp; ring
  have h1 : |(s - t) * A + t * (A - r)| ≤ (E + k * |t|) * A := by
    refine (abs_add_le _ _).trans ?_
    rw [abs_mul, abs_mul, abs_of_pos hA, abs_sub_comm A r]
    have := mul_le_mul_of_nonneg_right hs hA.le
    have := mul_le_mul_of_nonneg_left hr (abs_nonneg t)
    linarith
  have hX : 0 ≤ E + k * |t| := add_nonneg hE (mul_nonneg hk0 (abs_nonneg _))
  rw [e, abs_div, abs_of_pos (mul_pos hr0 hA), div_le_div_iff₀ (mul_pos hr0 hA) hA]
  have h2 : A ≤ (1 + 2 * k) * r := by nlinarith [mul_nonneg hk0 hA.le, mul_nonneg (mul_nonneg hk0 hk0) hA.le]
  calc |(s - t) * A + t * (A - r)| * A ≤ (E + k * |t|) * A * A := mul_le_mul_of_nonneg_right h1 hA.le
    _ = (E + k * |t|) * A * A := rfl
    _ ≤ (E + k * |t|) * ((1 + 2 * k) * r) * A := by
      refine mul_le_mul_of_nonneg_right (mul_le_mul_of_nonneg_left h2 hX) hA.le
    _ = (1 + 2 * k) * (E + k * |t|) * (r * A) := by ring

theorem eta_tiny : (eta : ℝ) ≤ 1 / 2 ^ 1000 := by
  have : eta ≤ 1 / 2 ^ 1000 := by
    unfold eta
    exact one_div_le_one_div_of_le (by positivity) (pow_le_pow_right₀ (by norm_num) (by norm_num))
  have h2 : (eta : ℝ) ≤ ((1 / 2 ^ 1000 : ℚ) : ℝ) := Rat.cast_le.2 this
  refine h2.trans (le_of_eq ?_)
  push_cast
  rfl

theorem rnd_error_real (x : ℚ) : |(rnd x : ℝ) - x| ≤ 1 / 2 ^ 53 * |(x : ℝ)| + eta := by
  have h := rnd_error x
  have heta : 0 ≤ eta := by unfold eta; exact one_div_nonneg.2 (pow_nonneg zero_le_two _)
  have h2 : |rnd x - x| ≤ u * |x| + eta :=
    h.trans (max_le (by linarith) (by linarith [mul_nonneg u_pos.le (abs_nonneg x)]))
  have h3 : ((|rnd x - x| : ℚ) : ℝ) ≤ ((u * |x| + eta : ℚ) : ℝ) := Rat.cast_le.2 h2
  rw [Rat.cast_abs, Rat.cast_sub, Rat.cast_add, Rat.cast_mul, Rat.cast_abs] at h3
  refine h3.trans (le_of_eq ?_)
  unfold u
  push_cast
  rfl

/-- A computed cosine. -/
theorem cosine {z m : ℚ} {d P K : ℝ} (hP : 0 < P) (hd : |d| ≤ P) (hK : 5 / 2 ^ 53 ≤ K) (hK2 : K ≤ 1 / 2 ^ 20)
    (hz : |(z : ℝ) - d| ≤ K * P) (hm : |(m : ℝ) - P| ≤ 7 / 2 * K * P) :
    ∃ q, div (.fin z) (.fin m) = .fin q ∧ Rep q ∧ |(q : ℝ) - d / P| ≤ 5 * K := by
  have hK0 : 0 ≤ K := le_trans (by norm_num) hK
  obtain ⟨hm0, hq⟩ := quot_real hP (by linarith) (by linarith [(by norm_num : (7 : ℝ) / 2 * (1 / 2 ^ 20) ≤ 1 / 1000)]) hm hz
  have hm0' : (0 : ℚ) < m := by exact_mod_cast hm0
  have h1 : |(z : ℝ) / m - d / P| ≤ (1 + 7 * K) * (9 / 2 * K) := by
    refine hq.trans ?_
    rw [div_le_iff₀ hP]
    have : K * P + 7 / 2 * K * |d| ≤ 9 / 2 * K * P := by
      have := mul_le_mul_of_nonneg_left hd (by linarith : 0 ≤ 7 / 2 * K)
      linarith
    calc (1 + 2 * (7 / 2 * K)) * (K * P + 7 / 2 * K * |d|) ≤ (1 + 2 * (7 / 2 * K)) * (9 / 2 * K * P) :=
          mul_le_mul_of_nonneg_left this (by linarith)
      _ = (1 + 7 * K) * (9 / 2 * K) * P := by ring
  have h2 : |d / P| ≤ 1 := by rw [abs_div, abs_of_pos hP, div_le_one hP]; exact hd
  have h3 : |(z : ℝ) / m| ≤ 1 + 1 / 100 := by
    have h4 : |(z : ℝ) / m| ≤ |(z : ℝ) / m - d / P| + |d / P| := by
      have := abs_add_le ((z : ℝ) / m - d / P) (d / P)
      rwa [sub_add_cancel] at this
    have h5 : (1 + 7 * K) * (9 / 2 * K) ≤ 1 / 100 := by
      have h6 : K ≤ 1 / 1000 := hK2.trans (by norm_num)
      nlinarith
    linarith
  have hcast : (((z / m : ℚ)) : ℝ) = (z : ℝ) / m := by push_cast; rfl
  have hsmall : |z / m| ≤ 2 ^ 1000 := by
    have h4 : ((|z / m| : ℚ) : ℝ) ≤ ((2 : ℚ) : ℝ) := by
      rw [Rat.cast_abs, hcast]
      push_cast
      linarith
    refine (Rat.cast_le.1 h4).trans ?_
    calc (2 : ℚ) = 2 ^ 1 := by norm_num
      _ ≤ 2 ^ 1000 := pow_le_pow_right₀ (by norm_num) (by norm_num)
  refine ⟨rnd (z / m), ?_, rep_rnd _, ?_⟩
  · show (if m = 0 then _ else round (z / m)) = _
    rw [if_neg hm0'.ne', round_fin hsmall]
  · have h4 := rnd_error_real (z / m)
    rw [hcast] at h4
    have h5 : |(rnd (z / m) : ℝ) - d / P| ≤ |(rnd (z / m) : ℝ) - (z : ℝ) / m| + |(z : ℝ) / m - d / P| := by
      have := abs_add_le ((rnd (z / m) : ℝ) - (z : ℝ) / m) ((z : ℝ) / m - d / P)
      rwa [sub_add_sub_cancel] at this
    have h6 : (eta : ℝ) ≤ 1 / 2 ^ 70 := eta_tiny.trans (one_div_le_one_div_of_le (by positivity)
      (pow_le_pow_right₀ (by norm_num) (by norm_num)))
    have h7 : (1 : ℝ) / 2 ^ 53 * |(z : ℝ) / m| ≤ 1 / 2 ^ 53 * (1 + 1 / 100) := mul_le_mul_of_nonneg_left h3 (by norm_num)
    have h8 : (1 : ℝ) / 2 ^ 53 * (1 + 1 / 100) + 1 / 2 ^ 70 ≤ 21 / 100 * (5 / 2 ^ 53) := by norm_num
    have h9 : (1 + 7 * K) * (9 / 2 * K) ≤ 46 / 10 * K := by
      have h10 : 7 * K ≤ 1 / 100 := by linarith [(by norm_num : 7 * ((1 : ℝ) / 2 ^ 20) ≤ 1 / 100)]
      nlinarith
    linarith

/-- A rounded product of two measured numbers. -/
theorem product {x y : ℚ} {A B K : ℝ} (hA : 0 < A) (hB : 0 < B) (hK : 5 / 2 ^ 53 ≤ K) (hK2 : K ≤ 1 / 2 ^ 20)
    (hx : |(x : ℝ) - A| ≤ K * A) (hy : |(y : ℝ) - B| ≤ K * B) (hlow : 1 / 2 ^ 900 ≤ A * B) (hup : A * B ≤ 2 ^ 900) :
    mul (.fin x) (.fin y) = .fin (rnd (x * y)) ∧ |(rnd (x * y) : ℝ) - A * B| ≤ 3 * K * (A * B) := by
  have hK0 : 0 ≤ K := le_trans (by norm_num) hK
  have hAB : 0 < A * B := mul_pos hA hB
  have h1 : |(x : ℝ) * y - A * B| ≤ (2 * K + K * K) * (A * B) := by
    have e : (x : ℝ) * y - A * B = (x - A) * (y - B) + (x - A) * B + A * (y - B) := by ring
    rw [e]
    refine (abs_add_three _ _ _).trans ?_
    rw [abs_mul, abs_mul, abs_mul, abs_of_pos hA, abs_of_pos hB]
    have a1 := mul_le_mul hx hy (abs_nonneg _) (mul_nonneg hK0 hA.le)
    have a2 := mul_le_mul_of_nonneg_right hx hB.le
    have a3 := mul_le_mul_of_nonneg_left hy hA.le
    linarith
  have hKK : K * K ≤ 1 / 1000 * K := mul_le_mul_of_nonneg_right (hK2.trans (by norm_num)) hK0
  have h2 : |(x : ℝ) * y| ≤ (1 + 1 / 100) * (A * B) := by
    have h3 : |(x : ℝ) * y| ≤ |(x : ℝ) * y - A * B| + A * B := by
      have := abs_add_le ((x : ℝ) * y - A * B) (A * B)
      rwa [sub_add_cancel, abs_of_pos hAB] at this
    have h4 : (2 * K + K * K) ≤ 1 / 100 := by linarith [(by norm_num : 3 * ((1 : ℝ) / 2 ^ 20) ≤ 1 / 100)]
    have := mul_le_mul_of_nonneg_right h4 hAB.le
    linarith
  have hcast : ((x * y : ℚ) : ℝ) = (x : ℝ) * y := by push_cast; rfl
  constructor
  · show round (x * y) = _
    refine round_fin ?_
    have h3 : ((|x * y| : ℚ) : ℝ) ≤ ((2 ^ 1000 : ℚ) : ℝ) := by
      rw [Rat.cast_abs, hcast]
      refine h2.trans ?_
      calc (1 + 1 / 100 : ℝ) * (A * B) ≤ 2 * 2 ^ 900 := mul_le_mul (by norm_num) hup hAB.le (by norm_num)
        _ = 2 ^ 901 := (pow_succ' _ _).symm
        _ ≤ 2 ^ 1000 := pow_le_pow_right₀ (by norm_num) (by norm_num)
        _ = ((2 ^ 1000 : ℚ) : ℝ) := by push_cast; rfl
    exact Rat.cast_le.1 h3
  · have h3 := rnd_error_real (x * y)
    rw [hcast] at h3
    have h4 : |(rnd (x * y) : ℝ) - A * B| ≤ |(rnd (x * y) : ℝ) - (x : ℝ) * y| + |(x : ℝ) * y - A * B| := by
      have := abs_add_le ((rnd (x * y) : ℝ) - (x : ℝ) * y) ((x : ℝ) * y - A * B)
      rwa [sub_add_sub_cancel] at this
    have h5 : (eta : ℝ) ≤ 1 / 2 ^ 60 * (A * B) := by
      have a : (eta : ℝ) ≤ 1 / 2 ^ 60 * (1 / 2 ^ 900) := by
        refine eta_tiny.trans ?_
        rw [div_mul_div_comm, one_mul, ← pow_add]
        exact one_div_le_one_div_of_le (by positivity) (pow_le_pow_right₀ (by norm_num) (by norm_num))
      exact a.trans (mul_le_mul_of_nonneg_left hlow (by norm_num))
    have h6 := mul_le_mul_of_nonneg_left h2 (by norm_num : (0 : ℝ) ≤ 1 / 2 ^ 53)
    have h7 : (1 : ℝ) / 2 ^ 53 * ((1 + 1 / 100) * (A * B)) + 1 / 2 ^ 60 * (A * B) ≤ 1 / 2 * K * (A * B) := by
      have a : (1 : ℝ) / 2 ^ 53 * (1 + 1 / 100) + 1 / 2 ^ 60 ≤ 1 / 2 * K := by
        have : (1 : ℝ) / 2 ^ 53 * (1 + 1 / 100) + 1 / 2 ^ 60 ≤ 1 / 2 * (5 / 2 ^ 53) := by norm_num
        linarith
      have := mul_le_mul_of_nonneg_right a hAB.le
      linarith
    have h8 : (2 * K + K * K) * (A * B) ≤ (5 / 2 * K) * (A * B) := mul_le_mul_of_nonneg_right (by linarith) hAB.le
    linarith

theorem norms_range {n : ℕ} {v w : Vec} (hv : MidRow n v) (hw : MidRow n w) :
    1 / 2 ^ 900 ≤ norm n v * norm n w ∧ norm n v * norm n w ≤ 2 ^ 900 := by
  constructor
  · have := mul_le_mul hv.norm_lower hw.norm_lower (by positivity) hv.norm_pos.le
    refine le_trans ?_ this
    rw [div_mul_div_comm, one_mul, ← pow_add]
    exact one_div_le_one_div_of_le (by positivity) (pow_le_pow_right₀ (by norm_num) (by norm_num))
  · have := mul_le_mul hv.norm_upper hw.norm_upper hw.norm_pos.le (by positivity)
    refine this.trans ?_
    rw [← pow_add]
    exact pow_le_pow_right₀ (by norm_num) (by norm_num)

/-- The computed cosine of the angle between two rows. -/
theorem cosAngle_spec {n : ℕ} (hn : n ≤ 2 ^ 30) (s : SqrtCode) {v w : Vec} (hv : MidRow n v) (hw : MidRow n w) :
    ∃ q, Selector.cosAngle s v w = .fin q ∧ Rep q ∧
      |(q : ℝ) - dot n v w / (norm n v * norm n w)| ≤ 5 * kappa n := by
  have hk := kappa_bounds hn
  obtain ⟨a, a1, -, -, a2, a3⟩ := hv.root hn s
  obtain ⟨b, b1, -, -, b2, b3⟩ := hw.root hn s
  obtain ⟨z, z1, -, z2⟩ := hv.dot hn hw
  obtain ⟨hlow, hup⟩ := norms_range hv hw
  obtain ⟨m1, m2⟩ := product hv.norm_pos hw.norm_pos hk.1 hk.2 a3 b3 hlow hup
  have hP := mul_pos hv.norm_pos hw.norm_pos
  have hK0 : 0 ≤ kappa n := le_trans (by norm_num) hk.1
  obtain ⟨q, q1, q2, q3⟩ := cosine hP (abs_dot_le' n v w) hk.1 hk.2 z2
    (m2.trans (mul_le_mul_of_nonneg_right (by linarith) hP.le))
  refine ⟨q, ?_, q2, q3⟩
  unfold Selector.cosAngle
  rw [squaredNorm_eq hv.row.sorted, squaredNorm_eq hw.row.sorted, a1, b1, z1, a2, b2, m1, q1]

/-- The computed parallelism of a row to the objective. -/
theorem parallelism_spec {n : ℕ} (hn : n ≤ 2 ^ 30) (s : SqrtCode) {v w : Vec} (hv : MidRow n v) (hw : MidRow n w) :
    ∃ q, parallelism s v w = .fin q ∧ Rep q ∧
      |(q : ℝ) - |(dot n v w : ℝ)| / (norm n v * norm n w)| ≤ 5 * kappa n := by
  have hk := kappa_bounds hn
  obtain ⟨a, a1, a2, a3, -, -⟩ := hv.root hn s
  obtain ⟨b, b1, b2, b3, -, -⟩ := hw.root hn s
  obtain ⟨z, z1, -, z2⟩ := hv.dot hn hw
  have hP := mul_pos hv.norm_pos hw.norm_pos
  have hK0 : 0 ≤ kappa n := le_trans (by norm_num) hk.1
  have hlow : (1 : ℝ) / 2 ^ 900 ≤ normSq n v * normSq n w := by
    have x1 : ((1 / 2 ^ 400 : ℚ) : ℝ) ≤ normSq n v := Rat.cast_le.2 hv.lower
    have x2 : ((1 / 2 ^ 400 : ℚ) : ℝ) ≤ normSq n w := Rat.cast_le.2 hw.lower
    have x3 : ((1 / 2 ^ 400 : ℚ) : ℝ) = 1 / 2 ^ 400 := by push_cast; rfl
    rw [x3] at x1 x2
    refine le_trans ?_ (mul_le_mul x1 x2 (by positivity) hv.normSq_pos.le)
    rw [div_mul_div_comm, one_mul, ← pow_add]
    exact one_div_le_one_div_of_le (by positivity) (pow_le_pow_right₀ (by norm_num) (by norm_num))
  have hup : (normSq n v * normSq n w : ℝ) ≤ 2 ^ 900 := by
    have x1 : (normSq n v : ℝ) ≤ ((2 ^ 400 : ℚ) : ℝ) := Rat.cast_le.2 hv.upper
    have x2 : (normSq n w : ℝ) ≤ ((2 ^ 400 : ℚ) : ℝ) := Rat.cast_le.2 hw.upper
    have x3 : ((2 ^ 400 : ℚ) : ℝ) = 2 ^ 400 := by push_cast; rfl
    rw [x3] at x1 x2
    refine (mul_le_mul x1 x2 hw.normSq_pos.le (by positivity)).trans ?_
    rw [← pow_add]
    exact pow_le_pow_right₀ (by norm_num) (by norm_num)
  obtain ⟨m1, m2⟩ := product hv.normSq_pos hw.normSq_pos hk.1 hk.2 a3 b3 hlow hup
  have hroot : Real.sqrt ((normSq n v : ℝ) * normSq n w) = norm n v * norm n w := Real.sqrt_mul hv.normSq_pos.le _
  obtain ⟨r1, r2⟩ := root_spec s (rep_rnd (a * b)) (mul_pos hv.normSq_pos hw.normSq_pos)
    (by linarith [hk.2, (by norm_num : 3 * ((1 : ℝ) / 2 ^ 20) ≤ 1 / 2 ^ 10)]) (by linarith) hup m2
  rw [hroot] at r2
  have hz : |((|z| : ℚ) : ℝ) - (|(dot n v w : ℝ)|)| ≤ kappa n * (norm n v * norm n w) := by
    rw [Rat.cast_abs]
    exact (abs_abs_sub_abs_le_abs_sub _ _).trans z2
  obtain ⟨q, q1, q2, q3⟩ := cosine hP (by rw [abs_abs]; exact abs_dot_le' n v w) hk.1 hk.2 hz
    (r2.trans (mul_le_mul_of_nonneg_right
      (by linarith [hk.1, (by norm_num : 2 * ((1 : ℝ) / 2 ^ 53) ≤ 1 / 2 * (5 / 2 ^ 53))]) hP.le))
  refine ⟨q, ?_, q2, q3⟩
  unfold parallelism
  rw [z1, a1, b1, m1, r1]
  exact q1

/-! ## Efficacy -/

/-- The sum of the absolute values of all terms of a violation. -/
def termSum (n : ℕ) (row x : Vec) (b : ℚ) : ℚ := ∑ j ∈ Finset.range n, |val row j * val x j| + |b|

theorem two_pow_eta {k : ℕ} (hk : k ≤ 40) : (2 : ℚ) ^ k * eta ≤ 1 / 2 ^ 1030 := by
  unfold eta
  rw [mul_one_div, div_le_div_iff₀ (by positivity) (by positivity), one_mul, ← pow_add]
  exact pow_le_pow_right₀ (by norm_num) (by omega)

/-- The computed violation of a row. -/
theorem violation_spec {n : ℕ} (hn : n ≤ 2 ^ 30) {row x : Vec} {b : ℚ} (hr : IsRow n row) (hx : IsRow n x)
    (hb : Rep b) (hM : termSum n row x b ≤ 2 ^ 700) :
    ∃ t, sub (row.dotProduct .ieee x) (.fin b) = .fin t ∧
      |(t : ℝ) - (dot n row x - b)| ≤ kappa n * termSum n row x b + 1 / 2 ^ 1030 := by
  set T : ℚ := ∑ j ∈ Finset.range n, |val row j * val x j| with hT
  have hMT : termSum n row x b = T + |b| := rfl
  have hT0 : 0 ≤ T := Finset.sum_nonneg fun j _ => abs_nonneg _
  have hTM : T ≤ termSum n row x b := by rw [hMT]; linarith [abs_nonneg b]
  obtain ⟨z, h1, h2, h3⟩ := dot_spec hn hr hx (T := T) le_rfl
    ((hTM.trans hM).trans (pow_le_pow_right₀ (by norm_num) (by norm_num)))
  change |z - dot n row x| ≤ _ at h3
  have hdT : |dot n row x| ≤ T := Finset.abs_sum_le_sum_abs _ _
  generalize hM' : termSum n row x b = M at *
  have hu := u_pos.le
  have heta : 0 ≤ eta := by unfold eta; exact one_div_nonneg.2 (pow_nonneg zero_le_two _)
  have hn0 : (0 : ℚ) ≤ n := Nat.cast_nonneg n
  have hn1 : (n : ℚ) ≤ 2 ^ 30 := by exact_mod_cast hn
  have hnu : (2 * (n : ℚ) + 5) * u ≤ 1 / 2 ^ 20 := (factor_bounds hn).2.2
  have e1 : 2 * (n : ℚ) * eta ≤ 2 ^ 31 * eta := two_n_eta hn
  have h2u : 2 * ((n : ℚ) + 1) * u ≤ 1 / 2 ^ 20 := by nlinarith
  have h2uT : 2 * ((n : ℚ) + 1) * u * T ≤ 1 / 2 ^ 20 * T := mul_le_mul_of_nonneg_right h2u hT0
  have hzb : |z - b| ≤ (1 + 1 / 2 ^ 20) * M + 2 ^ 31 * eta := by
    have a1 : |z - b| ≤ |z - dot n row x| + |dot n row x| + |b| := by
      have := abs_add_three (z - dot n row x) (dot n row x) (-b)
      rw [abs_neg] at this
      refine le_trans (le_of_eq (congrArg _ ?_)) this
      ring
    have : (1 / 2 ^ 20 : ℚ) * T ≤ 1 / 2 ^ 20 * M := mul_le_mul_of_nonneg_left hTM (by norm_num)
    linarith
  have hE : (2 : ℚ) ^ 31 * eta ≤ 1 := eta_small
  have hzb2 : |z - b| ≤ 2 ^ 1000 := by
    have a : (2 : ℚ) * 2 ^ 700 + 1 ≤ 2 ^ 1000 := by
      calc (2 : ℚ) * 2 ^ 700 + 1 ≤ 2 * 2 ^ 700 + 2 ^ 701 := by
            exact add_le_add_right (one_le_pow₀ (by norm_num)) _
        _ = 2 ^ 702 := by rw [← pow_succ', pow_succ (2 : ℚ) 701]; ring
        _ ≤ 2 ^ 1000 := pow_le_pow_right₀ (by norm_num) (by norm_num)
    have hM0 : 0 ≤ M := hT0.trans hTM
    have c : (1 + 1 / 2 ^ 20 : ℚ) * M ≤ 2 * 2 ^ 700 := mul_le_mul (by norm_num) hM hM0 (by norm_num)
    exact hzb.trans ((add_le_add c hE).trans a)
  refine ⟨rnd (z - b), ?_, ?_⟩
  · rw [h1]
    rw [← round_fin hzb2, sub_eq_add_neg]
    rfl
  · have h4 : |rnd (z - b) - (z - b)| ≤ u * |z - b| := by
      have := rnd_add_error h2 hb.neg
      rwa [← sub_eq_add_neg] at this
    have h5 : |rnd (z - b) - (dot n row x - b)| ≤ (2 * n + 5) * u * M + 2 ^ 32 * eta := by
      have a1 : |rnd (z - b) - (dot n row x - b)| ≤ |rnd (z - b) - (z - b)| + |z - dot n row x| := by
        have := abs_add_le (rnd (z - b) - (z - b)) (z - dot n row x)
        refine le_trans (le_of_eq (congrArg _ ?_)) this
        ring
      have a2 : u * |z - b| ≤ u * ((1 + 1 / 2 ^ 20) * M + 2 ^ 31 * eta) := mul_le_mul_of_nonneg_left hzb hu
      have a3 : 2 * ((n : ℚ) + 1) * u * T ≤ 2 * (n + 1) * u * M :=
        mul_le_mul_of_nonneg_left hTM (mul_nonneg (mul_nonneg zero_le_two (by linarith)) hu)
      have a4 : u * (2 ^ 31 * eta) ≤ 1 * (2 ^ 31 * eta) :=
        mul_le_mul_of_nonneg_right (by unfold u; norm_num) (mul_nonneg (by norm_num) heta)
      have hM0 : 0 ≤ u * M := mul_nonneg hu (hT0.trans hTM)
      have a5 : (1 / 2 ^ 20 : ℚ) * (u * M) ≤ 1 * (u * M) := mul_le_mul_of_nonneg_right (by norm_num) hM0
      generalize eta = E at *
      linarith
    have h6 := h5.trans (add_le_add_right (two_pow_eta (k := 32) (by norm_num)) _)
    have h7 : ((|rnd (z - b) - (dot n row x - b)| : ℚ) : ℝ) ≤ (((2 * n + 5) * u * M + 1 / 2 ^ 1030 : ℚ) : ℝ) :=
      Rat.cast_le.2 h6
    rw [Rat.cast_abs, Rat.cast_add, Rat.cast_mul, ← kappa_cast] at h7
    push_cast at h7
    exact h7

/-- The computed efficacy: a violation divided by a length. -/
theorem efficacy_spec {n : ℕ} (hn : n ≤ 2 ^ 30) (s : SqrtCode) {row x : Vec} {b : ℚ} (hr : MidRow n row)
    (hx : IsRow n x) (hb : Rep b) (hM : termSum n row x b ≤ 2 ^ 700) :
    ∃ e, computeEfficacy s row (.fin b) x = .fin e ∧ Rep e ∧
      |(e : ℝ) - (dot n row x - b) / norm n row| ≤ 3 * kappa n * (termSum n row x b / norm n row) + 1 / 2 ^ 800 := by
  have hk := kappa_bounds hn
  have hK0 : 0 ≤ kappa n := le_trans (by norm_num) hk.1
  obtain ⟨a, a1, -, -, a2, a3⟩ := hr.root hn s
  obtain ⟨t, t1, t2⟩ := violation_spec hn hr.row hx hb hM
  have hA := hr.norm_pos
  have hAl := hr.norm_lower
  obtain ⟨r0, r1⟩ := quot_real hA hK0 (by linarith [hk.2, (by norm_num : (1 : ℝ) / 2 ^ 20 ≤ 1 / 1000)]) a3 t2
  have r0' : 0 < s.root a := by exact_mod_cast r0
  have hdM : |((dot n row x : ℚ) : ℝ) - b| ≤ termSum n row x b := by
    have : |dot n row x - b| ≤ termSum n row x b :=
      (abs_sub _ _).trans (add_le_add_left (Finset.abs_sum_le_sum_abs _ _) _)
    have h2 : ((|dot n row x - b| : ℚ) : ℝ) ≤ ((termSum n row x b : ℚ) : ℝ) := Rat.cast_le.2 this
    rwa [Rat.cast_abs, Rat.cast_sub] at h2
  have hMr : ((termSum n row x b : ℚ) : ℝ) ≤ 2 ^ 700 := by
    have : ((termSum n row x b : ℚ) : ℝ) ≤ ((2 ^ 700 : ℚ) : ℝ) := Rat.cast_le.2 hM
    refine this.trans (le_of_eq ?_)
    push_cast
    rfl
  have hdM0 : 0 ≤ ((termSum n row x b : ℚ) : ℝ) := (abs_nonneg _).trans hdM
  have hcast : ((t / s.root a : ℚ) : ℝ) = (t : ℝ) / s.root a := by push_cast; rfl
  -- abbreviations
  have hδ : (1 : ℝ) / 2 ^ 1030 / norm n row ≤ 1 / 2 ^ 820 := by
    rw [div_le_iff₀ hA]
    refine le_trans ?_ (mul_le_mul_of_nonneg_left hAl (by positivity))
    rw [div_mul_div_comm, one_mul, ← pow_add]
    exact one_div_le_one_div_of_le (by positivity) (pow_le_pow_right₀ (by norm_num) (by norm_num))
  have hδ0 : (0 : ℝ) ≤ 1 / 2 ^ 1030 / norm n row := div_nonneg (by positivity) hA.le
  have hη : (eta : ℝ) ≤ 1 / 2 ^ 820 := eta_tiny.trans (one_div_le_one_div_of_le (by positivity)
    (pow_le_pow_right₀ (by norm_num) (by norm_num)))
  have h820 : (1 : ℝ) / 2 ^ 820 * 2 ^ 20 = 1 / 2 ^ 800 := by
    rw [div_mul_eq_mul_div, one_mul, div_eq_div_iff (by positivity) (by positivity), one_mul, ← pow_add]
  have hQ : ((termSum n row x b : ℚ) : ℝ) / norm n row ≤ 2 ^ 900 := by
    rw [div_le_iff₀ hA]
    refine hMr.trans ?_
    calc (2 : ℝ) ^ 700 = 2 ^ 900 * (1 / 2 ^ 200) := by
          rw [mul_one_div, eq_div_iff (by positivity), ← pow_add]
      _ ≤ 2 ^ 900 * norm n row := mul_le_mul_of_nonneg_left hAl (by positivity)
  have hQ0 : 0 ≤ ((termSum n row x b : ℚ) : ℝ) / norm n row := div_nonneg hdM0 hA.le
  have hD : |(((dot n row x : ℚ) : ℝ) - b) / norm n row| ≤ ((termSum n row x b : ℚ) : ℝ) / norm n row := by
    rw [abs_div, abs_of_pos hA]
    exact div_le_div_of_nonneg_right hdM hA.le
  have r2 : |(t : ℝ) / s.root a - (((dot n row x : ℚ) : ℝ) - b) / norm n row| ≤
      (1 + 2 * kappa n) * (2 * kappa n * (((termSum n row x b : ℚ) : ℝ) / norm n row) + 1 / 2 ^ 1030 / norm n row) := by
    refine r1.trans ?_
    have h2 : kappa n * ((termSum n row x b : ℚ) : ℝ) + 1 / 2 ^ 1030 + kappa n * |((dot n row x : ℚ) : ℝ) - b| ≤
        2 * kappa n * ((termSum n row x b : ℚ) : ℝ) + 1 / 2 ^ 1030 := by
      have := mul_le_mul_of_nonneg_left hdM hK0
      linarith
    have h3 := div_le_div_of_nonneg_right
      (mul_le_mul_of_nonneg_left h2 (by linarith : 0 ≤ 1 + 2 * kappa n)) hA.le
    refine h3.trans (le_of_eq ?_)
    ring
  generalize ((termSum n row x b : ℚ) : ℝ) / norm n row = Q at *
  generalize (1 : ℝ) / 2 ^ 1030 / norm n row = δ at *
  generalize (((dot n row x : ℚ) : ℝ) - b) / norm n row = D at *
  have hq := rnd_error_real (t / s.root a)
  rw [hcast] at hq
  have hK3 : kappa n ≤ 1 / 1000 := hk.2.trans (by norm_num)
  have hu5 : (1 : ℝ) / 2 ^ 53 ≤ 1 / 5 * kappa n := by
    have := hk.1
    linarith [(by norm_num : (1 : ℝ) / 2 ^ 53 = 1 / 5 * (5 / 2 ^ 53))]
  generalize kappa n = K at *
  have r3 : |(t : ℝ) / s.root a - D| ≤ 21 / 10 * K * Q + 2 * δ := by
    refine r2.trans ?_
    have : (1 + 2 * K) * (2 * K * Q + δ) = 2 * K * Q + δ + 2 * K * (2 * (K * Q)) + 2 * K * δ := by ring
    rw [this]
    have b1 : 2 * K * (2 * (K * Q)) ≤ 2 * (1 / 1000) * (2 * (K * Q)) :=
      mul_le_mul_of_nonneg_right (by linarith) (mul_nonneg zero_le_two (mul_nonneg hK0 hQ0))
    have b2 : 2 * K * δ ≤ 2 * (1 / 1000) * δ := mul_le_mul_of_nonneg_right (by linarith) hδ0
    linarith [mul_nonneg hK0 hQ0]
  have hKQ := mul_le_mul_of_nonneg_right hK3 hQ0
  have habs : |(t : ℝ) / s.root a| ≤ 11 / 10 * Q + 2 * δ := by
    have h4 : |(t : ℝ) / s.root a| ≤ |(t : ℝ) / s.root a - D| + |D| := by
      have := abs_add_le ((t : ℝ) / s.root a - D) D
      rwa [sub_add_cancel] at this
    linarith
  have hδ1 : δ ≤ 1 := hδ.trans (by rw [div_le_one (by positivity)]; exact one_le_pow₀ (by norm_num))
  have hsmall : |t / s.root a| ≤ 2 ^ 1000 := by
    have h4 : ((|t / s.root a| : ℚ) : ℝ) ≤ ((2 ^ 1000 : ℚ) : ℝ) := by
      rw [Rat.cast_abs, hcast]
      have c1 : (1 : ℝ) ≤ 2 ^ 900 := one_le_pow₀ (by norm_num)
      have c2 : (4 : ℝ) * 2 ^ 900 ≤ 2 ^ 1000 := by
        calc (4 : ℝ) * 2 ^ 900 = 2 ^ 902 := by rw [show (4 : ℝ) = 2 ^ 2 by norm_num, ← pow_add]
          _ ≤ 2 ^ 1000 := pow_le_pow_right₀ (by norm_num) (by norm_num)
      have c3 : ((2 ^ 1000 : ℚ) : ℝ) = 2 ^ 1000 := by push_cast; rfl
      rw [c3]
      refine le_trans ?_ c2
      generalize (2 : ℝ) ^ 900 = B at *
      linarith
    exact Rat.cast_le.1 h4
  refine ⟨rnd (t / s.root a), ?_, rep_rnd _, ?_⟩
  · unfold computeEfficacy
    rw [t1, a1, a2]
    show (if s.root a = 0 then _ else round _) = _
    rw [if_neg r0'.ne', round_fin hsmall]
  · have h5 : |(rnd (t / s.root a) : ℝ) - D| ≤ |(rnd (t / s.root a) : ℝ) - (t : ℝ) / s.root a| + |(t : ℝ) / s.root a - D| := by
      have := abs_add_le ((rnd (t / s.root a) : ℝ) - (t : ℝ) / s.root a) ((t : ℝ) / s.root a - D)
      rwa [sub_add_sub_cancel] at this
    have h6 : (1 : ℝ) / 2 ^ 53 * |(t : ℝ) / s.root a| ≤ 1 / 5 * K * (11 / 10 * Q + 2 * δ) :=
      mul_le_mul hu5 habs (abs_nonneg _) (by linarith)
    have h7 : K * δ ≤ 1 * δ := mul_le_mul_of_nonneg_right (by linarith) hδ0
    have h8 : 1 / 5 * K * (11 / 10 * Q + 2 * δ) = 22 / 100 * (K * Q) + 2 / 5 * (K * δ) := by ring
    have h9 := mul_nonneg hK0 hQ0
    rw [← h820]
    generalize (1 : ℝ) / 2 ^ 820 = ε at *
    have hε : 0 ≤ ε := hδ0.trans hδ
    generalize (eta : ℝ) = η at *
    linarith

end Ieee
end MiniMip
