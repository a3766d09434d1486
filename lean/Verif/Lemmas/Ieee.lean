import Verif.Model.Ieee
import Mathlib.Tactic.Positivity
import Mathlib.Algebra.Order.Field.Power
import Mathlib.Tactic.FieldSimp
import Mathlib.Tactic.GCongr
import Mathlib.Tactic.LinearCombination

/-!
# Rounding to doubles
-/

namespace MiniMip
namespace Ieee

theorem ulp_pos (x : ℚ) : 0 < ulp x := by unfold ulp; positivity

theorem nearestEven_int (n : ℤ) : nearestEven n = n := by
  unfold nearestEven
  simp

theorem nearestEven_dist (y : ℚ) : |(nearestEven y : ℚ) - y| ≤ 1 / 2 := by
  have h1 := Int.floor_le y
  have h2 := Int.lt_floor_add_one y
  unfold nearestEven
  split_ifs <;> rw [abs_le] <;> push_cast <;> constructor <;> linarith

/-- No integer is nearer. -/
theorem nearestEven_le (y : ℚ) (n : ℤ) : |(nearestEven y : ℚ) - y| ≤ |(n : ℚ) - y| := by
  by_cases h : nearestEven y = n
  · rw [h]
  have h1 := nearestEven_dist y
  have h2 : (1 : ℚ) ≤ |(nearestEven y : ℚ) - n| := by
    have : (1 : ℤ) ≤ |nearestEven y - n| := Int.one_le_abs (sub_ne_zero.2 h)
    have h3 : ((1 : ℤ) : ℚ) ≤ ((|nearestEven y - n| : ℤ) : ℚ) := by exact_mod_cast this
    simpa using h3
  have h3 : |(nearestEven y : ℚ) - n| ≤ |(nearestEven y : ℚ) - y| + |(n : ℚ) - y| := by
    have := abs_sub_le (nearestEven y : ℚ) y n
    rwa [abs_sub_comm y] at this
  linarith

theorem log_lt {x : ℚ} (hx : x ≠ 0) {e : ℤ} (h : |x| < 2 ^ e) : Int.log 2 |x| < e := by
  have := (Int.lt_zpow_iff_log_lt (b := 2) (by norm_num) (abs_pos.2 hx)).1 (by exact_mod_cast h)
  exact this

theorem zpow_log_le {x : ℚ} (hx : x ≠ 0) : (2 : ℚ) ^ Int.log 2 |x| ≤ |x| := by
  have := Int.zpow_log_le_self (b := 2) (R := ℚ) (by norm_num) (abs_pos.2 hx)
  exact_mod_cast this

theorem lt_zpow_log (x : ℚ) : |x| < 2 ^ (Int.log 2 |x| + 1) := by
  have := Int.lt_zpow_succ_log_self (b := 2) (R := ℚ) (by norm_num) |x|
  exact_mod_cast this

theorem lt_ulp (x : ℚ) : |x| < 2 ^ (53 : ℕ) * ulp x := by
  refine (lt_zpow_log x).trans_le ?_
  have : (2 : ℚ) ^ (Int.log 2 |x| + 1) ≤ 2 ^ ((53 : ℕ) + expOf x : ℤ) := by
    apply zpow_le_zpow_right₀ (by norm_num)
    unfold expOf
    have := le_max_left (Int.log 2 |x| - 52) (-1074)
    omega
  rwa [zpow_add₀ (by norm_num) ((53 : ℕ) : ℤ), zpow_natCast] at this

/-- A double is a whole number of units in the last place of doubles of its size. -/
theorem Rep.multiple {x : ℚ} (h : Rep x) : ∃ n : ℤ, x = n * ulp x := by
  obtain ⟨m, e, hm, he, rfl⟩ := h
  by_cases hz : ((m : ℚ) * 2 ^ e) = 0
  · exact ⟨0, by rw [hz]; simp⟩
  have hlt : |(m : ℚ) * 2 ^ e| < 2 ^ (53 + e) := by
    rw [abs_mul, abs_of_pos (show (0 : ℚ) < 2 ^ e by positivity), zpow_add₀ (by norm_num)]
    have : (|m| : ℚ) < 2 ^ 53 := by exact_mod_cast hm
    have h2 : (0 : ℚ) < 2 ^ e := by positivity
    exact mul_lt_mul_of_pos_right this h2
  have hle : expOf ((m : ℚ) * 2 ^ e) ≤ e := by
    have := log_lt hz hlt
    unfold expOf
    exact max_le (by omega) he
  refine ⟨m * 2 ^ (e - expOf ((m : ℚ) * 2 ^ e)).toNat, ?_⟩
  unfold ulp
  generalize expOf ((m : ℚ) * 2 ^ e) = k at hle
  push_cast
  rw [mul_assoc, ← zpow_natCast, ← zpow_add₀ (by norm_num)]
  congr 2
  omega

/-- Doubles stay what they are. -/
theorem rnd_rep {x : ℚ} (h : Rep x) : rnd x = x := by
  obtain ⟨n, hn⟩ := h.multiple
  have hu := ulp_pos x
  have : x / ulp x = n := by
    rw [div_eq_iff hu.ne']; exact hn
  unfold rnd
  rw [this, nearestEven_int, ← hn]

/-- A rounded value is a double, but for overflow. -/
theorem rep_rnd (x : ℚ) : Rep (rnd x) := by
  have hu := ulp_pos x
  have h1 : |x / ulp x| < 2 ^ 53 := by
    rw [abs_div, abs_of_pos hu, div_lt_iff₀ hu]; exact lt_ulp x
  have h2 : |nearestEven (x / ulp x)| ≤ 2 ^ 53 := by
    have h3 := nearestEven_dist (x / ulp x)
    have h4 : |(nearestEven (x / ulp x) : ℚ)| < 2 ^ 53 + 1 := by
      have := abs_sub_abs_le_abs_sub (nearestEven (x / ulp x) : ℚ) (x / ulp x)
      linarith
    have h5 : |nearestEven (x / ulp x)| < 2 ^ 53 + 1 := by exact_mod_cast h4
    omega
  have he : -1074 ≤ expOf x := le_max_right _ _
  unfold rnd
  generalize nearestEven (x / ulp x) = n at h2
  rcases lt_or_eq_of_le h2 with h | h
  · exact ⟨n, expOf x, h, he, rfl⟩
  · rcases (abs_eq (by norm_num)).1 h with h | h
    · refine ⟨2 ^ 52, expOf x + 1, by norm_num, by omega, ?_⟩
      rw [h, ulp, zpow_add₀ (by norm_num)]; norm_num; ring
    · refine ⟨-2 ^ 52, expOf x + 1, by norm_num, by omega, ?_⟩
      rw [h, ulp, zpow_add₀ (by norm_num)]; norm_num; ring

theorem rnd_dist (x : ℚ) : |rnd x - x| ≤ ulp x / 2 := by
  have hu := ulp_pos x
  have h := nearestEven_dist (x / ulp x)
  have : rnd x - x = (nearestEven (x / ulp x) - x / ulp x) * ulp x := by
    unfold rnd; field_simp
  rw [this, abs_mul, abs_of_pos hu]
  nlinarith

/-- The unit roundoff. -/
def u : ℚ := 1 / 2 ^ 53
/-- Half the smallest positive double. -/
def eta : ℚ := 1 / 2 ^ 1075

theorem half_pow (n : ℕ) : ((2 : ℚ) ^ n)⁻¹ / 2 = 1 / 2 ^ (n + 1) := by
  rw [pow_succ]
  field_simp

theorem ulp_le {x : ℚ} (hx : x ≠ 0) : ulp x / 2 ≤ max (u * |x|) eta := by
  unfold ulp expOf
  by_cases h : Int.log 2 |x| - 52 ≤ -1074
  · rw [max_eq_right h]
    apply le_max_of_le_right
    unfold eta
    rw [show (-1074 : ℤ) = -((1074 : ℕ) : ℤ) by norm_num, zpow_neg, zpow_natCast]
    exact (half_pow 1074).le
  · rw [max_eq_left (by omega)]
    apply le_max_of_le_left
    have := zpow_log_le hx
    rw [sub_eq_add_neg, zpow_add₀ (by norm_num)]
    unfold u
    rw [show (-52 : ℤ) = -((52 : ℕ) : ℤ) by norm_num, zpow_neg, zpow_natCast]
    calc (2 : ℚ) ^ Int.log 2 |x| * (2 ^ 52)⁻¹ / 2 = 1 / 2 ^ 53 * 2 ^ Int.log 2 |x| := by norm_num; ring
      _ ≤ 1 / 2 ^ 53 * |x| := by gcongr

theorem rnd_zero : rnd 0 = 0 := rnd_rep ⟨0, 0, by norm_num, by norm_num, by norm_num⟩

/-- The standard model of floating-point arithmetic: the relative error is at most `u`, unless the value underflows. -/
theorem rnd_error (x : ℚ) : |rnd x - x| ≤ max (u * |x|) eta := by
  by_cases hx : x = 0
  · subst hx
    rw [rnd_zero]
    simp
  · exact (rnd_dist x).trans (ulp_le hx)

/-- No double is nearer. -/
theorem rnd_le {x z : ℚ} (hz : Rep z) : |rnd x - x| ≤ |z - x| := by
  have hu := ulp_pos x
  -- the multiples of the unit
  have key : ∀ n : ℤ, |rnd x - x| ≤ |n * ulp x - x| := by
    intro n
    have h := nearestEven_le (x / ulp x) n
    have e1 : rnd x - x = (nearestEven (x / ulp x) - x / ulp x) * ulp x := by unfold rnd; field_simp
    have e2 : (n : ℚ) * ulp x - x = (n - x / ulp x) * ulp x := by field_simp
    rw [e1, e2, abs_mul, abs_mul, abs_of_pos hu]
    exact mul_le_mul_of_nonneg_right h hu.le
  obtain ⟨m, e, hm, he, hzv⟩ := hz
  by_cases hle : expOf x ≤ e
  · have := key (m * 2 ^ (e - expOf x).toNat)
    have e3 : ((m * 2 ^ (e - expOf x).toNat : ℤ) : ℚ) * ulp x = z := by
      rw [hzv]; unfold ulp; push_cast
      rw [mul_assoc, ← zpow_natCast, ← zpow_add₀ (by norm_num)]
      congr 2
      omega
    rwa [e3] at this
  · push Not at hle
    by_cases hx0 : x = 0
    · subst hx0
      rw [rnd_zero]
      simp
    have hx : expOf x = Int.log 2 |x| - 52 := by
      unfold expOf at hle ⊢
      rcases max_choice (Int.log 2 |x| - 52) (-1074) with h | h
      · exact h
      · rw [h] at hle; omega
    -- the smallest number with the exponent of `x`
    have hz2 : |z| ≤ 2 ^ 52 * ulp x := by
      rw [hzv, abs_mul, abs_of_pos (show (0 : ℚ) < 2 ^ e by positivity)]
      have h1 : (|m| : ℚ) ≤ 2 ^ 53 := by exact_mod_cast hm.le
      have h2 : (2 : ℚ) ^ e ≤ 2 ^ (expOf x - 1) := zpow_le_zpow_right₀ (by norm_num) (by omega)
      calc |(m : ℚ)| * 2 ^ e ≤ 2 ^ 53 * 2 ^ (expOf x - 1) := by
            have := abs_nonneg (m : ℚ)
            have h3 : (0 : ℚ) < 2 ^ e := by positivity
            exact mul_le_mul h1 h2 h3.le (by norm_num)
        _ = 2 ^ 52 * ulp x := by
            unfold ulp; rw [zpow_sub₀ (by norm_num)]; norm_num; ring
    have hx2 : 2 ^ 52 * ulp x ≤ |x| := by
      have := zpow_log_le hx0
      unfold ulp
      rw [hx, sub_eq_add_neg, zpow_add₀ (by norm_num), show (-52 : ℤ) = -((52 : ℕ) : ℤ) by norm_num, zpow_neg,
        zpow_natCast]
      calc (2 : ℚ) ^ 52 * (2 ^ Int.log 2 |x| * (2 ^ 52)⁻¹) = 2 ^ Int.log 2 |x| := by field_simp
        _ ≤ |x| := this
    rcases le_or_gt 0 x with hp | hp
    · have := key (2 ^ 52)
      rw [abs_of_nonneg hp] at hx2
      refine this.trans ?_
      push_cast
      have := le_abs_self z
      rw [abs_of_nonpos (by linarith), abs_of_nonpos (by linarith)]
      linarith
    · have := key (-2 ^ 52)
      rw [abs_of_neg hp] at hx2
      refine this.trans ?_
      push_cast
      have := neg_abs_le z
      rw [abs_of_nonneg (by linarith), abs_of_nonneg (by linarith)]
      linarith

/-- If another double is as near, then the significand of the result is even and that of the other is next to it. -/
theorem rnd_tie {x z : ℚ} (hz : Rep z) (hne : z ≠ rnd x) (heq : |z - x| = |rnd x - x|) :
    ∃ k n : ℤ, rnd x = 2 * k * ulp x ∧ z = n * ulp x ∧ |n - 2 * k| = 1 := by
  have hu := ulp_pos x
  -- for multiples of the unit
  have key : ∀ n : ℤ, z = n * ulp x →
      ∃ k n : ℤ, rnd x = 2 * k * ulp x ∧ z = n * ulp x ∧ |n - 2 * k| = 1 := by
    intro n hn
    set y := x / ulp x with hy
    have hxy : x = y * ulp x := by rw [hy]; field_simp
    have hN : rnd x = nearestEven y * ulp x := rfl
    have e1 : z - x = (n - y) * ulp x := by rw [hn]; nth_rw 2 [hxy]; ring
    have e2 : rnd x - x = (nearestEven y - y) * ulp x := by rw [hN]; nth_rw 2 [hxy]; ring
    rw [e1, e2, abs_mul, abs_mul, mul_left_inj' (abs_pos.2 hu.ne').ne', abs_eq_abs] at heq
    have hnN : n ≠ nearestEven y := by
      rintro rfl
      exact hne (hn.trans hN.symm)
    rcases heq with h | h
    · refine absurd ?_ hnN
      have : (n : ℚ) = nearestEven y := by linarith
      exact_mod_cast this
    · have h2 : y = ((n + nearestEven y : ℤ) : ℚ) / 2 := by push_cast; linarith
      have heven : 2 ∣ nearestEven y ∧ |n - nearestEven y| = 1 := by
        have h1 := Int.floor_le y
        have h3 := Int.lt_floor_add_one y
        have hfl : (2 * ⌊y⌋ : ℤ) ≤ n + nearestEven y ∧ n + nearestEven y < 2 * ⌊y⌋ + 2 := by
          have a1 : ((2 * ⌊y⌋ : ℤ) : ℚ) ≤ ((n + nearestEven y : ℤ) : ℚ) := by push_cast at h2 ⊢; linarith
          have a2 : ((n + nearestEven y : ℤ) : ℚ) < ((2 * ⌊y⌋ + 2 : ℤ) : ℚ) := by push_cast at h2 ⊢; linarith
          exact ⟨by exact_mod_cast a1, by exact_mod_cast a2⟩
        have hcase : n + nearestEven y = 2 * ⌊y⌋ ∨ n + nearestEven y = 2 * ⌊y⌋ + 1 := by omega
        rcases hcase with hc | hc
        · exfalso
          rw [hc] at h2
          have hyi : y = (⌊y⌋ : ℤ) := by push_cast at h2; linarith
          have hN' : nearestEven y = ⌊y⌋ := by rw [hyi, nearestEven_int, Int.floor_intCast]
          rw [hN'] at hc hnN
          omega
        · rw [hc] at h2
          have hfr : y - ⌊y⌋ = 1 / 2 := by push_cast at h2; linarith
          have hne : nearestEven y = if ⌊y⌋ % 2 = 0 then ⌊y⌋ else ⌊y⌋ + 1 := by
            unfold nearestEven
            rw [if_neg (by linarith), if_neg (by linarith)]
          split_ifs at hne with h5
          · exact ⟨by omega, by rw [show n - nearestEven y = 1 by omega]; rfl⟩
          · exact ⟨by omega, by rw [show n - nearestEven y = -1 by omega]; rfl⟩
      obtain ⟨⟨k, hk⟩, h6⟩ := heven
      exact ⟨k, n, by rw [hN, hk]; push_cast; ring, hn, by rw [← hk]; exact h6⟩
  obtain ⟨m, e, hm, he, hzv⟩ := hz
  by_cases hle : expOf x ≤ e
  · refine key (m * 2 ^ (e - expOf x).toNat) ?_
    rw [hzv]; unfold ulp; push_cast
    rw [mul_assoc, ← zpow_natCast, ← zpow_add₀ (by norm_num)]
    congr 2
    omega
  · push Not at hle
    by_cases hx0 : x = 0
    · subst hx0
      rw [rnd_zero] at hne heq
      simp only [sub_zero, abs_zero, abs_eq_zero] at heq
      exact absurd heq hne
    have hx : expOf x = Int.log 2 |x| - 52 := by
      unfold expOf at hle ⊢
      rcases max_choice (Int.log 2 |x| - 52) (-1074) with h | h
      · exact h
      · rw [h] at hle; omega
    have hz2 : |z| ≤ 2 ^ 52 * ulp x := by
      rw [hzv, abs_mul, abs_of_pos (show (0 : ℚ) < 2 ^ e by positivity)]
      have h1 : (|m| : ℚ) ≤ 2 ^ 53 := by exact_mod_cast hm.le
      have h2 : (2 : ℚ) ^ e ≤ 2 ^ (expOf x - 1) := zpow_le_zpow_right₀ (by norm_num) (by omega)
      calc |(m : ℚ)| * 2 ^ e ≤ 2 ^ 53 * 2 ^ (expOf x - 1) := by
            have h3 : (0 : ℚ) < 2 ^ e := by positivity
            exact mul_le_mul h1 h2 h3.le (by norm_num)
        _ = 2 ^ 52 * ulp x := by
            unfold ulp; rw [zpow_sub₀ (by norm_num)]; norm_num; ring
    have hx2 : 2 ^ 52 * ulp x ≤ |x| := by
      have := zpow_log_le hx0
      unfold ulp
      rw [hx, sub_eq_add_neg, zpow_add₀ (by norm_num), show (-52 : ℤ) = -((52 : ℕ) : ℤ) by norm_num, zpow_neg,
        zpow_natCast]
      calc (2 : ℚ) ^ 52 * (2 ^ Int.log 2 |x| * (2 ^ 52)⁻¹) = 2 ^ Int.log 2 |x| := by field_simp
        _ ≤ |x| := this
    have hmul : ∀ n : ℤ, |n| < 2 ^ 53 → |rnd x - x| ≤ |n * ulp x - x| := fun n hn =>
      rnd_le ⟨n, expOf x, hn, by unfold expOf; exact le_max_right _ _, rfl⟩
    rcases le_or_gt 0 x with hp | hp
    · have h1 := hmul (2 ^ 52) (by norm_num)
      rw [abs_of_nonneg hp] at hx2
      rw [show ((2 ^ 52 : ℤ) : ℚ) = 2 ^ 52 by norm_num] at h1
      have h2 := le_abs_self z
      rw [← heq, abs_of_nonpos (show z - x ≤ 0 by linarith),
        abs_of_nonpos (show 2 ^ 52 * ulp x - x ≤ 0 by linarith)] at h1
      exact key (2 ^ 52) (by rw [show ((2 ^ 52 : ℤ) : ℚ) = 2 ^ 52 by norm_num]; linarith)
    · have h1 := hmul (-2 ^ 52) (by norm_num)
      rw [abs_of_neg hp] at hx2
      rw [show ((-2 ^ 52 : ℤ) : ℚ) = -2 ^ 52 by norm_num] at h1
      have h2 := neg_abs_le z
      rw [← heq, abs_of_nonneg (show 0 ≤ z - x by linarith),
        abs_of_nonneg (show 0 ≤ -2 ^ 52 * ulp x - x by linarith)] at h1
      exact key (-2 ^ 52) (by rw [show ((-2 ^ 52 : ℤ) : ℚ) = -2 ^ 52 by norm_num]; linarith)

/-- Rounding is monotone. -/
theorem rnd_mono {x y : ℚ} (h : x ≤ y) : rnd x ≤ rnd y := by
  rcases h.eq_or_lt with h | h
  · rw [h]
  by_contra hc
  push Not at hc
  have h1 := rnd_le (x := x) (rep_rnd y)
  have h2 := rnd_le (x := y) (rep_rnd x)
  rw [← sq_le_sq] at h1 h2
  nlinarith

theorem rnd_nonneg {x : ℚ} (h : 0 ≤ x) : 0 ≤ rnd x := by
  have := rnd_mono h
  rwa [rnd_zero] at this

theorem rnd_nonpos {x : ℚ} (h : x ≤ 0) : rnd x ≤ 0 := by
  have := rnd_mono h
  rwa [rnd_zero] at this

/-! ## Exact operations -/

/-- A multiple of a power of two that is not too large is a double. -/
theorem rep_of_grid {k e : ℤ} (he : -1074 ≤ e) (h : |(k : ℚ) * 2 ^ e| ≤ 2 ^ (53 + e)) : Rep (k * 2 ^ e) := by
  have h2 : (0 : ℚ) < 2 ^ e := by positivity
  rw [abs_mul, abs_of_pos h2, zpow_add₀ (by norm_num)] at h
  have h3 : |(k : ℚ)| ≤ 2 ^ 53 := by exact_mod_cast le_of_mul_le_mul_right h h2
  have h4 : |k| ≤ 2 ^ 53 := by exact_mod_cast h3
  rcases lt_or_eq_of_le h4 with h5 | h5
  · exact ⟨k, e, h5, he, rfl⟩
  · rcases (abs_eq (by norm_num)).1 h5 with h6 | h6
    · refine ⟨2 ^ 52, e + 1, by norm_num, by omega, ?_⟩
      rw [h6, zpow_add₀ (by norm_num)]; norm_num; ring
    · refine ⟨-2 ^ 52, e + 1, by norm_num, by omega, ?_⟩
      rw [h6, zpow_add₀ (by norm_num)]; norm_num; ring

theorem rep_int {n : ℤ} (h : |n| ≤ 2 ^ 53) : Rep n := by
  have h2 : |(n : ℚ) * 2 ^ (0 : ℤ)| ≤ 2 ^ (53 + 0 : ℤ) := by
    rw [zpow_zero, mul_one, add_zero]
    exact_mod_cast h
  have := rep_of_grid (by norm_num) h2
  rwa [zpow_zero, mul_one] at this

theorem Rep.neg {x : ℚ} (h : Rep x) : Rep (-x) := by
  obtain ⟨m, e, h1, h2, h3⟩ := h
  exact ⟨-m, e, by rwa [abs_neg], h2, by rw [h3]; push_cast; ring⟩

/-- A double is an integer or below `2 ^ 52`, the latter with its distance to integers. -/
theorem Rep.cases {v : ℚ} (h : Rep v) : (∃ n : ℤ, v = n) ∨
    |v| ≤ 2 ^ 52 ∧ ∀ n : ℤ, |v - n| ≤ |v| → Rep (v - n) := by
  obtain ⟨m, e, hm, he, hv⟩ := h
  have hlt : |v| ≤ 2 ^ (53 + e) := by
    rw [hv, abs_mul, abs_of_pos (show (0 : ℚ) < 2 ^ e by positivity), zpow_add₀ (by norm_num)]
    have : (|m| : ℚ) ≤ 2 ^ 53 := by exact_mod_cast hm.le
    have h2 : (0 : ℚ) < 2 ^ e := by positivity
    exact mul_le_mul_of_nonneg_right this h2.le
  rcases le_or_gt 0 e with h0 | h0
  · left
    refine ⟨m * 2 ^ e.toNat, ?_⟩
    rw [hv]; push_cast; rw [← zpow_natCast]; congr 2; omega
  · right
    refine ⟨hlt.trans ?_, fun n hn => ?_⟩
    · have : (2 : ℚ) ^ (53 + e) ≤ 2 ^ (52 : ℤ) := zpow_le_zpow_right₀ (by norm_num) (by omega)
      exact_mod_cast this
    · have e1 : v - n = ((m - n * 2 ^ (-e).toNat : ℤ) : ℚ) * 2 ^ e := by
        rw [hv]; push_cast
        have : ((2 : ℚ) ^ (-e).toNat) * 2 ^ e = 1 := by
          rw [← zpow_natCast, ← zpow_add₀ (by norm_num)]
          rw [show (((-e).toNat : ℕ) : ℤ) + e = 0 by omega, zpow_zero]
        linear_combination (n : ℚ) * this
      rw [e1] at hn ⊢
      exact rep_of_grid he (hn.trans hlt)

theorem abs_round_le (v : ℚ) : |v - roundAway v| ≤ |v| := by
  unfold roundAway
  split_ifs with h
  · have h1 := Int.floor_le (v + 1 / 2)
    have h2 : 0 ≤ ⌊v + 1 / 2⌋ := Int.floor_nonneg.2 (by linarith)
    rw [abs_of_nonneg h, abs_le]
    rcases h2.eq_or_lt with h3 | h3
    · rw [← h3]; push_cast; constructor <;> linarith
    · have h4 : (1 : ℚ) ≤ ⌊v + 1 / 2⌋ := by exact_mod_cast h3
      constructor <;> linarith
  · push Not at h
    have h1 := Int.le_ceil (v - 1 / 2)
    have h2 : ⌈v - 1 / 2⌉ ≤ 0 := Int.ceil_le.2 (by push_cast; linarith)
    rw [abs_of_neg h, abs_le]
    rcases h2.eq_or_lt with h3 | h3
    · rw [h3]; push_cast; constructor <;> linarith
    · have h4 : (⌈v - 1 / 2⌉ : ℚ) ≤ -1 := by exact_mod_cast Int.le_sub_one_of_lt h3
      constructor <;> linarith

theorem roundAway_int (n : ℤ) : roundAway n = n := by
  unfold roundAway
  split_ifs
  · rw [Int.floor_eq_iff]; constructor <;> linarith
  · rw [Int.ceil_eq_iff]; constructor <;> linarith

/-- The distance to the nearest integer is computed exactly. -/
theorem Rep.sub_round {v : ℚ} (h : Rep v) : Rep (v - roundAway v) := by
  rcases h.cases with ⟨n, rfl⟩ | ⟨-, h2⟩
  · rw [roundAway_int, sub_self]
    exact_mod_cast rep_int (n := 0) (by norm_num)
  · exact h2 _ (abs_round_le v)

/-- The fractional part of a non-negative value is computed exactly. -/
theorem Rep.sub_floor {v : ℚ} (h : Rep v) (h0 : 0 ≤ v ∨ v ≤ -1 / 2) : Rep (v - ⌊v⌋) := by
  rcases h.cases with ⟨n, rfl⟩ | ⟨-, h2⟩
  · rw [Int.floor_intCast, sub_self]
    exact_mod_cast rep_int (n := 0) (by norm_num)
  · apply h2
    have h3 := Int.floor_le v
    have h4 := Int.lt_floor_add_one v
    rw [abs_of_nonneg (by linarith)]
    rcases h0 with h0 | h0
    · rw [abs_of_nonneg h0]
      have : (0 : ℚ) ≤ ⌊v⌋ := by exact_mod_cast Int.floor_nonneg.2 h0
      linarith
    · rw [abs_of_nonpos (by linarith)]
      rcases le_or_gt v (-1) with h5 | h5
      · linarith
      · have : ⌊v⌋ = -1 := by rw [Int.floor_eq_iff]; push_cast; constructor <;> linarith
        rw [this]; push_cast; linarith

theorem Rep.floor {v : ℚ} (h : Rep v) : Rep ⌊v⌋ := by
  rcases h.cases with ⟨n, rfl⟩ | ⟨h2, -⟩
  · rwa [Int.floor_intCast]
  · apply rep_int
    have h3 := Int.floor_le v
    have h4 := Int.lt_floor_add_one v
    rw [abs_le] at h2
    have h5 : |(⌊v⌋ : ℚ)| ≤ 2 ^ 53 := by rw [abs_le]; constructor <;> linarith
    exact_mod_cast h5

theorem Rep.ceil {v : ℚ} (h : Rep v) : Rep ⌈v⌉ := by
  have := h.neg.floor.neg
  rwa [Int.floor_neg, Int.cast_neg, neg_neg] at this

theorem roundAway_cases (v : ℚ) : roundAway v = ⌊v⌋ ∨ roundAway v = ⌈v⌉ := by
  unfold roundAway
  have h1 := Int.floor_le v
  have h2 := Int.lt_floor_add_one v
  have h3 := Int.le_ceil v
  have h4 := Int.ceil_lt_add_one v
  by_cases hi : ∃ n : ℤ, v = n
  · obtain ⟨n, rfl⟩ := hi
    left
    have := roundAway_int n
    unfold roundAway at this
    rw [this, Int.floor_intCast]
  have hc : ⌈v⌉ = ⌊v⌋ + 1 := by
    rw [Int.ceil_eq_iff]
    push_cast
    refine ⟨?_, by linarith⟩
    rcases h1.eq_or_lt with h | h
    · exact absurd ⟨_, h.symm⟩ hi
    · linarith
  rw [hc] at h3 h4 ⊢
  push_cast at h3 h4
  split_ifs
  · rcases lt_or_ge (v + 1 / 2) (⌊v⌋ + 1) with h | h
    · left; rw [Int.floor_eq_iff]; constructor <;> linarith
    · right; rw [Int.floor_eq_iff]; push_cast; constructor <;> linarith
  · rcases lt_or_ge (⌊v⌋ : ℚ) (v - 1 / 2) with h | h
    · right; rw [Int.ceil_eq_iff]; push_cast; constructor <;> linarith
    · left; rw [Int.ceil_eq_iff]; constructor <;> linarith

theorem Rep.roundAway {v : ℚ} (h : Rep v) : Rep (roundAway v) := by
  rcases roundAway_cases v with h2 | h2 <;> rw [h2]
  exacts [h.floor, h.ceil]

/-- The smallest positive double. -/
theorem rep_min : Rep (2 ^ (-1074 : ℤ)) := ⟨1, -1074, by norm_num, by norm_num, by norm_num⟩

/-- The fractional part of a double that is not an integer does not vanish. -/
theorem Rep.rnd_frac_pos {v : ℚ} (h : Rep v) (hi : ∀ n : ℤ, v ≠ n) : 0 < rnd (v - ⌊v⌋) := by
  obtain ⟨m, e, hm, he, hv⟩ := h
  have hpos : 0 < v - ⌊v⌋ := by
    rcases (Int.floor_le v).eq_or_lt with h | h
    · exact absurd h.symm (hi _)
    · linarith
  have he0 : e < 0 := by
    by_contra hc
    refine hi (m * 2 ^ e.toNat) ?_
    rw [hv]; push_cast; rw [← zpow_natCast]; congr 2; omega
  have e1 : v - ⌊v⌋ = ((m - ⌊v⌋ * 2 ^ (-e).toNat : ℤ) : ℚ) * 2 ^ e := by
    push_cast
    have : ((2 : ℚ) ^ (-e).toNat) * 2 ^ e = 1 := by
      rw [← zpow_natCast, ← zpow_add₀ (by norm_num)]
      rw [show (((-e).toNat : ℕ) : ℤ) + e = 0 by omega, zpow_zero]
    linear_combination hv + (⌊v⌋ : ℚ) * this
  have h2 : (0 : ℚ) < 2 ^ e := by positivity
  have hk : 0 < m - ⌊v⌋ * 2 ^ (-e).toNat := by
    rw [e1] at hpos
    exact_mod_cast (pos_iff_pos_of_mul_pos hpos).2 h2
  have h3 : (2 : ℚ) ^ (-1074 : ℤ) ≤ v - ⌊v⌋ := by
    rw [e1]
    have h4 : (1 : ℚ) ≤ ((m - ⌊v⌋ * 2 ^ (-e).toNat : ℤ) : ℚ) := by exact_mod_cast hk
    have h5 : (2 : ℚ) ^ (-1074 : ℤ) ≤ 2 ^ e := zpow_le_zpow_right₀ (by norm_num) he
    nlinarith
  have h6 := rnd_mono h3
  rw [rnd_rep rep_min] at h6
  exact lt_of_lt_of_le (by positivity) h6

/-! ## The largest double -/

theorem le_maxFinite {x : ℚ} (h : |x| ≤ 2 ^ 53) : |x| ≤ maxFinite := by
  refine h.trans ?_
  unfold maxFinite
  have : (2 : ℚ) ^ 1 ≤ 2 ^ 971 := pow_le_pow_right₀ (by norm_num) (by norm_num)
  calc (2 : ℚ) ^ 53 ≤ (2 ^ 53 - 1) * 2 ^ 1 := by norm_num
    _ ≤ (2 ^ 53 - 1) * 2 ^ 971 := mul_le_mul_of_nonneg_left this (by norm_num)

theorem round_rep {x : ℚ} (h : Rep x) (hm : |x| ≤ maxFinite) : round x = .fin x := by
  unfold round
  rw [rnd_rep h, if_pos hm]

theorem IsDouble.floor {v : ℚ} (h : IsDouble v) : IsDouble ⌊v⌋ := by
  refine ⟨h.1.floor, ?_⟩
  rcases h.1.cases with ⟨n, rfl⟩ | ⟨h2, -⟩
  · rw [Int.floor_intCast]; exact h.2
  · apply le_maxFinite
    have h3 := Int.floor_le v
    have h4 := Int.lt_floor_add_one v
    rw [abs_le] at h2
    rw [abs_le]; constructor <;> linarith

theorem IsDouble.neg {v : ℚ} (h : IsDouble v) : IsDouble (-v) := ⟨h.1.neg, by rw [abs_neg]; exact h.2⟩

theorem IsDouble.ceil {v : ℚ} (h : IsDouble v) : IsDouble ⌈v⌉ := by
  have := h.neg.floor.neg
  rwa [Int.floor_neg, Int.cast_neg, neg_neg] at this

theorem IsDouble.roundAway {v : ℚ} (h : IsDouble v) : IsDouble (roundAway v) := by
  rcases roundAway_cases v with h2 | h2 <;> rw [h2]
  exacts [h.floor, h.ceil]

/-! ## Sums, products and underflow -/

theorem Rep.grid {x : ℚ} (h : Rep x) : ∃ k : ℤ, x = k * 2 ^ (-1074 : ℤ) := by
  obtain ⟨m, e, -, he, rfl⟩ := h
  refine ⟨m * 2 ^ (e + 1074).toNat, ?_⟩
  push_cast
  rw [mul_assoc, ← zpow_natCast, ← zpow_add₀ (by norm_num)]
  congr 2
  omega

/-- Sums do not underflow: the relative error is at most `u`. -/
theorem rnd_add_error {a b : ℚ} (ha : Rep a) (hb : Rep b) : |rnd (a + b) - (a + b)| ≤ u * |a + b| := by
  obtain ⟨k, hk⟩ := ha.grid
  obtain ⟨l, hl⟩ := hb.grid
  have hx : a + b = ((k + l : ℤ) : ℚ) * 2 ^ (-1074 : ℤ) := by rw [hk, hl]; push_cast; ring
  generalize a + b = x at hx
  by_cases hx0 : x = 0
  · rw [hx0, rnd_zero]; simp
  by_cases h : Int.log 2 |x| - 52 ≤ -1074
  · have hu : ulp x = 2 ^ (-1074 : ℤ) := by unfold ulp expOf; rw [max_eq_right h]
    have : rnd x = x := by
      unfold rnd
      have h2 : x / ulp x = ((k + l : ℤ) : ℚ) := by
        rw [hu, div_eq_iff (by positivity)]; exact hx
      rw [h2, nearestEven_int, hu]; exact hx.symm
    rw [this]
    have : 0 ≤ u * |x| := mul_nonneg (by unfold u; positivity) (abs_nonneg x)
    simpa using this
  · refine (rnd_dist x).trans ?_
    unfold ulp expOf
    rw [max_eq_left (by omega)]
    have := zpow_log_le hx0
    rw [sub_eq_add_neg, zpow_add₀ (by norm_num)]
    unfold u
    rw [show (-52 : ℤ) = -((52 : ℕ) : ℤ) by norm_num, zpow_neg, zpow_natCast]
    calc (2 : ℚ) ^ Int.log 2 |x| * (2 ^ 52)⁻¹ / 2 = 1 / 2 ^ 53 * 2 ^ Int.log 2 |x| := by norm_num; ring
      _ ≤ 1 / 2 ^ 53 * |x| := by gcongr

/-- Half the smallest positive double is rounded to zero. -/
theorem rnd_eta : rnd (2 ^ (-1074 : ℤ) / 2) = 0 := by
  set x : ℚ := 2 ^ (-1074 : ℤ) / 2 with hx
  have hpos : 0 < x := by rw [hx]; positivity
  have hlt : |x| < 2 ^ (-1074 : ℤ) := by
    rw [abs_of_pos hpos, hx]
    have : (0 : ℚ) < 2 ^ (-1074 : ℤ) := by positivity
    linarith
  have hlog := log_lt hpos.ne' hlt
  have hu : ulp x = 2 ^ (-1074 : ℤ) := by unfold ulp expOf; rw [max_eq_right (by omega)]
  unfold rnd
  have h2 : x / ulp x = 1 / 2 := by
    rw [hu, hx]
    have : (2 : ℚ) ^ (-1074 : ℤ) ≠ 0 := by positivity
    field_simp
  rw [h2]
  have : nearestEven (1 / 2) = 0 := by
    have hf : ⌊(1 / 2 : ℚ)⌋ = 0 := by rw [Int.floor_eq_iff]; norm_num
    unfold nearestEven
    rw [hf]; norm_num
  rw [this]; simp

/-- Products that do not underflow keep away from zero. -/
theorem rnd_ne_zero {x : ℚ} (h : 2 ^ (-1074 : ℤ) ≤ |x|) : rnd x ≠ 0 := by
  have hp : (0 : ℚ) < 2 ^ (-1074 : ℤ) := by positivity
  rcases le_or_gt 0 x with h0 | h0
  · rw [abs_of_nonneg h0] at h
    have := rnd_mono h
    rw [rnd_rep rep_min] at this
    linarith
  · rw [abs_of_neg h0] at h
    have := rnd_mono (show x ≤ -2 ^ (-1074 : ℤ) by linarith)
    rw [rnd_rep rep_min.neg] at this
    linarith

theorem round_eq_fin {x z : ℚ} (h : round x = .fin z) : z = rnd x ∧ |z| ≤ maxFinite := by
  unfold round at h
  split_ifs at h with h1
  simp only [Dbl.fin.injEq] at h
  exact ⟨h.symm, by rw [← h]; exact h1⟩

theorem add_eq_fin {x y : Dbl} {z : ℚ} (h : add x y = .fin z) :
    ∃ a b, x = .fin a ∧ y = .fin b ∧ z = rnd (a + b) := by
  unfold add at h
  cases x <;> cases y <;> simp only [Dbl.add, rounded, reduceCtorEq] at h
  rename_i a b
  exact ⟨a, b, rfl, rfl, (round_eq_fin h).1⟩

theorem infTimes_ne_fin (q z : ℚ) : infTimes q ≠ .fin z := by
  unfold infTimes
  split_ifs <;> simp

theorem mul_eq_fin {x y : Dbl} {z : ℚ} (h : mul x y = .fin z) :
    ∃ a b, x = .fin a ∧ y = .fin b ∧ z = rnd (a * b) := by
  cases x <;> cases y <;> simp only [mul, reduceCtorEq] at h
  all_goals first
    | exact absurd h (infTimes_ne_fin _ _)
    | exact ⟨_, _, rfl, rfl, (round_eq_fin h).1⟩

end Ieee
end MiniMip
