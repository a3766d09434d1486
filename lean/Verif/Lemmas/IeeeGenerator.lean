import Verif.Model.IeeeGenerator
import Verif.Lemmas.Ieee
import Verif.Lemmas.Rounding
import Verif.Props.IeeeBranching

/-!
# Mixed-integer rounding in floating-point arithmetic
-/

namespace MiniMip

namespace Rounding

/-- Mixed-integer rounding is Lipschitz: a point that violates the inequality by `ε` violates the rounded one by at
most `ε / (1 - f0)`. -/
theorem mir_lipschitz {f0 ε : ℚ} {β : Int} (h0 : 0 ≤ f0) (h1 : f0 < 1) (hε : 0 ≤ ε) (l : List Term)
    (h : ∀ t ∈ l, MirTerm f0 t) (hb : lhs l ≤ β + f0 + ε) : lhsRounded l ≤ β + ε / (1 - f0) := by
  have hd : 0 < 1 - f0 := by linarith
  obtain ⟨z, s, hs, ha, hc⟩ := mir_split h1 l h
  refine hc.trans ?_
  rcases le_or_gt z β with hz | hz
  · have : (z : ℚ) ≤ β := by exact_mod_cast hz
    have := div_nonneg hs hd.le
    have := div_nonneg hε hd.le
    linarith
  · have hz1 : (β : ℚ) + 1 ≤ z := by exact_mod_cast hz
    have : (z : ℚ) - β ≤ s / (1 - f0) + ε / (1 - f0) := by
      rw [← add_div, le_div_iff₀ hd]
      nlinarith
    linarith

end Rounding

namespace Ieee

theorem u_pos : 0 < u := by unfold u; norm_num
theorem u_small : u ≤ 1 / 2 ^ 53 := le_rfl

theorem eta_le_u : eta ≤ u := by
  unfold eta u
  exact one_div_le_one_div_of_le (by positivity) (pow_le_pow_right₀ (by norm_num) (by norm_num))

theorem rep_one : Rep 1 := by exact_mod_cast rep_int (n := 1) (by norm_num)

/-- A double below 1 is at least `u` below. -/
theorem Rep.one_sub {f : ℚ} (h : Rep f) (h0 : 0 ≤ f) (h1 : f < 1) : u ≤ 1 - f := by
  by_contra hn
  have hr : rnd f = f := rnd_rep h
  -- the double `1 - u` would be between
  have hrep : Rep (1 - u) := by
    refine ⟨2 ^ 53 - 1, -53, by norm_num, by norm_num, ?_⟩
    unfold u
    norm_num
  obtain ⟨m, e, hm, he, hx⟩ := h
  have hpos : 1 / 2 < f := by unfold u at hn; norm_num at hn; linarith
  -- the exponent is at most -53
  by_cases hE : e ≤ -53
  · have h2 : (2 : ℚ) ^ e ≤ 2 ^ (-53 : ℤ) := zpow_le_zpow_right₀ (by norm_num) hE
    have hm' : (m : ℚ) ≤ 2 ^ 53 - 1 := by
      have := (abs_lt.1 hm).2
      exact_mod_cast Int.le_sub_one_of_lt this
    have hp : (0 : ℚ) < 2 ^ e := by positivity
    have hm0 : (0 : ℚ) ≤ m := by
      by_contra hc
      push Not at hc
      nlinarith
    have : f ≤ (2 ^ 53 - 1) * 2 ^ (-53 : ℤ) := by
      rw [hx]
      exact mul_le_mul hm' h2 hp.le (by norm_num)
    unfold u at hn
    norm_num at this hn
    linarith
  · -- multiples of 2^-52
    have hE : -52 ≤ e := by omega
    obtain ⟨j, hj⟩ : ∃ j : ℤ, f = j * 2 ^ (-52 : ℤ) := by
      refine ⟨m * 2 ^ (e + 52).toNat, ?_⟩
      rw [hx]
      push_cast
      rw [mul_assoc, ← zpow_natCast, ← zpow_add₀ (by norm_num)]
      congr 2
      omega
    have hj1 : (j : ℚ) < 2 ^ 52 := by
      have : (j : ℚ) * 2 ^ (-52 : ℤ) < 1 := by rw [← hj]; exact h1
      norm_num at this
      norm_num
      linarith
    have hj2 : (j : ℚ) ≤ 2 ^ 52 - 1 := by
      have : j < 2 ^ 52 := by exact_mod_cast hj1
      exact_mod_cast Int.le_sub_one_of_lt this
    unfold u at hn
    rw [hj] at hn
    norm_num at hn hj2
    linarith

/-- Values of moderate size are rounded to a finite double. -/
theorem rep_pow (n : ℕ) : Rep (2 ^ n) := ⟨1, n, by norm_num, by omega, by simp⟩

theorem round_fin {x : ℚ} (h : |x| ≤ 2 ^ 1000) : round x = .fin (rnd x) := by
  unfold round
  rw [if_pos]
  have h1 : rnd x ≤ 2 ^ 1000 := by
    have := rnd_mono (abs_le.1 h).2
    rwa [rnd_rep (rep_pow 1000)] at this
  have h2 : -2 ^ 1000 ≤ rnd x := by
    have := rnd_mono (abs_le.1 h).1
    rwa [rnd_rep (rep_pow 1000).neg] at this
  refine (abs_le.2 ⟨h2, h1⟩).trans ?_
  unfold maxFinite
  have h3 : (2 : ℚ) ^ 1000 = 2 ^ 29 * 2 ^ 971 := by rw [← pow_add]
  rw [h3]
  exact mul_le_mul_of_nonneg_right (by norm_num) (by positivity)

theorem div_fin {a b : ℚ} (hb : b ≠ 0) : div (.fin a) (.fin b) = round (a / b) := if_neg hb

theorem add_fin (a b : ℚ) : add (.fin a) (.fin b) = round (a + b) := rfl

theorem one_le_big : (1 : ℚ) ≤ 2 ^ 1000 := one_le_pow₀ (by norm_num)

theorem big_mono {n : ℕ} (h : n ≤ 1000) : (2 : ℚ) ^ n ≤ 2 ^ 1000 := pow_le_pow_right₀ (by norm_num) h

theorem frac_le_big {x : ℚ} (h0 : 0 ≤ x) (h1 : x ≤ 1) : |x| ≤ 2 ^ 1000 := by
  rw [abs_of_nonneg h0]; exact h1.trans one_le_big

/-- The rounded difference `1 - f0`. -/
theorem denominator {f0 : ℚ} (hf : Rep f0) (h0 : 0 ≤ f0) (h1 : f0 < 1) :
    ∃ d, sub (.fin 1) (.fin f0) = .fin d ∧ (1 - f0) * (1 - u) ≤ d ∧ d ≤ (1 - f0) * (1 + u) := by
  refine ⟨rnd (1 - f0), ?_, ?_, ?_⟩
  · rw [sub_fin, round_fin (frac_le_big (by linarith) (by linarith))]
  all_goals
    have h := rnd_add_error rep_one hf.neg
    rw [← sub_eq_add_neg, abs_of_nonneg (show 0 ≤ 1 - f0 by linarith), abs_le] at h
    linarith [h.1, h.2]

/-- The quotient in MIR rounding. -/
theorem quotient_bound {fj f0 : ℚ} (hf : Rep f0) (h0 : 0 ≤ f0) (h1 : f0 < 1) (hj : Rep fj) (hlt : f0 < fj)
    (hle : fj ≤ 1) :
    ∃ q, div (sub (.fin fj) (.fin f0)) (sub (.fin 1) (.fin f0)) = .fin q ∧ Rep q ∧ 0 ≤ q ∧
      q ≤ (fj - f0) / (1 - f0) + 5 * u := by
  have hu := u_pos
  have hu' : u ≤ 1 / 100 := by unfold u; norm_num
  obtain ⟨d, hd, hd1, hd2⟩ := denominator hf h0 h1
  have hy : 0 < 1 - f0 := by linarith
  have hdpos : 0 < d := lt_of_lt_of_le (mul_pos hy (by linarith)) hd1
  set n := rnd (fj - f0) with hn
  have hsub : sub (.fin fj) (.fin f0) = .fin n := by
    rw [sub_fin, round_fin (frac_le_big (by linarith) (by linarith))]
  have hn0 : 0 ≤ n := rnd_nonneg (by linarith)
  have hn1 : n ≤ (fj - f0) * (1 + u) := by
    have h := rnd_add_error hj hf.neg
    rw [← sub_eq_add_neg, abs_of_pos (show 0 < fj - f0 by linarith), abs_le] at h
    linarith [h.2]
  have hz0 : 0 ≤ (fj - f0) / (1 - f0) := div_nonneg (by linarith) hy.le
  have hz1 : (fj - f0) / (1 - f0) ≤ 1 := by rw [div_le_one hy]; linarith
  have hquo : n / d ≤ (fj - f0) / (1 - f0) + 3 * u := by
    rw [div_le_iff₀ hdpos]
    have e1 : (fj - f0) / (1 - f0) * (1 - f0) = fj - f0 := div_mul_cancel₀ _ hy.ne'
    set z := (fj - f0) / (1 - f0) with hz
    have h2 : (z + 3 * u) * ((1 - f0) * (1 - u)) ≤ (z + 3 * u) * d :=
      mul_le_mul_of_nonneg_left hd1 (by positivity)
    refine hn1.trans (le_trans ?_ h2)
    have e2 : (fj - f0) * (1 + u) = z * (1 + u) * (1 - f0) := by rw [← e1]; ring
    rw [e2, show (z + 3 * u) * ((1 - f0) * (1 - u)) = (z + 3 * u) * (1 - u) * (1 - f0) by ring]
    apply mul_le_mul_of_nonneg_right _ hy.le
    nlinarith
  have hquo0 : 0 ≤ n / d := div_nonneg hn0 hdpos.le
  have hbig : |n / d| ≤ 2 ^ 1000 := by
    rw [abs_of_nonneg hquo0]
    exact (show n / d ≤ 2 ^ 1 by linarith).trans (big_mono (by norm_num))
  refine ⟨rnd (n / d), ?_, rep_rnd _, rnd_nonneg hquo0, ?_⟩
  · rw [hsub, hd, div_fin hdpos.ne', round_fin hbig]
  · have h := rnd_error (n / d)
    rw [abs_of_nonneg hquo0] at h
    have h2 : max (u * (n / d)) eta ≤ 2 * u := by
      refine max_le ?_ (eta_le_u.trans (by linarith))
      nlinarith
    have := (abs_le.1 (h.trans h2)).2
    linarith

open Classical in
/-- The fraction the code computes. -/
theorem fractionality_fin {tol v : ℚ} (hv : IsDouble v) :
    fractionality (.fin tol) (.fin v) =
      if ∃ n : ℤ, |v - n| ≤ tol then .fin 0 else .fin (rnd (v - ⌊v⌋)) := by
  have h1 := Int.floor_le v
  have h2 := Int.lt_floor_add_one v
  have h := (C86_tests tol v hv).1
  unfold fractionality
  by_cases hi : ∃ n : ℤ, |v - n| ≤ tol
  · rw [if_pos (h.2 hi), if_pos hi]
  · rw [if_neg (fun hc => hi (h.1 hc)), if_neg hi]
    show sub (.fin v) (.fin _) = _
    rw [sub_fin, round_fin (frac_le_big (by linarith) (by linarith))]

open Classical in
theorem floorWithTolerance_fin {tol v : ℚ} (hv : IsDouble v) :
    floorWithTolerance (.fin tol) (.fin v) =
      if ∃ n : ℤ, |v - n| ≤ tol then .fin (roundAway v) else .fin ⌊v⌋ := by
  have h := (C86_tests tol v hv).1
  unfold floorWithTolerance
  by_cases hi : ∃ n : ℤ, |v - n| ≤ tol
  · rw [if_pos (h.2 hi), if_pos hi]; rfl
  · rw [if_neg (fun hc => hi (h.1 hc)), if_neg hi]; rfl

theorem near_roundAway {tol v : ℚ} (h : ∃ n : ℤ, |v - n| ≤ tol) : |v - roundAway v| ≤ tol :=
  (near_round_iff v tol).2 h

/-- The exact coefficient of mixed-integer rounding. -/
def mirExact (a f0 : ℚ) : ℚ :=
  if f0 < a - ⌊a⌋ then ⌊a⌋ + (a - ⌊a⌋ - f0) / (1 - f0) else ⌊a⌋

/-- The computed coefficient of an integer variable is at most the exact one, but for the tolerance and rounding. -/
theorem mirRoundInteger_bound {tol a f0 : ℚ} (ht0 : 0 ≤ tol) (ha : IsDouble a) (hf : Rep f0) (h0 : 0 ≤ f0)
    (h1 : f0 < 1) :
    ∃ r, mirRoundInteger (.fin tol) (.fin a) (.fin f0) = .fin r ∧
      r ≤ mirExact a f0 + (tol + 1 / 2 ^ 49) * (|a| + 1) / (1 - f0) := by
  have hy : 0 < 1 - f0 := by linarith
  have hD : 1 ≤ 1 / (1 - f0) := by rw [le_div_iff₀ hy]; linarith
  have hfl := Int.floor_le a
  have hfl' := Int.lt_floor_add_one a
  have hex : (⌊a⌋ : ℚ) ≤ mirExact a f0 := by
    unfold mirExact
    split_ifs with h
    · have := div_nonneg (show 0 ≤ a - ⌊a⌋ - f0 by linarith) hy.le
      linarith
    · exact le_rfl
  have herr : 0 ≤ (tol + 1 / 2 ^ 49) * (|a| + 1) / (1 - f0) := by positivity
  unfold mirRoundInteger
  simp only [fractionality_fin ha, floorWithTolerance_fin ha]
  by_cases hi : ∃ n : ℤ, |a - n| ≤ tol
  · simp only [if_pos hi, if_pos ((Dbl.le_fin 0 f0).2 h0)]
    refine ⟨_, rfl, ?_⟩
    -- near an integer
    have hn := near_roundAway hi
    set n := roundAway a with hnd
    have hlast : tol / (1 - f0) ≤ (tol + 1 / 2 ^ 49) * (|a| + 1) / (1 - f0) := by
      apply div_le_div_of_nonneg_right _ hy.le
      have := abs_nonneg a
      nlinarith
    rcases roundAway_cases a with h | h
    · rw [← hnd] at h; rw [h]; linarith
    · rw [← hnd] at h
      rcases (Int.ceil_le_floor_add_one a).eq_or_lt with hc | hc
      · rw [hc] at h
        have hval : (n : ℚ) = ⌊a⌋ + 1 := by rw [h]; push_cast; ring
        have hdel : ⌊a⌋ + 1 - a ≤ tol := by
          have := (abs_le.1 hn).1
          linarith
        rw [hval]
        refine le_trans ?_ (add_le_add_right hlast _)
        unfold mirExact
        split_ifs with hlt
        · have : (a - ⌊a⌋ - f0) / (1 - f0) = 1 - (⌊a⌋ + 1 - a) / (1 - f0) := by
            field_simp; ring
          rw [this]
          have := div_le_div_of_nonneg_right hdel hy.le
          linarith
        · have : 1 ≤ tol / (1 - f0) := by rw [le_div_iff₀ hy]; linarith
          linarith
      · have : n ≤ ⌊a⌋ := by omega
        have : (n : ℚ) ≤ ⌊a⌋ := by exact_mod_cast this
        linarith
  · simp only [if_neg hi]
    set fj := rnd (a - ⌊a⌋) with hfj
    by_cases hle : fj ≤ f0
    · rw [if_pos ((Dbl.le_fin _ _).2 hle)]
      exact ⟨_, rfl, by linarith⟩
    · rw [if_neg (by rw [Dbl.le_fin]; exact hle)]
      push Not at hle
      have hfj1 : fj ≤ 1 := by
        have := rnd_mono (x := a - ⌊a⌋) (y := 1) (by linarith)
        rwa [rnd_rep rep_one] at this
      obtain ⟨q, hq, hqr, hq0, hqle⟩ := quotient_bound hf h0 h1 (rep_rnd (a - ⌊a⌋)) hle hfj1
      rw [hq, add_fin]
      have hu := u_pos
      have hu' : u ≤ 1 / 100 := by unfold u; norm_num
      have hz1 : (fj - f0) / (1 - f0) ≤ 1 := by rw [div_le_one hy]; linarith
      have ha53 : |a| ≤ 2 ^ 53 := by
        rcases ha.1.cases with ⟨n, rfl⟩ | ⟨h2, -⟩
        · exact absurd ⟨n, by simpa using ht0⟩ hi
        · exact h2.trans (by norm_num)
      have hF : |(⌊a⌋ : ℚ)| ≤ |a| + 1 := by
        rw [abs_le]
        have := le_abs_self a
        have := neg_abs_le a
        constructor <;> linarith
      have hsum : |(⌊a⌋ : ℚ) + q| ≤ |a| + 3 := by
        refine (abs_add_le _ _).trans ?_
        rw [abs_of_nonneg hq0]
        linarith
      have hbig : |(⌊a⌋ : ℚ) + q| ≤ 2 ^ 1000 := by
        refine hsum.trans (le_trans ?_ (big_mono (n := 54) (by norm_num)))
        norm_num at ha53 ⊢
        linarith
      refine ⟨_, round_fin hbig, ?_⟩
      have hrnd := rnd_add_error (ha.1.floor) hqr
      have h3 : rnd (⌊a⌋ + q) ≤ ⌊a⌋ + q + u * (|a| + 3) := by
        have h4 := (abs_le.1 hrnd).2
        have h5 : u * |(⌊a⌋ : ℚ) + q| ≤ u * (|a| + 3) := mul_le_mul_of_nonneg_left hsum hu.le
        linarith
      -- the fraction
      have hfe : fj ≤ a - ⌊a⌋ + u := by
        have := (abs_le.1 (frac_error a)).2
        unfold u
        linarith
      have hq2 : (fj - f0) / (1 - f0) ≤ mirExact a f0 - ⌊a⌋ + u / (1 - f0) := by
        unfold mirExact
        split_ifs with hlt
        · have : (⌊a⌋ : ℚ) + (a - ⌊a⌋ - f0) / (1 - f0) - ⌊a⌋ + u / (1 - f0) = (a - ⌊a⌋ + u - f0) / (1 - f0) := by
            ring
          rw [this]
          exact div_le_div_of_nonneg_right (by linarith) hy.le
        · rw [sub_self, zero_add]
          exact div_le_div_of_nonneg_right (by linarith) hy.le
      have hfin : u / (1 - f0) + 5 * u + u * (|a| + 3) ≤ (tol + 1 / 2 ^ 49) * (|a| + 1) / (1 - f0) := by
        have e1 : u / (1 - f0) + 5 * u + u * (|a| + 3) ≤ (u + 5 * u + u * (|a| + 3)) / (1 - f0) := by
          have h6 : 5 * u + u * (|a| + 3) ≤ (5 * u + u * (|a| + 3)) / (1 - f0) := by
            rw [le_div_iff₀ hy]
            have : 0 ≤ 5 * u + u * (|a| + 3) := by positivity
            nlinarith
          have e2 : (u + 5 * u + u * (|a| + 3)) / (1 - f0) = u / (1 - f0) + (5 * u + u * (|a| + 3)) / (1 - f0) := by
            ring
          linarith
        refine e1.trans (div_le_div_of_nonneg_right ?_ hy.le)
        have h7 : (1 : ℚ) / 2 ^ 49 = 16 * u := by unfold u; norm_num
        rw [h7]
        have := abs_nonneg a
        nlinarith
      linarith

/-- The computed coefficient of a continuous variable. -/
theorem mirRoundContinuous_bound {a f0 : ℚ} (ha : |a| ≤ 2 ^ 900) (hf : Rep f0) (h0 : 0 ≤ f0) (h1 : f0 < 1) :
    ∃ r, mirRoundContinuous (.fin a) (.fin f0) = .fin r ∧ (0 ≤ a → r = 0) ∧
      (a < 0 → r ≤ a / (1 - f0) + 1 / 2 ^ 49 * (|a| + 1) / (1 - f0)) := by
  have hy : 0 < 1 - f0 := by linarith
  unfold mirRoundContinuous
  by_cases hs : 0 ≤ a
  · rw [if_pos ((Dbl.le_fin _ _).2 hs)]
    exact ⟨0, rfl, fun _ => rfl, fun h => absurd hs (not_le.2 h)⟩
  · rw [if_neg (by rw [Dbl.le_fin]; exact hs)]
    push Not at hs
    have hu := u_pos
    have hu' : u ≤ 1 / 100 := by unfold u; norm_num
    obtain ⟨d, hd, hd1, hd2⟩ := denominator hf h0 h1
    have hdpos : 0 < d := lt_of_lt_of_le (mul_pos hy (by linarith)) hd1
    have hY := hf.one_sub h0 h1
    have hz0 : 0 ≤ |a| / (1 - f0) := div_nonneg (abs_nonneg a) hy.le
    have h3 : |a| / (1 - f0) ≤ 2 ^ 953 := by
      have h3 : |a| / (1 - f0) ≤ 2 ^ 900 / u := div_le_div₀ (pow_nonneg (by norm_num) _) ha hu hY
      have h4 : ∀ n : ℕ, (2 : ℚ) ^ n / u = 2 ^ (n + 53) := by
        intro n
        unfold u
        rw [div_div_eq_mul_div, div_one, ← pow_add]
      exact h3.trans (h4 900).le
    clear ha
    have habs : |a / d| ≤ |a| / (1 - f0) * (1 + 2 * u) := by
      rw [abs_div, abs_of_pos hdpos, div_le_iff₀ hdpos]
      have e1 : |a| / (1 - f0) * (1 - f0) = |a| := div_mul_cancel₀ _ hy.ne'
      generalize |a| / (1 - f0) = z at hz0 e1
      have h2 : z * (1 + 2 * u) * ((1 - f0) * (1 - u)) ≤ z * (1 + 2 * u) * d :=
        mul_le_mul_of_nonneg_left hd1 (mul_nonneg hz0 (by linarith))
      refine le_trans ?_ h2
      calc |a| = z * (1 - f0) * 1 := by rw [mul_one, e1]
        _ ≤ z * (1 - f0) * ((1 + 2 * u) * (1 - u)) := by
          apply mul_le_mul_of_nonneg_left _ (mul_nonneg hz0 hy.le)
          nlinarith
        _ = _ := by ring
    have hbig : |a / d| ≤ 2 ^ 1000 := by
      refine habs.trans ?_
      calc |a| / (1 - f0) * (1 + 2 * u) ≤ 2 ^ 953 * 2 ^ 1 :=
            mul_le_mul h3 (by linarith) (by linarith) (pow_nonneg (by norm_num) _)
        _ = 2 ^ 954 := by rw [← pow_add]
        _ ≤ 2 ^ 1000 := big_mono (by norm_num)
    clear h3
    refine ⟨rnd (a / d), by rw [hd, div_fin hdpos.ne', round_fin hbig], fun h => absurd h (not_le.2 hs), fun _ => ?_⟩
    have herr := (abs_le.1 (rnd_error (a / d))).2
    have hmax : max (u * |a / d|) eta ≤ 2 * u * (|a| / (1 - f0)) + u := by
      refine max_le ?_ (eta_le_u.trans (by nlinarith))
      have h5 : u * |a / d| ≤ u * (|a| / (1 - f0) * (1 + 2 * u)) := mul_le_mul_of_nonneg_left habs hu.le
      have h6 := mul_nonneg hu.le hz0
      have h7 := mul_nonneg h6 (show 0 ≤ 1 - 2 * u by linarith)
      nlinarith
    have hlow : a / d ≤ a / (1 - f0) + u * (|a| / (1 - f0)) := by
      rw [div_le_iff₀ hdpos, abs_of_neg hs]
      have e1 : a / (1 - f0) * (1 - f0) = a := div_mul_cancel₀ _ hy.ne'
      have e2 : a / (1 - f0) + u * (-a / (1 - f0)) = a / (1 - f0) * (1 - u) := by ring
      rw [e2]
      have hneg : a / (1 - f0) * (1 - u) ≤ 0 :=
        mul_nonpos_of_nonpos_of_nonneg (div_nonpos_of_nonpos_of_nonneg hs.le hy.le) (by linarith)
      have h2 := mul_le_mul_of_nonpos_left hd2 hneg
      refine le_trans ?_ h2
      have e3 : a / (1 - f0) * (1 - u) * ((1 - f0) * (1 + u)) = a * (1 - u * u) := by
        calc _ = a / (1 - f0) * (1 - f0) * (1 - u * u) := by ring
          _ = _ := by rw [e1]
      rw [e3]
      nlinarith
    have hlast : 3 * u * (|a| / (1 - f0)) + u ≤ 1 / 2 ^ 49 * (|a| + 1) / (1 - f0) := by
      have h7 : (1 : ℚ) / 2 ^ 49 = 16 * u := by unfold u; norm_num
      rw [h7]
      have e4 : 16 * u * (|a| + 1) / (1 - f0) = 16 * u * (|a| / (1 - f0)) + 16 * u * (1 / (1 - f0)) := by ring
      have hD : 1 ≤ 1 / (1 - f0) := by rw [le_div_iff₀ hy]; linarith
      rw [e4]
      nlinarith
    linarith

end Ieee
end MiniMip
