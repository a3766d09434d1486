import Verif.Props.IeeeCuts

/-!
# C91: strong Chvátal-Gomory rounding in doubles, when its decisions are clear

Strong Chvátal-Gomory rounding decides by comparisons and ceilings, which rounding errors may turn
(`C91_strong_cg_violated`).  If no decision is within the errors of the aggregated row, the cut is valid up to the errors
made after rounding.
-/

namespace MiniMip

namespace Rounding

/-- What strong Chvátal-Gomory rounding may do with one term, when decisions are judged by the larger fraction `f1`: `m`
is the floor and `p` the step. -/
def CgClear (k : ℤ) (f1 : ℚ) (t : Term) : Prop :=
  0 ≤ t.val ∧
  (((∃ n : ℤ, t.val = n) ∧ ∃ m : ℤ, (t.rounded ≤ m ∧ m ≤ t.coef) ∨
      ∃ p : ℤ, 0 ≤ p ∧ p ≤ k ∧ t.rounded ≤ m + p / (k + 1) ∧ f1 + (1 - f1) * (p - 1) / k < t.coef - m) ∨
    (0 ≤ t.coef ∧ t.rounded ≤ 0))

theorem cgClear_split {k : ℤ} {f1 : ℚ} (hk : 0 < k) (h1 : f1 < 1) (hkf : 1 ≤ (k + 1) * f1)
    (l : List Term) (h : ∀ t ∈ l, CgClear k f1 t) :
    ∃ (I P M : ℤ) (F : ℚ), 0 ≤ F ∧ 0 ≤ M ∧ P ≤ k * M ∧ (I : ℚ) + F ≤ lhs l ∧
      lhsRounded l ≤ I + P / (k + 1) ∧ (0 < M → f1 * M + (1 - f1) * (P - M) / k < F) := by
  have hkq : (0 : ℚ) < k := by exact_mod_cast hk
  induction l with
  | nil => exact ⟨0, 0, 0, 0, by simp [lhs, lhsRounded]⟩
  | cons t r ih =>
    obtain ⟨I, P, M, F, hF, hM, hPM, ha, hb, hs⟩ := ih (fun t ht => h t (by simp [ht]))
    have el : lhs (t :: r) = t.coef * t.val + lhs r := by simp [lhs]
    have er : lhsRounded (t :: r) = t.rounded * t.val + lhsRounded r := by simp [lhsRounded]
    rw [el, er]
    obtain ⟨hx, ht⟩ := h t (by simp)
    rcases ht with ⟨⟨n, hn⟩, m, ht⟩ | ⟨hc', hr⟩
    · rcases ht with ⟨hr, hm⟩ | ⟨p, hp0, hpk, hr, hlt⟩
      · refine ⟨I + m * n, P, M, F, hF, hM, hPM, ?_, ?_, hs⟩
        · have := mul_le_mul_of_nonneg_right hm hx
          push_cast; rw [← hn]; linarith
        · have := mul_le_mul_of_nonneg_right hr hx
          push_cast; rw [← hn]; linarith
      · have hn0 : 0 ≤ n := by rw [hn] at hx; exact_mod_cast hx
        have hn0' : (0 : ℚ) ≤ n := by exact_mod_cast hn0
        have hp0' : (0 : ℚ) ≤ p := by exact_mod_cast hp0
        have hφ : 0 ≤ t.coef - m := by
          have e1 : -(1 - f1) / k ≤ (1 - f1) * (p - 1) / k := by
            apply div_le_div_of_nonneg_right _ hkq.le
            nlinarith
          have e2 : -f1 ≤ -(1 - f1) / k := by
            rw [le_div_iff₀ hkq]; linarith
          linarith
        have split : f1 * ((M : ℚ) + n) + (1 - f1) * (P + p * n - (M + n)) / k =
            (f1 * M + (1 - f1) * (P - M) / k) + (f1 + (1 - f1) * (p - 1) / k) * n := by
          field_simp; ring
        refine ⟨I + m * n, P + p * n, M + n, F + (t.coef - m) * n, ?_, by omega, ?_, ?_, ?_, ?_⟩
        · have := mul_nonneg hφ hn0'; linarith
        · have := mul_le_mul_of_nonneg_right hpk hn0
          linarith
        · push_cast
          have : t.coef * t.val = m * n + (t.coef - m) * n := by rw [hn]; ring
          linarith
        · have h2 := mul_le_mul_of_nonneg_right hr hx
          rw [hn] at h2 ⊢
          push_cast
          have : ((m : ℚ) + p / (k + 1)) * n = m * n + p * n / (k + 1) := by ring
          rw [this] at h2
          rw [add_div]; linarith
        · intro hMn
          push_cast; rw [split]
          rcases hn0.eq_or_lt with h0 | h0
          · have hM0 : 0 < M := by omega
            have := hs hM0
            rw [← h0]
            simpa using this
          · have h0' : (0 : ℚ) < n := by exact_mod_cast h0
            have := mul_lt_mul_of_pos_right hlt h0'
            rcases hM.eq_or_lt with hM0 | hM0
            · have hP0 : (P : ℚ) ≤ 0 := by
                rw [← hM0] at hPM
                have : P ≤ 0 := by simpa using hPM
                exact_mod_cast this
              have h2 : (1 - f1) * P / k ≤ 0 :=
                div_nonpos_of_nonpos_of_nonneg (mul_nonpos_of_nonneg_of_nonpos (by linarith) hP0) hkq.le
              rw [← hM0]
              simp only [Int.cast_zero, mul_zero, sub_zero, zero_add]
              linarith
            · have := hs hM0
              linarith
    · refine ⟨I, P, M, F, hF, hM, hPM, ?_, ?_, hs⟩
      · have := mul_nonneg hc' hx; linarith
      · have := mul_nonpos_of_nonpos_of_nonneg hr hx; linarith

/-- Strong Chvátal-Gomory rounding is valid for every right-hand side by whose fraction the decisions are clear. -/
theorem cgClear_valid {k β : ℤ} {f1 : ℚ} (hk : 0 < k) (h0 : 0 ≤ f1) (h1 : f1 < 1) (hkf : 1 ≤ (k + 1) * f1) (l : List Term)
    (h : ∀ t ∈ l, CgClear k f1 t) (hb : lhs l ≤ β + f1) : lhsRounded l ≤ β := by
  have hkq : (0 : ℚ) < k := by exact_mod_cast hk
  have hk1 : (0 : ℚ) < k + 1 := by linarith
  obtain ⟨I, P, M, F, hF, hM, hPM, ha, hc, hs⟩ := cgClear_split hk h1 hkf l h
  refine hc.trans ?_
  set d : ℤ := β - I with hdd
  have hdq : (d : ℚ) = β - I := by rw [hdd]; push_cast; ring
  have hFd : F ≤ d + f1 := by rw [hdq]; linarith
  have hd0 : 0 ≤ d := by
    have : (-1 : ℚ) < d := by linarith
    have : (-1 : ℤ) < d := by exact_mod_cast this
    omega
  by_contra hcon
  have hP : (k + 1) * d < P := by
    have : (d : ℚ) < P / (k + 1) := by rw [hdq]; linarith
    rw [lt_div_iff₀ hk1] at this
    have h2 : ((k + 1) * d : ℚ) < P := by linarith
    exact_mod_cast h2
  have hMd : d < M := by
    have : k * d < k * M := by nlinarith
    exact lt_of_mul_lt_mul_left this hk.le
  have hP1 : ((k : ℚ) + 1) * d + 1 ≤ P := by exact_mod_cast hP
  have hMd' : (d : ℚ) + 1 ≤ M := by exact_mod_cast hMd
  have hFl := hs (by omega)
  have e : f1 * (M : ℚ) + (1 - f1) * (P - M) / k =
      P * ((1 - f1) / k) + M * (f1 - (1 - f1) / k) := by field_simp; ring
  rw [e] at hFl
  have hq : 0 ≤ (1 - f1) / k := div_nonneg (by linarith) hkq.le
  have hq2 : 0 ≤ f1 - (1 - f1) / k := by
    have : (1 - f1) / k ≤ f1 := by rw [div_le_iff₀ hkq]; linarith
    linarith
  have e1 := mul_le_mul_of_nonneg_right hP1 hq
  have e2 := mul_le_mul_of_nonneg_right hMd' hq2
  have e3 : ((k + 1) * (d : ℚ) + 1) * ((1 - f1) / k) + (d + 1) * (f1 - (1 - f1) / k) = d + f1 := by
    field_simp; ring
  linarith

end Rounding

namespace Ieee

open AVector (StrictSorted Clean lookup Proper)
open Rounding (Term CgClear)

/-! ## Specification -/

/-- The number of steps between `f0` and 1, as the code computes it (aggregating_generator.cc:338). -/
noncomputable def steps (f0 : ℚ) : ℤ := ⌈rnd (1 / f0)⌉ - 1

/-- The step that the fraction `fj` reaches, as the code computes it (aggregating_generator.cc:64). -/
noncomputable def step (f0 fj : ℚ) : ℤ := ⌈rnd (rnd (steps f0 * rnd (fj - f0)) / rnd (1 - f0))⌉

/-- The coefficient `q` of an integer variable is rounded clearly: it is taken for integral, or rounded down, or its
fraction is beyond the preceding step even if `f0` were larger by `ε`.  For `ε = 0` this is the check that the code makes
in debug mode (aggregating_generator.cc:67). -/
def ClearCoef (tol f0 ε q : ℚ) : Prop :=
  (∃ n : ℤ, |q - n| ≤ tol) ∨ q - ⌊q⌋ ≤ f0 ∨
    f0 + ε + (1 - (f0 + ε)) * (step f0 (q - ⌊q⌋) - 1) / steps f0 < q - ⌊q⌋

/-- Strong Chvátal-Gomory rounding of the aggregated row with right-hand side `b` is clear: `b` is not taken for integral,
its fraction is not within `ε` of 1, all integer coefficients are rounded clearly, and those of continuous variables are
non-negative (which the code fails to check, aggregating_generator.cc:325-335). -/
structure ClearRow (c : GenContext) (tol ε : ℚ) (a : AggRow) (b : ℚ) : Prop where
  fractional : ¬ ∃ n : ℤ, |b - n| ≤ tol
  room : fraction tol b + ε < 1
  continuous : ∀ e ∈ a.vars.entries, c.isInteger e.index = false → 0 ≤ Generator.finPart e.value
  vars : ∀ e ∈ a.vars.entries, c.isInteger e.index = true → ClearCoef tol (fraction tol b) ε (Generator.finPart e.value)
  slacks : ∀ e ∈ a.slackCoefs.entries, ClearCoef tol (fraction tol b) ε (Generator.finPart e.value)

/-- How much the right-hand side of the aggregated row may be off: `n` columns, at most `m` rows are aggregated, and all
numbers are at most `B`. -/
def margin (n m : ℕ) (B tol : ℚ) : ℚ := (11 * tol + 16 * (n + m) / 2 ^ 53) * (n * m * B ^ 3)

/-! ## One coefficient -/

theorem abs_rnd_unit {y : ℚ} (h0 : 0 ≤ y) (h1 : y ≤ 1) : |rnd y - y| ≤ u := by
  refine (rnd_error y).trans (max_le ?_ eta_le_u)
  rw [abs_of_nonneg h0]
  exact mul_le_of_le_one_right u_pos.le h1

/-- The number of steps. -/
theorem steps_spec {tol b : ℚ} (ht : 1 / 2 ^ 50 ≤ tol) (hn : ¬ ∃ n : ℤ, |b - n| ≤ tol) :
    sub (div (.fin 1) (.fin (fraction tol b))).ceil (.fin 1) = .fin (steps (fraction tol b)) ∧
      0 < steps (fraction tol b) ∧ steps (fraction tol b) ≤ 2 ^ 51 ∧ 0 < fraction tol b ∧
      1 - u ≤ ((steps (fraction tol b) : ℚ) + 1) * fraction tol b := by
  have hu := u_pos
  have h1 := Int.floor_le b
  have h2 := Int.lt_floor_add_one b
  have h3 : tol < |b - ⌊b⌋| := not_le.1 fun h => hn ⟨_, h⟩
  have h4 : tol < |b - ((⌊b⌋ + 1 : ℤ) : ℚ)| := not_le.1 fun h => hn ⟨_, h⟩
  rw [abs_of_nonneg (by linarith)] at h3
  push_cast at h4
  rw [abs_of_neg (by linarith)] at h4
  have hf : fraction tol b = rnd (b - ⌊b⌋) := by unfold fraction; rw [if_neg hn]
  have h5 := abs_le.1 (abs_rnd_unit (y := b - ⌊b⌋) (by linarith) (by linarith))
  rw [← hf] at h5
  set f0 := fraction tol b
  have e8 : (1 : ℚ) / 2 ^ 50 = 8 * u := by unfold u; norm_num
  rw [e8] at ht
  have hlo : 7 * u ≤ f0 := by linarith [h5.1]
  have hhi : f0 ≤ 1 - 7 * u := by linarith [h5.2]
  have hpos : 0 < f0 := by linarith
  have hinv1 : 1 + 7 * u ≤ 1 / f0 := by
    rw [le_div_iff₀ hpos]
    nlinarith
  have hu53 : u * 2 ^ 53 = 1 := by unfold u; norm_num
  have hinv2 : 1 / f0 ≤ 2 ^ 51 := by
    rw [div_le_iff₀ hpos]
    norm_num at hu53 ⊢
    linarith
  have hinv0 : 0 < 1 / f0 := by positivity
  have herr : |rnd (1 / f0) - 1 / f0| ≤ u * (1 / f0) := by
    refine (rnd_error _).trans (max_le ?_ ?_)
    · rw [abs_of_pos hinv0]
    · refine eta_le_u.trans (le_mul_of_one_le_right hu.le (by linarith))
  have herr' := abs_le.1 herr
  have hr1 : 1 < rnd (1 / f0) := by
    have : u * (1 / f0) * f0 = u := by field_simp
    by_contra hcon
    push Not at hcon
    have h6 : 1 / f0 * (1 - u) ≤ 1 := by linarith [herr'.1]
    have h7 : (1 + 7 * u) * (1 - u) ≤ 1 / f0 * (1 - u) :=
      mul_le_mul_of_nonneg_right hinv1 (by unfold u; norm_num)
    have h8 : u ≤ 1 / 100 := by unfold u; norm_num
    nlinarith
  have hr2 : rnd (1 / f0) ≤ 2 ^ 51 := by
    have := rnd_mono hinv2
    rwa [rnd_rep (rep_pow 51)] at this
  have hbig : |1 / f0| ≤ 2 ^ 1000 := by
    rw [abs_of_pos hinv0]
    exact hinv2.trans (big_mono (by norm_num))
  have hc1 : (2 : ℤ) ≤ ⌈rnd (1 / f0)⌉ := by
    have : (1 : ℤ) < ⌈rnd (1 / f0)⌉ := by rw [Int.lt_ceil]; exact_mod_cast hr1
    omega
  have hc2 : ⌈rnd (1 / f0)⌉ ≤ 2 ^ 51 := by rw [Int.ceil_le]; exact_mod_cast hr2
  refine ⟨?_, ?_, ?_, hpos, ?_⟩
  · rw [div_fin hpos.ne', round_fin hbig]
    show sub (.fin _) (.fin 1) = _
    rw [sub_fin]
    have e1 : ((⌈rnd (1 / f0)⌉ : ℤ) : ℚ) - 1 = (steps f0 : ℤ) := by unfold steps; push_cast; ring
    rw [e1]
    have hs : |steps f0| ≤ 2 ^ 53 := by
      rw [abs_le]
      unfold steps
      constructor <;> omega
    exact round_rep (rep_int hs) (le_maxFinite (by exact_mod_cast hs))
  · unfold steps; omega
  · unfold steps; omega
  · have e1 : ((steps f0 : ℤ) : ℚ) + 1 = ⌈rnd (1 / f0)⌉ := by unfold steps; push_cast; ring
    rw [e1]
    have h6 : 1 / f0 * (1 - u) ≤ ⌈rnd (1 / f0)⌉ := by
      have := Int.le_ceil (rnd (1 / f0))
      linarith [herr'.1]
    have h7 := mul_le_mul_of_nonneg_right h6 hpos.le
    have h8 : 1 / f0 * (1 - u) * f0 = 1 - u := by field_simp
    linarith

/-- The computed coefficient of an integer variable, when it is rounded clearly: `m` is the floor and `p` the step. -/
theorem cgRoundInteger_bound {tol f0 f1 ε q : ℚ} (ht0 : 0 ≤ tol) (hq : IsDouble q) (hq0 : 0 ≤ q) (hf : Rep f0)
    (h0 : 0 < f0) (hf1 : f1 = f0 + ε) (hε : 0 ≤ ε) (h1 : f1 < 1) (hk : 0 < steps f0) (hk' : steps f0 ≤ 2 ^ 51)
    (hc : ClearCoef tol f0 ε q) :
    ∃ r ρ : ℚ, cgRoundInteger (.fin tol) (.fin q) (.fin (steps f0)) (.fin f0) = .fin r ∧ IsDouble r ∧ |r| ≤ q + 4 ∧
      r ≤ ρ + 4 * u * (|q| + 1) ∧ ∃ m : ℤ, (ρ ≤ m ∧ m ≤ q + tol) ∨
        ∃ p : ℤ, 0 ≤ p ∧ p ≤ steps f0 ∧ ρ ≤ m + p / (steps f0 + 1) ∧
          f1 + (1 - f1) * (p - 1) / steps f0 < q + tol - m := by
  have hu := u_pos
  have hf01 : f0 < 1 := by linarith
  have hfl := Int.floor_le q
  have hfl' := Int.lt_floor_add_one q
  obtain ⟨K, hK⟩ : ∃ K, K = steps f0 := ⟨_, rfl⟩
  have hKq : (0 : ℚ) < K := by rw [hK]; exact_mod_cast hk
  have hsum : add (.fin (steps f0 : ℚ)) (.fin 1) = .fin ((steps f0 : ℚ) + 1) := by
    rw [add_fin]
    have e1 : ((steps f0 : ℤ) : ℚ) + 1 = ((steps f0 + 1 : ℤ) : ℚ) := by push_cast; ring
    rw [e1]
    have hs : |steps f0 + 1| ≤ 2 ^ 53 := by rw [abs_le]; constructor <;> omega
    exact round_rep (rep_int hs) (le_maxFinite (by exact_mod_cast hs))
  have hK1 : (0 : ℚ) < (steps f0 : ℚ) + 1 := by rw [← hK]; linarith
  have hzero : div (.fin 0) (.fin ((steps f0 : ℚ) + 1)) = .fin 0 := by
    rw [div_fin hK1.ne', zero_div]
    exact round_rep (by exact_mod_cast rep_int (n := 0) (by norm_num)) (le_maxFinite (by norm_num))
  have hpos4 : 0 ≤ 4 * u * (|q| + 1) := by have := abs_nonneg q; positivity
  -- rounded down
  have down : ∀ m : ℤ, IsDouble m → floorWithTolerance (.fin tol) (.fin q) = .fin m → (m : ℚ) ≤ q + tol → |(m : ℚ)| ≤ q + 4 →
      Dbl.le (fractionality (.fin tol) (.fin q)) (.fin f0) = true →
      ∃ r ρ : ℚ, cgRoundInteger (.fin tol) (.fin q) (.fin (steps f0)) (.fin f0) = .fin r ∧ IsDouble r ∧ |r| ≤ q + 4 ∧
      r ≤ ρ + 4 * u * (|q| + 1) ∧ ∃ m : ℤ, (ρ ≤ m ∧ m ≤ q + tol) ∨
        ∃ p : ℤ, 0 ≤ p ∧ p ≤ steps f0 ∧ ρ ≤ m + p / (steps f0 + 1) ∧
          f1 + (1 - f1) * (p - 1) / steps f0 < q + tol - m := by
    intro m hm hfw hmq hms hle
    refine ⟨m, m, ?_, hm, hms, by linarith, m, Or.inl ⟨le_rfl, hmq⟩⟩
    unfold cgRoundInteger
    simp only [hle, if_true, hsum, hzero, hfw]
    rw [add_fin, add_zero]
    exact round_rep hm.1 hm.2
  by_cases hi : ∃ n : ℤ, |q - n| ≤ tol
  · have hn := abs_le.1 (near_roundAway hi)
    refine down (roundAway q) hq.roundAway (by rw [floorWithTolerance_fin hq, if_pos hi]) (by linarith) ?_ ?_
    · have hc := Int.ceil_lt_add_one q
      have hc0 : (0 : ℚ) ≤ ⌊q⌋ := by exact_mod_cast Int.floor_nonneg.2 hq0
      have hc1 := Int.le_ceil q
      rcases roundAway_cases q with h | h <;> rw [h, abs_le] <;> constructor <;> linarith
    · rw [fractionality_fin hq, if_pos hi, Dbl.le_fin]
      exact h0.le
  have hfr : fractionality (.fin tol) (.fin q) = .fin (q - ⌊q⌋) := by
    rw [fractionality_fin hq, if_neg hi, rnd_rep (hq.1.sub_floor (Or.inl hq0))]
  have hfw : floorWithTolerance (.fin tol) (.fin q) = .fin (⌊q⌋ : ℚ) := by rw [floorWithTolerance_fin hq, if_neg hi]
  have hF0 : (0 : ℚ) ≤ ⌊q⌋ := by exact_mod_cast Int.floor_nonneg.2 hq0
  by_cases hle : q - ⌊q⌋ ≤ f0
  · exact down _ hq.floor hfw (by linarith) (by rw [abs_le]; constructor <;> linarith)
      (by rw [hfr, Dbl.le_fin]; exact hle)
  have hclear := (hc.resolve_left hi).resolve_left hle
  push Not at hle
  set fj := q - ⌊q⌋ with hfj
  have hfj1 : fj < 1 := by linarith
  -- the step
  have hd : 0 < rnd (1 - f0) := by
    obtain ⟨d, hd, hd1, -⟩ := denominator hf h0.le hf01
    rw [sub_fin, round_fin (frac_le_big (by linarith) (by linarith)), Dbl.fin.injEq] at hd
    rw [hd]
    exact lt_of_lt_of_le (mul_pos (by linarith) (by unfold u; norm_num)) hd1
  have hdlo : u / 2 ≤ rnd (1 - f0) := by
    have h2 := hf.one_sub h0.le hf01
    obtain ⟨d, hd, hd1, -⟩ := denominator hf h0.le hf01
    rw [sub_fin, round_fin (frac_le_big (by linarith) (by linarith)), Dbl.fin.injEq] at hd
    rw [hd]
    have h3 : (1 - f0) * (1 / 2) ≤ (1 - f0) * (1 - u) :=
      mul_le_mul_of_nonneg_left (by unfold u; norm_num) (by linarith)
    linarith
  have hs1 : sub (.fin fj) (.fin f0) = .fin (rnd (fj - f0)) := by
    rw [sub_fin, round_fin (frac_le_big (by linarith) (by linarith))]
  have hs2 : sub (.fin 1) (.fin f0) = .fin (rnd (1 - f0)) := by
    rw [sub_fin, round_fin (frac_le_big (by linarith) (by linarith))]
  have hy0 : 0 ≤ rnd (fj - f0) := rnd_nonneg (by linarith)
  have hy1 : rnd (fj - f0) ≤ 1 := by
    have := rnd_mono (x := fj - f0) (y := 1) (by linarith)
    rwa [rnd_rep rep_one] at this
  have hKb : (K : ℚ) ≤ 2 ^ 51 := by rw [hK]; exact_mod_cast hk'
  have hprod0 : 0 ≤ (K : ℚ) * rnd (fj - f0) := mul_nonneg hKq.le hy0
  have hprod1 : (K : ℚ) * rnd (fj - f0) ≤ 2 ^ 51 :=
    (mul_le_of_le_one_right hKq.le hy1).trans hKb
  have hs3 : mul (.fin (K : ℚ)) (.fin (rnd (fj - f0))) = .fin (rnd (K * rnd (fj - f0))) := by
    show round _ = _
    rw [round_fin (by rw [abs_of_nonneg hprod0]; exact hprod1.trans (big_mono (by norm_num)))]
  have hz0 : 0 ≤ rnd (K * rnd (fj - f0)) := rnd_nonneg hprod0
  have hz1 : rnd (K * rnd (fj - f0)) ≤ 2 ^ 51 := by
    have := rnd_mono hprod1
    rwa [rnd_rep (rep_pow 51)] at this
  have hquo0 : 0 ≤ rnd (K * rnd (fj - f0)) / rnd (1 - f0) := div_nonneg hz0 hd.le
  have hquo1 : rnd (K * rnd (fj - f0)) / rnd (1 - f0) ≤ 2 ^ 110 := by
    rw [div_le_iff₀ hd]
    have h2 : (2 : ℚ) ^ 110 * (u / 2) ≤ 2 ^ 110 * rnd (1 - f0) := mul_le_mul_of_nonneg_left hdlo (by norm_num)
    have h3 : (2 : ℚ) ^ 51 ≤ 2 ^ 110 * (u / 2) := by unfold u; norm_num
    linarith
  have hs4 : (div (mul (.fin (steps f0)) (sub (.fin fj) (.fin f0))) (sub (.fin 1) (.fin f0))).ceil = .fin (step f0 fj) := by
    rw [← hK, hs1, hs2, hs3, div_fin hd.ne',
      round_fin (by rw [abs_of_nonneg hquo0]; exact hquo1.trans (big_mono (by norm_num)))]
    unfold step
    rw [← hK]
    rfl
  obtain ⟨p, hp⟩ : ∃ p, p = step f0 fj := ⟨_, rfl⟩
  have hp0 : 0 ≤ p := by
    rw [hp]
    unfold step
    rw [← hK]
    exact Int.ceil_nonneg (rnd_nonneg hquo0)
  rw [← hp, ← hf1, ← hK] at hclear
  have hpk : p ≤ K := by
    have h2 : (1 - f1) * (p - 1) / K < 1 - f1 := by linarith
    rw [div_lt_iff₀ hKq] at h2
    have h3 : ((p : ℚ) - 1) < K := lt_of_mul_lt_mul_left h2 (by linarith)
    have h4 : p - 1 < K := by exact_mod_cast h3
    omega
  have hp0' : (0 : ℚ) ≤ p := by exact_mod_cast hp0
  have hpk' : (p : ℚ) ≤ K := by exact_mod_cast hpk
  have hg0 : 0 ≤ (p : ℚ) / (K + 1) := div_nonneg hp0' (by linarith)
  have hg1 : (p : ℚ) / (K + 1) ≤ 1 := by rw [div_le_one (by linarith)]; linarith
  have hg2 := abs_le.1 (abs_rnd_unit hg0 hg1)
  have hg3 : 0 ≤ rnd ((p : ℚ) / (K + 1)) := rnd_nonneg hg0
  have hg4 : rnd ((p : ℚ) / (K + 1)) ≤ 1 := by
    have := rnd_mono hg1
    rwa [rnd_rep rep_one] at this
  have hq53 : q ≤ 2 ^ 53 := by
    rcases hq.1.cases with ⟨n, rfl⟩ | ⟨h2, -⟩
    · exact absurd ⟨n, by simpa using ht0⟩ hi
    · rw [abs_of_nonneg hq0] at h2
      exact h2.trans (by norm_num)
  have huq : u * q ≤ 1 := by
    have := mul_le_mul_of_nonneg_left hq53 hu.le
    have h3 : u * 2 ^ 53 = 1 := by unfold u; norm_num
    linarith
  have hsum0 : 0 ≤ (⌊q⌋ : ℚ) + rnd ((p : ℚ) / (K + 1)) := by linarith
  have hbig : |(⌊q⌋ : ℚ) + rnd ((p : ℚ) / (K + 1))| ≤ 2 ^ 1000 := by
    rw [abs_of_nonneg hsum0]
    refine le_trans ?_ (big_mono (n := 54) (by norm_num))
    norm_num at hq53 ⊢
    linarith
  have hres : cgRoundInteger (.fin tol) (.fin q) (.fin (steps f0)) (.fin f0) =
      .fin (rnd ((⌊q⌋ : ℚ) + rnd ((p : ℚ) / (K + 1)))) := by
    unfold cgRoundInteger
    simp only [hfr, hfw]
    rw [if_neg (by rw [Dbl.le_fin]; exact not_le.2 hle), hs4, hsum, ← hp, ← hK, div_fin (by linarith),
      round_fin (frac_le_big hg0 hg1), add_fin, round_fin hbig]
  have hround := round_eq_fin (round_fin hbig)
  have herr := rnd_add_error (hq.1.floor) (rep_rnd ((p : ℚ) / (K + 1)))
  rw [abs_of_nonneg hsum0] at herr
  have hle2 : u * ((⌊q⌋ : ℚ) + rnd ((p : ℚ) / (K + 1))) ≤ u * (q + 1) := mul_le_mul_of_nonneg_left (by linarith) hu.le
  have herr' := abs_le.1 herr
  have hu1 : u ≤ 1 / 100 := by unfold u; norm_num
  refine ⟨_, ⌊q⌋ + p / (K + 1), hres, ⟨rep_rnd _, hround.2⟩, ?_, ?_, ⌊q⌋, Or.inr ⟨p, hp0, hK ▸ hpk, ?_, ?_⟩⟩
  · rw [abs_le]
    constructor <;> linarith [herr'.1, herr'.2]
  · rw [abs_of_nonneg hq0]
    have : 0 ≤ u * q := mul_nonneg hu.le hq0
    linarith [herr'.2, hg2.2]
  · rw [hK]
  · rw [← hK]
    linarith

/-! ## The row -/

/-- The coefficient of one entry. -/
noncomputable def cgCoef (tol : ℚ) (int : Bool) (f0 : ℚ) (v : Dbl) : Dbl :=
  if int then cgRoundInteger (.fin tol) v (.fin (steps f0)) (.fin f0) else .fin 0

/-- An entry that is rounded clearly. -/
def ClearEntry (tol f0 ε : ℚ) (int : Bool) (v : Dbl) : Prop :=
  ∃ q, v = .fin q ∧ IsDouble q ∧ 0 ≤ q ∧ (int = true → ClearCoef tol f0 ε q)

theorem cgCoef_term {tol f0 f1 ε : ℚ} (ht0 : 0 ≤ tol) (hf : Rep f0) (h0 : 0 < f0) (hf1 : f1 = f0 + ε) (hε : 0 ≤ ε)
    (h1 : f1 < 1) (hk : 0 < steps f0) (hk' : steps f0 ≤ 2 ^ 51) {int : Bool} {v : Dbl} (hv : ClearEntry tol f0 ε int v)
    {x : ℚ} (hx : 0 ≤ x) (hi : int = true → ∃ k : ℤ, x = k) :
    ∃ r t, cgCoef tol int f0 v = .fin r ∧ IsDouble r ∧ |r| ≤ Generator.finPart v + 4 ∧ CgClear (steps f0) f1 t ∧ t.val = x ∧
      t.coef * x ≤ Generator.finPart v * x + tol * ((|Generator.finPart v| + 1) * x) ∧
      r * x ≤ t.rounded * x + 4 * u * ((|Generator.finPart v| + 1) * x) := by
  obtain ⟨q, rfl, hq, hq0, hc⟩ := hv
  have hu := u_pos
  simp only [Generator.finPart]
  have hax : 0 ≤ |q| * x := mul_nonneg (abs_nonneg q) hx
  have hextra : tol * x ≤ tol * ((|q| + 1) * x) := mul_le_mul_of_nonneg_left (by linarith) ht0
  cases int with
  | true =>
    obtain ⟨r, ρ, h2, h3, h4, h5, m, h6⟩ := cgRoundInteger_bound ht0 hq hq0 hf h0 hf1 hε h1 hk hk' (hc rfl)
    refine ⟨r, ⟨true, q + tol, ρ, x⟩, h2, h3, h4, ⟨hx, Or.inl ⟨hi rfl, m, h6⟩⟩, rfl, ?_, ?_⟩
    · simp only; linarith
    · have := mul_le_mul_of_nonneg_right h5 hx
      simp only
      linarith
  | false =>
    refine ⟨0, ⟨false, q, 0, x⟩, rfl, ⟨by exact_mod_cast rep_int (n := 0) (by norm_num), le_maxFinite (by norm_num)⟩,
      by rw [abs_zero]; linarith, ⟨hx, Or.inr ⟨hq0, le_rfl⟩⟩, rfl, ?_, ?_⟩
    · simp only
      have := mul_nonneg ht0 hx
      linarith
    · simp only
      have : 0 ≤ 4 * u * ((|q| + 1) * x) := mul_nonneg (by linarith) (by linarith)
      linarith

/-- A list of entries, rounded. -/
theorem cgList {tol f0 f1 ε : ℚ} (ht0 : 0 ≤ tol) (hf : Rep f0) (h0 : 0 < f0) (hf1 : f1 = f0 + ε) (hε : 0 ≤ ε)
    (h1 : f1 < 1) (hk : 0 < steps f0) (hk' : steps f0 ≤ 2 ^ 51) (int : Int → Bool) (l : List (AEntry Dbl))
    (hl : ∀ e ∈ l, ClearEntry tol f0 ε (int e.index) e.value) (x : Int → ℚ) (hx : Admissible int l x) :
    ∃ ts : List Term, (∀ t ∈ ts, CgClear (steps f0) f1 t) ∧ Rounding.lhs ts ≤ eval l x + tol * size l x ∧
      eval (l.map fun e => ⟨e.index, cgCoef tol (int e.index) f0 e.value⟩) x ≤ Rounding.lhsRounded ts + 4 * u * size l x := by
  induction l with
  | nil => exact ⟨[], by simp, by simp [Rounding.lhs, eval, size], by simp [eval, Rounding.lhsRounded, size]⟩
  | cons e l ih =>
    obtain ⟨ts, hts, hle1, hle2⟩ := ih (fun e he => hl e (List.mem_cons_of_mem _ he))
      (fun e he => hx e (List.mem_cons_of_mem _ he))
    obtain ⟨hx0, hxi⟩ := hx e (List.mem_cons_self ..)
    obtain ⟨r, t, hr, -, -, ht, hv, h2, h3⟩ := cgCoef_term ht0 hf h0 hf1 hε h1 hk hk' (hl e (List.mem_cons_self ..)) hx0 hxi
    refine ⟨t :: ts, ?_, ?_, ?_⟩
    · intro t' h'
      rcases List.mem_cons.1 h' with rfl | h'
      exacts [ht, hts t' h']
    · rw [eval_cons, size_cons]
      have e1 : Rounding.lhs (t :: ts) = t.coef * x e.index + Rounding.lhs ts := by simp [Rounding.lhs, hv]
      rw [e1, mul_add]
      linarith
    · rw [List.map_cons, eval_cons, size_cons, hr]
      have e1 : Rounding.lhsRounded (t :: ts) = t.rounded * x e.index + Rounding.lhsRounded ts := by
        simp [Rounding.lhsRounded, hv]
      rw [e1, mul_add]
      simp only [Generator.finPart] at h2 h3 ⊢
      linarith

theorem IsList.cg {n : ℕ} {C D : ℚ} {l : List (AEntry Dbl)} (h : IsList n C l) {tol f0 f1 ε : ℚ} (ht0 : 0 ≤ tol) (hf : Rep f0)
    (h0 : 0 < f0) (hf1 : f1 = f0 + ε) (hε : 0 ≤ ε) (h1 : f1 < 1) (hk : 0 < steps f0) (hk' : steps f0 ≤ 2 ^ 51)
    (int : Int → Bool) (hl : ∀ e ∈ l, ClearEntry tol f0 ε (int e.index) e.value) (hD : C + 4 ≤ D) :
    IsList n D (l.map fun e => ⟨e.index, cgCoef tol (int e.index) f0 e.value⟩) := by
  refine ⟨AVector.map_strictSorted h.sorted _ fun _ => rfl, ?_, ?_, ?_⟩ <;> intro e he <;>
    obtain ⟨d, hd, rfl⟩ := List.mem_map.1 he
  · exact h.nonneg d hd
  · exact h.cols d hd
  · obtain ⟨q, hq, hqd, hqC⟩ := h.double d hd
    obtain ⟨r, t, h2, h3, h4, -⟩ := cgCoef_term ht0 hf h0 hf1 hε h1 hk hk' (hl d hd) (x := 0) le_rfl (fun _ => ⟨0, by simp⟩)
    refine ⟨r, h2, h3, h4.trans ?_⟩
    rw [hq]
    simp only [Generator.finPart]
    linarith [le_abs_self q]

/-- What the checks at the beginning of `RoundAggregatedRow` ensure. -/
theorem slacksAllowCG_spec {c : GenContext} (l : List (AEntry Dbl)) (h : slacksAllowCG c l = .ok true) :
    ∀ e ∈ l, c.integralRow.getD e.index.toNat false = true ∧ Dbl.le (.fin 0) e.value = true := by
  induction l with
  | nil => simp
  | cons e l ih =>
    simp only [slacksAllowCG] at h
    obtain ⟨i, hi, h⟩ := Outcome.bind_eq_ok.1 h
    by_cases hb : (i && Dbl.le (.fin 0) e.value) = true
    · rw [if_pos hb] at h
      rw [Bool.and_eq_true] at hb
      intro d hd
      rcases List.mem_cons.1 hd with rfl | hd
      · refine ⟨?_, hb.2⟩
        unfold hasIntegralSlack listAt at hi
        split_ifs at hi with hneg
        cases hx : c.integralRow[d.index.toNat]? with
        | none => rw [hx] at hi; cases hi
        | some v => rw [hx] at hi; simp only [Outcome.ok.injEq] at hi; simp [List.getD, hx, hi, hb.1]
      · exact ih h d hd
    · rw [if_neg hb] at h
      simp at h

/-- What strong Chvátal-Gomory rounding in doubles computes when its decisions are clear; the result is valid up to
rounding errors in the coefficients. -/
theorem cg_core (c : GenContext) (tol ε : ℚ) (ht : c.tol = .fin tol) (ht0 : 1 / 2 ^ 50 ≤ tol) (a a' : AggRow) (b : ℚ)
    (β : ℤ) {n m : ℕ} {C S : ℚ} (hb : a.rhs = .fin b) (hbd : IsDouble b)
    (hβ : floorWithTolerance (.fin tol) (.fin b) = .fin β) (hv : IsList n C a.vars.entries)
    (hs : IsList m S a.slackCoefs.entries) (hε : 2 * u ≤ ε) (hclear : ClearRow c tol ε a b)
    (h : strongCGRound c a = .ok (some a')) :
    a'.rhs = .fin β ∧ a'.slackSigns = a.slackSigns ∧ a'.sideValues = a.sideValues ∧
    IsList n (C + 4) a'.vars.entries ∧ IsList m (S + 4) a'.slackCoefs.entries ∧
    (∀ e ∈ a'.slackCoefs.entries, ∃ d ∈ a.slackCoefs.entries, e.index = d.index) ∧
    a'.slackCoefs.entries.length ≤ a.slackCoefs.entries.length ∧
    ∀ (x t : Int → ℚ), Admissible c.isInteger a.vars.entries x →
      Admissible (fun i => c.integralRow.getD i.toNat false) a.slackCoefs.entries t →
      eval a.vars.entries x + eval a.slackCoefs.entries t +
        tol * (size a.vars.entries x + size a.slackCoefs.entries t) ≤ β + fraction tol b + ε →
      eval a'.vars.entries x + eval a'.slackCoefs.entries t ≤
        β + 4 * u * (size a.vars.entries x + size a.slackCoefs.entries t) := by
  have hu := u_pos
  have ht0' : 0 ≤ tol := le_trans (by norm_num) ht0
  obtain ⟨hk1, hk2, hk3, hf0, hkf⟩ := steps_spec ht0 hclear.fractional
  obtain ⟨hrep, -, hlt⟩ := fraction_bounds (tol := tol) hbd.1 (Or.inr (Or.inr (le_trans (by norm_num) ht0)))
  have hfr := fractionality_eq (tol := tol) hbd
  have hroom := hclear.room
  have hcv := hclear.vars
  have hcs := hclear.slacks
  set f0 := fraction tol b with hf0d
  unfold strongCGRound at h
  obtain ⟨ok, hok, h⟩ := Outcome.bind_eq_ok.1 h
  cases ok with
  | false => simp at h
  | true =>
  simp only [Bool.not_true, Bool.false_eq_true, if_false] at h
  by_cases hvars : varsAllowCG c a.vars.entries = true
  swap
  · rw [if_pos (by simpa using hvars)] at h
    simp at h
  rw [if_neg (by simpa using hvars)] at h
  simp only [ht, hb, hfr, hk1] at h
  obtain ⟨sl, hsl, h⟩ := Outcome.bind_eq_ok.1 h
  simp only [Outcome.pure_eq, Outcome.ok.injEq, Option.some.injEq] at h
  obtain ⟨g, hg, rfl⟩ := transformM_spec hsl
  have hallow := slacksAllowCG_spec _ hok
  have hg' : ∀ e ∈ a.slackCoefs.entries,
      g e.index e.value = cgCoef tol (c.integralRow.getD e.index.toNat false) f0 e.value := by
    intro e he
    have h2 := hg e he
    obtain ⟨i, hi, h2⟩ := Outcome.bind_eq_ok.1 h2
    simp only [Outcome.pure_eq, Outcome.ok.injEq] at h2
    have h3 : c.integralRow.getD e.index.toNat false = i := by
      unfold hasIntegralSlack listAt at hi
      split_ifs at hi with hneg
      cases hx : c.integralRow[e.index.toNat]? with
      | none => rw [hx] at hi; cases hi
      | some v => rw [hx] at hi; simp only [Outcome.ok.injEq] at hi; simp [List.getD, hx, hi]
    rw [h3, ← h2]
    rfl
  have hmap : (a.slackCoefs.entries.map fun e => (⟨e.index, g e.index e.value⟩ : AEntry Dbl)) =
      a.slackCoefs.entries.map fun e => ⟨e.index, cgCoef tol (c.integralRow.getD e.index.toNat false) f0 e.value⟩ :=
    List.map_congr_left fun e he => by rw [hg' e he]
  have hvars' : a'.vars = ⟨(a.vars.entries.map fun e =>
      (⟨e.index, cgCoef tol (c.isInteger e.index) f0 e.value⟩ : AEntry Dbl)).filter
        fun e => !Arith.ieee.isZero e.value, a.vars.dirty⟩ := by
    rw [← h]; rfl
  have hslk : a'.slackCoefs = ⟨(a.slackCoefs.entries.map fun e =>
      (⟨e.index, cgCoef tol (c.integralRow.getD e.index.toNat false) f0 e.value⟩ : AEntry Dbl)).filter
        fun e => !Arith.ieee.isZero e.value, a.slackCoefs.dirty⟩ := by
    rw [← h, ← hmap]
  have hle0 : ∀ q : ℚ, Dbl.le (.fin 0) (.fin q) = true → 0 ≤ q := fun q h => (Dbl.le_fin _ _).1 h
  have hev : ∀ e ∈ a.vars.entries, ClearEntry tol f0 ε (c.isInteger e.index) e.value := by
    intro e he
    obtain ⟨q, hq, hqd, -⟩ := hv.double e he
    refine ⟨q, hq, hqd, ?_, fun hint => ?_⟩
    · cases hint : c.isInteger e.index with
      | true =>
        have h2 := List.all_eq_true.1 hvars e he
        rw [hint, hq] at h2
        exact hle0 q (by simpa using h2)
      | false =>
        have h2 := hclear.continuous e he hint
        rwa [hq] at h2
    · have h2 := hcv e he hint
      rwa [hq] at h2
  have hes : ∀ e ∈ a.slackCoefs.entries, ClearEntry tol f0 ε (c.integralRow.getD e.index.toNat false) e.value := by
    intro e he
    obtain ⟨q, hq, hqd, -⟩ := hs.double e he
    refine ⟨q, hq, hqd, ?_, fun hint => ?_⟩
    · have h2 := (hallow e he).2
      rw [hq] at h2
      exact hle0 q h2
    · have h2 := hcs e he
      rwa [hq] at h2
  have hε0 : 0 ≤ ε := by linarith
  refine ⟨by rw [← h, ← hβ], by rw [← h], by rw [← h], ?_, ?_, ?_, ?_, ?_⟩
  · rw [hvars']
    exact (hv.cg ht0' hrep hf0 rfl hε0 hroom hk2 hk3 c.isInteger hev le_rfl).filter _
  · rw [hslk]
    exact (hs.cg ht0' hrep hf0 rfl hε0 hroom hk2 hk3 (fun i => c.integralRow.getD i.toNat false) hes le_rfl).filter _
  · intro e he
    rw [hslk] at he
    obtain ⟨d, hd, rfl⟩ := List.mem_map.1 (List.mem_filter.1 he).1
    exact ⟨d, hd, rfl⟩
  · rw [hslk]
    exact (List.length_filter_le _ _).trans (by simp)
  · intro x t hx htt hrow
    obtain ⟨t1, ht1, hl1, hle1⟩ := cgList ht0' hrep hf0 rfl hε0 hroom hk2 hk3 c.isInteger _ hev x hx
    obtain ⟨t2, ht2, hl2, hle2⟩ := cgList ht0' hrep hf0 rfl hε0 hroom hk2 hk3
      (fun i => c.integralRow.getD i.toNat false) _ hes t htt
    have hkq : (0 : ℚ) < steps f0 := by exact_mod_cast hk2
    have hkf' : 1 ≤ ((steps f0 : ℚ) + 1) * (f0 + ε) := by
      have h2 : 2 * u ≤ ((steps f0 : ℚ) + 1) * ε :=
        hε.trans (le_mul_of_one_le_left hε0 (by linarith))
      rw [mul_add]
      linarith
    have hvalid := Rounding.cgClear_valid (β := β) hk2 (by linarith) hroom hkf' (t1 ++ t2)
      (fun t ht => (List.mem_append.1 ht).elim (ht1 t) (ht2 t)) (by
        have : Rounding.lhs (t1 ++ t2) = Rounding.lhs t1 + Rounding.lhs t2 := by simp [Rounding.lhs]
        rw [this]
        linarith)
    have hsplit : Rounding.lhsRounded (t1 ++ t2) = Rounding.lhsRounded t1 + Rounding.lhsRounded t2 := by
      simp [Rounding.lhsRounded]
    rw [hsplit] at hvalid
    rw [hvars', hslk, eval_filter, eval_filter]
    linarith

/-! ## From the LP to the cut -/

theorem cg_pipeline {c : GenContext} {n m : ℕ} {B tol : ℚ} (hI : Instance c n B) (ht : c.tol = .fin tol)
    (ht0 : 1 / 2 ^ 50 ≤ tol) (hB : 1 ≤ B) (hB' : B ≤ 2 ^ 100) (hn1 : 1 ≤ n) (hn : n ≤ 2 ^ 30) (ht1 : tol ≤ 1)
    (hm1 : 1 ≤ m) (hm : m ≤ 2 ^ 30) {acts : List Dbl} {useRhs : List Bool} (hu : chooseSides c.lp 0 acts = .ok useRhs)
    {v : Vec} (hvc : v.isClean .ieee = true) (hvl : v.entries.length ≤ m) (hvB : ∀ e ∈ v.entries, Bounded B e.value)
    {a a' : AggRow} (hagg : aggregateByWeight c.lp (rowWeights v) useRhs = .ok a)
    (hnn : toNonNegative c.lp a = .ok (a', true)) {row : Vec} {rhs : Dbl}
    (hro : roundOne c a' .strongCG = .ok (some (row, rhs))) (x : Int → ℚ) (hxB : ∀ j, |x j| ≤ B) :
    ∃ b, a'.rhs = .fin b ∧ IsDouble b ∧ (ClearRow c tol (margin n m B tol) a' b → ∃ β, rhs = .fin β ∧ IsDouble β ∧
      IsRow n row ∧ (Feasible c x → eval row.entries x ≤ β + 256 * (n + m) / 2 ^ 53 * (n * m * B ^ 3))) := by
  have hu0 := u_pos
  have ht0' : 0 ≤ tol := le_trans (by norm_num) ht0
  obtain ⟨N, M, V0, W0, hsc⟩ := scale hB hB' hn1 hn hm1 hm
  obtain ⟨b, hp⟩ := prepare hI hB hsc hu hvc hvl hvB hagg hnn x hxB
  have hN := hsc.hN
  have hM := hsc.hM
  have k0 := hsc.k0
  have hN1 := k0.N1
  have hM1 := k0.M1
  have hW1 := k0.W1
  refine ⟨b, hp.hb, hp.hbd, fun hclear => ?_⟩
  obtain ⟨β0, hβ, hβd, hβ1, hβ2, hβ3⟩ := floor_bounds ht0' hp.hbd
  obtain ⟨r, r2, r3, hcg, horig, hsub, rfl, rfl⟩ := roundOne_stages hro
  have e3 : (1 : ℚ) / 2 ^ 53 = u := rfl
  have huW : 0 ≤ u * W0 := mul_nonneg hu0.le (by linarith)
  have h6 : u ≤ u * W0 := le_mul_of_one_le_right hu0.le hW1
  have h7 : u * W0 ≤ N * (u * W0) := le_mul_of_one_le_left huW hN1
  have h8 : u * W0 ≤ M * (u * W0) := le_mul_of_one_le_left huW hM1
  have h5 : tol ≤ tol * W0 := le_mul_of_one_le_right ht0' hW1
  have eW : W0 = n * m * B ^ 3 := by rw [k0.hW, k0.hV, hN, hM]; ring
  have em : margin n m B tol = 11 * (tol * W0) + 16 * (N * (u * W0)) + 16 * (M * (u * W0)) := by
    rw [margin, ← eW, ← hN, ← hM]
    unfold u
    ring
  have htW : 0 ≤ tol * W0 := by linarith
  obtain ⟨hrrhs, hrsg, hrsi, hrl, hrsl, hrslm, hrslen, hvalid⟩ := cg_core c tol (margin n m B tol) ht ht0 a' r b β0 hp.hb hp.hbd hβ
    hp.hlist' hp.hslist (by rw [em]; linarith) hclear hcg
  have widen : ∀ {k : ℕ} {C D : ℚ} {l : List (AEntry Dbl)}, IsList k C l → C ≤ D → IsList k D l := fun h hCD =>
    ⟨h.sorted, h.nonneg, h.cols, fun e he => by
      obtain ⟨q, h1, h2, h3⟩ := h.double e he
      exact ⟨q, h1, h2, h3.trans hCD⟩⟩
  obtain ⟨β, hβf, hβfd, hrow, herr⟩ := finish hI hB hsc hxB hp (D := 1) le_rfl (by norm_num) hrrhs hβd (by
      have h1 := abs_le.1 hp.hbs
      rw [abs_le]
      constructor <;> linarith) hrsg hrsi (widen hrl (by linarith [k0.V1])) (widen hrsl (by linarith)) hrslm hrslen
    horig hsub
  refine ⟨β, hβf, hβfd, hrow, fun hx => ?_⟩
  have hadm := hp.hadm hx
  have hadms := hp.hadms hx
  have hsz1 := hp.hsz1 hx
  have hsz2 := hp.hsz2 hx
  have hsz : tol * (size a'.vars.entries (shifted c.lp x) + size a'.slackCoefs.entries (slackOf c.lp useRhs x)) ≤
      tol * (10 * W0) := mul_le_mul_of_nonneg_left (by linarith) ht0'
  have h1 := hvalid (shifted c.lp x) (slackOf c.lp useRhs x) (fun e he => ⟨(hadm e he).1, (hadm e he).2.2⟩)
    (fun e he => ⟨(hadms e he).1, (hadms e he).2.2⟩) (by
      have := hp.hrow
      rw [em]
      linarith)
  have hsz' : 4 * u * (size a'.vars.entries (shifted c.lp x) + size a'.slackCoefs.entries (slackOf c.lp useRhs x)) ≤
      4 * u * (10 * W0) := mul_le_mul_of_nonneg_left (by linarith) (by linarith)
  have efin : (256 : ℚ) * (n + m) / 2 ^ 53 * (n * m * B ^ 3) = 256 * (N * (u * W0)) + 256 * (M * (u * W0)) := by
    rw [← eW, ← hN, ← hM]
    unfold u
    ring
  rw [efin]
  linarith

/-- **C91, strong Chvátal-Gomory rounding.**  All cuts that the generator makes in doubles with strong Chvátal-Gomory
rounding are valid up to `256 (n + m) 2^-53 n m B^3`, if the decisions of rounding are clear: in the aggregated row, every
coefficient that is rounded up to a step exceeds the preceding step even if the fraction of the right-hand side were
larger by `margin n m B tol`, which bounds the errors made before (and the coefficients of continuous variables are
non-negative).  So what breaks these cuts is the turning of such a decision, as in `C91_strong_cg_violated`, and nothing
else.  The LP has `n` columns and numbers of size at most `B`; the rows of the inverse of the basis matrix are whatever the
LP solver says, as long as they are clean and have at most `m` entries, of size at most `B`.  The integrality
tolerance is at least `2^-50` (the default is `10^-6`).  Missing (and false): validity of the cuts whose rounding is not
clear. -/
theorem C91_strong_cg_partial (c : GenContext) (s : SolverView) (n m : ℕ) (B tol : ℚ) (hI : Instance c n B)
    (ht : c.tol = .fin tol) (ht0 : 1 / 2 ^ 50 ≤ tol) (ht1 : tol ≤ 1) (hB : 1 ≤ B) (hB' : B ≤ 2 ^ 100) (hn1 : 1 ≤ n)
    (hn : n ≤ 2 ^ 30) (hm1 : 1 ≤ m) (hm : m ≤ 2 ^ 30)
    (hinv : ∀ k v, s.bInverted k = .ok v → v.isClean .ieee = true ∧ v.entries.length ≤ m ∧
      ∀ e ∈ v.entries, Bounded B e.value)
    (rs : List Generator.Rounder) (limit : Int) (cuts : List Cut) (h : generateCuttingPlanes c s rs limit = .ok cuts) :
    ∀ cut ∈ cuts, (∃ t : ℕ, cut.name = Generator.Rounder.mir.name ++ toString t) ∨
      ∃ k v acts useRhs a a' b, s.bInverted k = .ok v ∧ s.activities = .ok acts ∧
        chooseSides c.lp 0 acts = .ok useRhs ∧ aggregateByWeight c.lp (rowWeights v) useRhs = .ok a ∧
        toNonNegative c.lp a = .ok (a', true) ∧ roundOne c a' .strongCG = .ok (some (cut.row, cut.rhs)) ∧ a'.rhs = .fin b ∧
        (ClearRow c tol (margin n m B tol) a' b → ∃ β, cut.rhs = .fin β ∧ IsDouble β ∧
          (∀ e ∈ cut.row.entries, 0 ≤ e.index ∧ e.index < n ∧ ∃ q, e.value = .fin q ∧ IsDouble q) ∧
          ∀ x, Feasible c x → (∀ j, |x j| ≤ B) →
            eval cut.row.entries x ≤ β + 256 * (n + m) / 2 ^ 53 * (n * m * B ^ 3)) := by
  intro cut hc
  unfold generateCuttingPlanes at h
  split at h
  · cases h
  split at h
  · cases h
  obtain ⟨acts, hacts, h⟩ := Outcome.bind_eq_ok.1 h
  obtain ⟨useRhs, hu, h⟩ := Outcome.bind_eq_ok.1 h
  obtain ⟨primal, -, h⟩ := Outcome.bind_eq_ok.1 h
  simp only at h
  split at h
  · cases h
  rcases tableauLoop_mem _ h cut hc with h1 | ⟨k, new, hnew, h1⟩
  · simp at h1
  obtain ⟨v, a, a', hv, ha, ha', rounder, -, t, hr, hname⟩ := tableauRow_mem hnew cut h1
  cases rounder with
  | mir => exact Or.inl ⟨t, hname⟩
  | strongCG =>
    right
    obtain ⟨h2, h3, h4⟩ := hinv k v hv
    have key := cg_pipeline hI ht ht0 hB hB' hn1 hn ht1 hm1 hm hu h2 h3 h4 ha ha' hr
    obtain ⟨b, hb, hbd, hkey⟩ := key (fun _ => 0) (fun _ => by rw [abs_zero]; linarith)
    refine ⟨k, v, acts, useRhs, a, a', b, hv, hacts, hu, ha, ha', hr, hb, fun hclear => ?_⟩
    obtain ⟨β, hβ, hβd, hrow, -⟩ := hkey hclear
    refine ⟨β, hβ, hβd, fun e he => ⟨hrow.nonneg e he, hrow.cols e he, hrow.double e he⟩, fun x hx hxB => ?_⟩
    obtain ⟨b', hb', -, hle⟩ := key x hxB
    rw [hb, Dbl.fin.injEq] at hb'
    subst hb'
    obtain ⟨β', hβ', -, -, hle⟩ := hle hclear
    rw [hβ, Dbl.fin.injEq] at hβ'
    subst hβ'
    exact hle hx

/-! ## An example -/

/-- `4 x + 3 y ≤ 6`, `0 ≤ x, y ≤ 9`, both integer, with the default integrality tolerance. -/
def quarter : GenContext where
  lp := {
    rows := [⟨[⟨0, .fin 4⟩, ⟨1, .fin 3⟩], false⟩]
    lhs := [.ninf]
    rhs := [.fin 6]
    lower := [.fin 0, .fin 0]
    upper := [.fin 9, .fin 9] }
  isInteger := fun j => decide (j ∈ [(0 : Int), 1])
  integralRow := [true]
  tol := round (1 / 10 ^ 6)

/-- The LP optimum `x = 3/2`, `y = 0` with `x` basic. -/
def quarterView : SolverView where
  isSolved := true
  isOptimal := true
  activities := .ok [.fin 6]
  basis := [some 0]
  primal := .ok [.fin (3 / 2), .fin 0]
  bInverted := fun _ => .ok ⟨[⟨0, .fin (1 / 4)⟩], false⟩

/-- The aggregated row: `x + 3/4 y + s/4 ≤ 3/2`. -/
def quarterAgg : AggRow where
  vars := ⟨[⟨0, .fin 1⟩, ⟨1, .fin (3 / 4)⟩], false⟩
  slackCoefs := ⟨[⟨0, .fin (1 / 4)⟩], false⟩
  slackSigns := ⟨[⟨0, .fin 1⟩], false⟩
  sideValues := ⟨[⟨0, .fin 6⟩], false⟩
  rhs := .fin (3 / 2)

theorem quarter_agg : aggregateByWeight quarter.lp (rowWeights ⟨[⟨0, .fin (1 / 4)⟩], false⟩) [true] = .ok quarterAgg := by
  rw [show rowWeights ⟨[⟨0, .fin (1 / 4)⟩], false⟩ = ⟨[⟨0, .fin (1 / 4)⟩], false⟩ by decide +kernel]
  simp only [aggregateByWeight, aggregateLoop, aggregateStep, addMultiple_fuel]
  decide +kernel

theorem quarter_nonneg : toNonNegative quarter.lp quarterAgg = .ok (quarterAgg, true) := by decide +kernel

/-- `x + y/2 ≤ 1` -/
theorem quarter_scg : roundOne quarter quarterAgg .strongCG =
    .ok (some (⟨[⟨0, .fin 1⟩, ⟨1, .fin (1 / 2)⟩], false⟩, .fin 1)) := by
  refine roundOne_eq (r := { quarterAgg with vars := ⟨[⟨0, .fin 1⟩, ⟨1, .fin (1 / 2)⟩], false⟩, slackCoefs := ⟨[], false⟩, rhs := .fin 1 })
    (r' := { quarterAgg with vars := ⟨[⟨0, .fin 1⟩, ⟨1, .fin (1 / 2)⟩], false⟩, slackCoefs := ⟨[], false⟩, rhs := .fin 1 })
    (by decide +kernel) (by decide +kernel) ?_
  simp only [substituteSlacks, substituteLoop]
  decide +kernel

theorem quarter_generate : generateCuttingPlanes quarter quarterView [.strongCG] 100 =
    .ok [⟨⟨[⟨0, .fin 1⟩, ⟨1, .fin (1 / 2)⟩], false⟩, .fin 1, "SCG0"⟩] := by
  have h1 : chooseSides quarter.lp 0 [.fin 6] = .ok [true] := by decide +kernel
  have hrem : removesLPOptimum ⟨[⟨0, .fin 1⟩, ⟨1, .fin (1 / 2)⟩], false⟩ (.fin 1) (ofDense [.fin (3 / 2), .fin 0]) = true := by
    have h : Dbl.lt (.fin 1) (add (.fin 0) (mul (.fin 1) (.fin (3 / 2)))) = true := by decide +kernel
    rw [show ofDense [.fin (3 / 2), .fin 0] = ⟨[⟨0, .fin (3 / 2)⟩], false⟩ by decide +kernel]
    simp only [removesLPOptimum, AVector.dotProduct, AVector.dotWalk]
    simpa [AVector.dotWalk, Arith.ieee] using h
  have h2 : tableauRow quarter quarterView [.strongCG] [true] (ofDense [.fin (3 / 2), .fin 0]) 0 =
      .ok [⟨⟨[⟨0, .fin 1⟩, ⟨1, .fin (1 / 2)⟩], false⟩, .fin 1, "SCG0"⟩] := by
    have h3 : listAt quarterView.basis (0 : Nat) = .ok (some 0) := by decide +kernel
    have h4 : quarter.isInteger 0 = true := by decide +kernel
    have h5 : isIntegerWithinTolerance quarter.tol ((ofDense [.fin (3 / 2), .fin 0]).value .ieee 0) = false := by decide +kernel
    simp only [tableauRow, h3, h4, h5, Outcome.bind_ok, Bool.not_true, Bool.false_eq_true, if_false,
      show quarterView.bInverted 0 = .ok ⟨[⟨0, .fin (1 / 4)⟩], false⟩ from rfl, quarter_agg, quarter_nonneg, roundAll,
      quarter_scg, hrem, if_true, Outcome.pure_eq]
    decide +kernel
  simp only [generateCuttingPlanes, show quarterView.isSolved = true from rfl, show quarterView.isOptimal = true from rfl,
    show quarterView.activities = .ok [.fin 6] from rfl, show quarterView.primal = .ok [.fin (3 / 2), .fin 0] from rfl,
    Outcome.bind_ok, Bool.not_true, Bool.false_eq_true, if_false, h1, if_neg (show ¬ (100 : Int) < 0 by omega),
    show quarter.lp.rows.length = 1 from rfl, tableauLoop, List.length_nil, Int.natCast_zero,
    if_pos (show (0 : Int) < 100 by omega), h2]
  simp

theorem half_steps : steps (1 / 2) = 1 := by
  unfold steps
  rw [show (1 : ℚ) / (1 / 2) = ((2 : ℤ) : ℚ) by norm_num, rnd_rep (rep_int (by norm_num)), Int.ceil_intCast]
  norm_num

theorem quarter_instance : Instance quarter 2 9 := by
  have hd : ∀ k : ℤ, |k| ≤ 9 → Bounded 9 (.fin k) := fun k hk =>
    ⟨k, rfl, (dyadic (m := k) (n := 0) (lt_of_le_of_lt hk (by norm_num)) (by norm_num) (by simp)).1, by exact_mod_cast hk⟩
  refine ⟨?_, ?_, ?_, ?_, ?_, ?_, ?_, ?_, ?_, ?_, ?_⟩
  · intro r hr
    simp only [quarter, List.mem_singleton] at hr
    subst hr
    refine ⟨by decide +kernel, fun e he => ?_⟩
    simp only [List.mem_cons, List.not_mem_nil, or_false] at he
    rcases he with rfl | rfl
    · exact ⟨by norm_num, by exact_mod_cast hd 4 (by norm_num)⟩
    · exact ⟨by norm_num, by exact_mod_cast hd 3 (by norm_num)⟩
  · intro l hl
    simp only [quarter, List.mem_singleton] at hl
    subst hl
    exact Or.inl rfl
  · intro l hl
    simp only [quarter, List.mem_singleton] at hl
    subst hl
    exact Or.inr (by exact_mod_cast hd 6 (by norm_num))
  · intro i l r _ hr hinf
    rcases i with _ | i <;> simp [quarter] at hr
    subst hr
    simp [LpView.isInfinity, quarter, Dbl.le] at hinf
  · intro l hl
    simp only [quarter, List.mem_cons, List.not_mem_nil, or_false, or_self] at hl
    subst hl
    exact Or.inr (Or.inl (by simp [Dbl.le]))
  · intro l hl
    simp only [quarter, List.mem_cons, List.not_mem_nil, or_false, or_self] at hl
    subst hl
    exact Or.inr (by exact_mod_cast hd 9 (by norm_num))
  · intro j q _ h
    rcases j with _ | _ | j <;> simp [quarter] at h <;> exact ⟨0, by simp [← h]⟩
  · intro j q _ h
    rcases j with _ | _ | j <;> simp [quarter] at h <;> exact ⟨9, by simp [← h]⟩
  · intro i r _ h e he
    rcases i with _ | i <;> simp [quarter] at h
    subst h
    simp only [List.mem_cons, List.not_mem_nil, or_false] at he
    rcases he with rfl | rfl
    · exact ⟨by decide +kernel, 4, by simp⟩
    · exact ⟨by decide +kernel, 3, by simp⟩
  · intro i q _ h
    rcases i with _ | i <;> simp [quarter] at h
  · intro i q _ h
    rcases i with _ | i <;> simp [quarter] at h
    exact ⟨6, by simp [← h]⟩

/-- Rounding is clear: the fraction 3/4 of the second coefficient is beyond 1/2 by more than the margin. -/
theorem quarter_clear {tol : ℚ} (h0 : 0 ≤ tol) (h1 : tol ≤ 1 / 10 ^ 5) :
    ClearRow quarter tol (margin 2 1 9 tol) quarterAgg (3 / 2) := by
  have hf : ⌊(3 / 2 : ℚ)⌋ = 1 := by rw [Int.floor_eq_iff]; norm_num
  have hfar : ¬ ∃ n : ℤ, |(3 / 2 : ℚ) - n| ≤ tol := by
    rintro ⟨n, hn⟩
    have h2 := abs_le.1 hn
    have h3 : ((2 * n : ℤ) : ℚ) < 4 := by push_cast; norm_num at h1; linarith
    have h4 : (2 : ℚ) < ((2 * n : ℤ) : ℚ) := by push_cast; norm_num at h1; linarith
    norm_cast at h3 h4
    omega
  have hfrac : fraction tol (3 / 2) = 1 / 2 := by
    rw [fraction_exact (dyadic (q := 3 / 2) (m := 3) (n := 1) (by norm_num) (by norm_num) (by norm_num)).1.1
      (Or.inl (by norm_num)) hfar, hf]
    norm_num
  have hm : margin 2 1 9 tol ≤ 1 / 5 := by
    unfold margin
    norm_num at h1 ⊢
    linarith
  refine ⟨hfar, by rw [hfrac]; linarith, ?_, ?_, ?_⟩
  · intro e he hi
    simp only [quarterAgg, List.mem_cons, List.not_mem_nil, or_false] at he
    rcases he with rfl | rfl <;> norm_num [Generator.finPart]
  · intro e he hi
    simp only [quarterAgg, List.mem_cons, List.not_mem_nil, or_false] at he
    rw [hfrac]
    rcases he with rfl | rfl
    · exact Or.inl ⟨1, by simpa [Generator.finPart] using h0⟩
    · refine Or.inr (Or.inr ?_)
      have hfl : ⌊(3 / 4 : ℚ)⌋ = 0 := by rw [Int.floor_eq_iff]; norm_num
      have hr1 : rnd (1 / 4) = 1 / 4 := rnd_rep (dyadic (q := 1 / 4) (m := 1) (n := 2) (by norm_num) (by norm_num) (by norm_num)).1.1
      have hr2 : rnd (1 / 2) = 1 / 2 := rnd_rep (dyadic (q := 1 / 2) (m := 1) (n := 1) (by norm_num) (by norm_num) (by norm_num)).1.1
      have hstep : step (1 / 2) (3 / 4) = 1 := by
        unfold step
        rw [half_steps, show (3 / 4 : ℚ) - 1 / 2 = 1 / 4 by norm_num, show (1 : ℚ) - 1 / 2 = 1 / 2 by norm_num, hr1, hr2,
          Int.cast_one, one_mul, hr1, show (1 / 4 : ℚ) / (1 / 2) = 1 / 2 by norm_num, hr2, Int.ceil_eq_iff]
        norm_num
      simp only [Generator.finPart, hfl, Int.cast_zero, sub_zero, hstep, half_steps]
      norm_num
      linarith
  · intro e he
    simp only [quarterAgg, List.mem_singleton] at he
    subst he
    rw [hfrac]
    refine Or.inr (Or.inl ?_)
    have hfl : ⌊(1 / 4 : ℚ)⌋ = 0 := by rw [Int.floor_eq_iff]; norm_num
    simp only [Generator.finPart, hfl]
    norm_num

/-- The hypotheses of `C91_strong_cg_partial` are met by an LP on which a cut is generated, with a coefficient that is
rounded up to a step, and rounding is clear. -/
example : ∃ (tol : ℚ) (cut : Cut), Instance quarter 2 9 ∧ quarter.tol = .fin tol ∧ 1 / 2 ^ 50 ≤ tol ∧ tol ≤ 1 ∧
    (∀ k v, quarterView.bInverted k = .ok v → v.isClean .ieee = true ∧ v.entries.length ≤ 1 ∧
      ∀ e ∈ v.entries, Bounded 9 e.value) ∧
    generateCuttingPlanes quarter quarterView [.strongCG] 100 = .ok [cut] ∧ cut.name = "SCG0" ∧
    roundOne quarter quarterAgg .strongCG = .ok (some (cut.row, cut.rhs)) ∧
    ClearRow quarter tol (margin 2 1 9 tol) quarterAgg (3 / 2) := by
  refine ⟨4722366482869645 / 2 ^ 72, _, quarter_instance, by decide +kernel, by norm_num, by norm_num, ?_, quarter_generate, rfl,
    quarter_scg, quarter_clear (by norm_num) (by norm_num)⟩
  intro k v h
  have hv : v = ⟨[⟨0, .fin (1 / 4)⟩], false⟩ := by
    have : (Outcome.ok (⟨[⟨0, .fin (1 / 4)⟩], false⟩ : Vec)) = .ok v := h
    simp only [Outcome.ok.injEq] at this
    exact this.symm
  subst hv
  refine ⟨by decide +kernel, by simp, fun e he => ?_⟩
  simp only [List.mem_singleton] at he
  subst he
  exact ⟨1 / 4, rfl, (dyadic (m := 1) (n := 2) (by norm_num) (by norm_num) (by norm_num)).1, by norm_num [abs_le]⟩

end Ieee
end MiniMip
