import Mathlib.Data.Rat.Floor
import Mathlib.Algebra.Order.Floor.Ring
import Mathlib.Tactic.Linarith
import Mathlib.Tactic.FieldSimp
import Mathlib.Tactic.Ring
import Mathlib.Tactic.Positivity

/-!
# Validity of mixed-integer rounding and of strong Chvatal-Gomory rounding

Pure arithmetic on lists of terms `(integer?, coefficient, rounded coefficient, value)`.
-/

namespace MiniMip.Rounding

/-- One term of an inequality and of its rounded form. -/
structure Term where
  int : Bool
  coef : ℚ
  rounded : ℚ
  val : ℚ

/-- Left-hand side of the given inequality. -/
def lhs (l : List Term) : ℚ := (l.map fun t => t.coef * t.val).sum
/-- Left-hand side of the rounded inequality. -/
def lhsRounded (l : List Term) : ℚ := (l.map fun t => t.rounded * t.val).sum

/-- What mixed-integer rounding may do with one term, for the fraction `f0`. -/
def MirTerm (f0 : ℚ) (t : Term) : Prop :=
  0 ≤ t.val ∧
  ((t.int = true ∧ (∃ k : Int, t.val = k) ∧
      (t.rounded ≤ ⌊t.coef⌋ ∨
        (f0 < t.coef - ⌊t.coef⌋ ∧ t.rounded ≤ ⌊t.coef⌋ + (t.coef - ⌊t.coef⌋ - f0) / (1 - f0)))) ∨
    (0 ≤ t.coef ∧ t.rounded ≤ 0) ∨ (t.coef < 0 ∧ t.rounded ≤ t.coef / (1 - f0)))

theorem mir_split {f0 : ℚ} (h1 : f0 < 1) (l : List Term) (h : ∀ t ∈ l, MirTerm f0 t) :
    ∃ (z : Int) (s : ℚ), 0 ≤ s ∧ (z : ℚ) - s ≤ lhs l ∧ lhsRounded l ≤ z - s / (1 - f0) := by
  have hd : 0 < 1 - f0 := by linarith
  induction l with
  | nil => exact ⟨0, 0, by simp [lhs, lhsRounded]⟩
  | cons t r ih =>
    obtain ⟨z, s, hs, ha, hb⟩ := ih (fun t ht => h t (by simp [ht]))
    have el : lhs (t :: r) = t.coef * t.val + lhs r := by simp [lhs]
    have er : lhsRounded (t :: r) = t.rounded * t.val + lhsRounded r := by simp [lhsRounded]
    rw [el, er]
    obtain ⟨hx, ht⟩ := h t (by simp)
    rcases ht with ⟨-, ⟨k, hk⟩, hr⟩ | ⟨hc, hr⟩ | ⟨hc, hr⟩
    · rcases hr with hr | ⟨hf, hr⟩
      · refine ⟨z + ⌊t.coef⌋ * k, s, hs, ?_, ?_⟩
        · have := mul_le_mul_of_nonneg_right (Int.floor_le t.coef) hx
          push_cast; rw [← hk]; linarith
        · have := mul_le_mul_of_nonneg_right hr hx
          push_cast; rw [← hk]; linarith
      · refine ⟨z + (⌊t.coef⌋ + 1) * k, s + (1 - (t.coef - ⌊t.coef⌋)) * t.val, ?_, ?_, ?_⟩
        · have := Int.lt_floor_add_one t.coef
          have := mul_nonneg (show 0 ≤ 1 - (t.coef - ⌊t.coef⌋) by linarith) hx
          linarith
        · push_cast; rw [← hk]; linarith
        · have h2 := mul_le_mul_of_nonneg_right hr hx
          have h3 : ((⌊t.coef⌋ : ℚ) + (t.coef - ⌊t.coef⌋ - f0) / (1 - f0)) * t.val =
              (⌊t.coef⌋ + 1) * t.val - (1 - (t.coef - ⌊t.coef⌋)) * t.val / (1 - f0) := by
            field_simp; ring
          rw [h3] at h2
          push_cast; rw [← hk, add_div]; linarith
    · refine ⟨z, s, hs, ?_, ?_⟩
      · have := mul_nonneg hc hx; linarith
      · have := mul_nonpos_of_nonpos_of_nonneg hr hx; linarith
    · refine ⟨z, s + (-t.coef) * t.val, ?_, ?_, ?_⟩
      · have := mul_nonneg (show 0 ≤ -t.coef by linarith) hx; linarith
      · linarith
      · have h2 := mul_le_mul_of_nonneg_right hr hx
        have h3 : t.coef / (1 - f0) * t.val = t.coef * t.val / (1 - f0) := by ring
        rw [h3] at h2
        rw [add_div, neg_mul, neg_div]; linarith

/-- Mixed-integer rounding is valid. -/
theorem mir_valid (b : ℚ) (l : List Term) (h : ∀ t ∈ l, MirTerm (b - ⌊b⌋) t) (hb : lhs l ≤ b) :
    lhsRounded l ≤ ⌊b⌋ := by
  have h0 : 0 ≤ b - ⌊b⌋ := by have := Int.floor_le b; linarith
  have h1 : b - ⌊b⌋ < 1 := by have := Int.lt_floor_add_one b; linarith
  obtain ⟨z, s, hs, ha, hc⟩ := mir_split h1 l h
  have hd : 0 < 1 - (b - ⌊b⌋) := by linarith
  refine hc.trans ?_
  rcases le_or_gt z ⌊b⌋ with hz | hz
  · have : (z : ℚ) ≤ ⌊b⌋ := by exact_mod_cast hz
    have := div_nonneg hs hd.le
    linarith
  · have hz1 : (⌊b⌋ : ℚ) + 1 ≤ z := by exact_mod_cast hz
    have : (z : ℚ) - ⌊b⌋ ≤ s / (1 - (b - ⌊b⌋)) := by
      rw [le_div_iff₀ hd]
      nlinarith
    linarith

/-- What strong Chvatal-Gomory rounding may do with one term. -/
def CgTerm (k f0 : ℚ) (t : Term) : Prop :=
  0 ≤ t.val ∧
  ((t.int = true ∧ (∃ n : Int, t.val = n) ∧
      (t.rounded ≤ ⌊t.coef⌋ ∨
        (f0 < t.coef - ⌊t.coef⌋ ∧
          t.rounded ≤ ⌊t.coef⌋ + (⌈k * (t.coef - ⌊t.coef⌋ - f0) / (1 - f0)⌉ : ℚ) / (k + 1)))) ∨
    (0 ≤ t.coef ∧ t.rounded ≤ 0))

theorem cg_split {k f0 : ℚ} (hk : 0 < k) (hkint : ∃ n : Int, k = n) (hf0 : 0 ≤ f0) (h1 : f0 < 1)
    (l : List Term) (h : ∀ t ∈ l, CgTerm k f0 t) :
    ∃ (I P M : Int) (F : ℚ), 0 ≤ F ∧ 0 ≤ M ∧ (P : ℚ) ≤ k * M ∧ (I : ℚ) + F ≤ lhs l ∧
      lhsRounded l ≤ I + P / (k + 1) ∧
      f0 * M + (1 - f0) * (P - M) / k ≤ F ∧ (0 < M → f0 * M + (1 - f0) * (P - M) / k < F) := by
  have hd : 0 < 1 - f0 := by linarith
  have hk1 : 0 < k + 1 := by linarith
  induction l with
  | nil => exact ⟨0, 0, 0, 0, by simp [lhs, lhsRounded]⟩
  | cons t r ih =>
    obtain ⟨I, P, M, F, hF, hM, hPM, ha, hb, hc, hs⟩ := ih (fun t ht => h t (by simp [ht]))
    have el : lhs (t :: r) = t.coef * t.val + lhs r := by simp [lhs]
    have er : lhsRounded (t :: r) = t.rounded * t.val + lhsRounded r := by simp [lhsRounded]
    rw [el, er]
    obtain ⟨hx, ht⟩ := h t (by simp)
    rcases ht with ⟨-, ⟨n, hn⟩, hr⟩ | ⟨hc', hr⟩
    · rcases hr with hr | ⟨hf, hr⟩
      · refine ⟨I + ⌊t.coef⌋ * n, P, M, F, hF, hM, hPM, ?_, ?_, hc, hs⟩
        · have := mul_le_mul_of_nonneg_right (Int.floor_le t.coef) hx
          push_cast; rw [← hn]; linarith
        · have := mul_le_mul_of_nonneg_right hr hx
          push_cast; rw [← hn]; linarith
      · set fj := t.coef - ⌊t.coef⌋ with hfj
        have hfj1 : fj < 1 := by have := Int.lt_floor_add_one t.coef; linarith
        set p : Int := ⌈k * (fj - f0) / (1 - f0)⌉ with hp
        have hpk : (p : ℚ) ≤ k := by
          obtain ⟨m, hm⟩ := hkint
          have : p ≤ m := by
            rw [hp, Int.ceil_le, ← hm, div_le_iff₀ hd]
            nlinarith
          rw [hm]; exact_mod_cast this
        have hp1 : (p : ℚ) - 1 < k * (fj - f0) / (1 - f0) := by
          have := Int.ceil_lt_add_one (k * (fj - f0) / (1 - f0)); linarith
        have hp2 : f0 + (1 - f0) * (p - 1) / k < fj := by
          rw [lt_div_iff₀ hd] at hp1
          have : (1 - f0) * ((p : ℚ) - 1) / k < fj - f0 := by
            rw [div_lt_iff₀ hk]; linarith
          linarith
        have hn0 : 0 ≤ n := by rw [hn] at hx; exact_mod_cast hx
        have split : f0 * ((M : ℚ) + n) + (1 - f0) * (P + p * n - (M + n)) / k =
            (f0 * M + (1 - f0) * (P - M) / k) + (f0 + (1 - f0) * (p - 1) / k) * n := by
          field_simp; ring
        have hn0' : (0 : ℚ) ≤ n := by exact_mod_cast hn0
        have hmul : (f0 + (1 - f0) * (p - 1) / k) * n ≤ fj * n :=
          mul_le_mul_of_nonneg_right hp2.le hn0'
        have hfj0 : 0 ≤ fj := by linarith
        refine ⟨I + ⌊t.coef⌋ * n, P + p * n, M + n, F + fj * n, ?_, by omega, ?_, ?_, ?_, ?_, ?_⟩
        · have := mul_nonneg hfj0 hn0'; linarith
        · have := mul_le_mul_of_nonneg_right hpk hn0'
          push_cast; linarith
        · push_cast
          have : t.coef * t.val = ⌊t.coef⌋ * n + fj * n := by rw [hn, hfj]; ring
          linarith
        · have h2 := mul_le_mul_of_nonneg_right hr hx
          rw [hn] at h2 ⊢
          push_cast
          have : ((⌊t.coef⌋ : ℚ) + p / (k + 1)) * n = ⌊t.coef⌋ * n + p * n / (k + 1) := by ring
          rw [this] at h2
          rw [add_div]; linarith
        · push_cast; rw [split]; linarith
        · intro hMn
          push_cast; rw [split]
          rcases hn0.eq_or_lt with h0 | h0
          · have : 0 < M := by omega
            have := hs this
            linarith
          · have h0' : (0 : ℚ) < n := by exact_mod_cast h0
            have := mul_lt_mul_of_pos_right hp2 h0'
            linarith
    · refine ⟨I, P, M, F, hF, hM, hPM, ?_, ?_, hc, hs⟩
      · have := mul_nonneg hc' hx; linarith
      · have := mul_nonpos_of_nonpos_of_nonneg hr hx; linarith

/-- Strong Chvatal-Gomory rounding is valid. -/
theorem cg_valid (b k : ℚ) (hb0 : 0 < b - ⌊b⌋) (hk : k = ⌈1 / (b - ⌊b⌋)⌉ - 1) (l : List Term)
    (h : ∀ t ∈ l, CgTerm k (b - ⌊b⌋) t) (hb : lhs l ≤ b) : lhsRounded l ≤ ⌊b⌋ := by
  set f0 := b - ⌊b⌋ with hf0
  have h1 : f0 < 1 := by have := Int.lt_floor_add_one b; linarith
  have hkint : ∃ n : Int, k = n := ⟨⌈1 / f0⌉ - 1, by rw [hk]; push_cast; ring⟩
  have hinv : 1 < 1 / f0 := by rw [lt_div_iff₀ hb0]; linarith
  have hkpos : 0 < k := by
    have : (1 : ℚ) / f0 ≤ ⌈1 / f0⌉ := Int.le_ceil _
    rw [hk]; linarith
  have hkf : 1 - f0 ≤ k * f0 := by
    have : (1 : ℚ) / f0 ≤ k + 1 := by rw [hk]; have := Int.le_ceil (1 / f0); linarith
    rw [div_le_iff₀ hb0] at this; linarith
  obtain ⟨I, P, M, F, hF, hM, hPM, ha, hc, hd, hs⟩ := cg_split hkpos hkint hb0.le h1 l h
  refine hc.trans ?_
  have hk1 : 0 < k + 1 := by linarith
  set d : Int := ⌊b⌋ - I with hdd
  have hdq : (d : ℚ) = ⌊b⌋ - I := by rw [hdd]; push_cast; ring
  have hFd : F ≤ d + f0 := by rw [hdq]; linarith
  have hd0 : 0 ≤ d := by
    have : (-1 : ℚ) < d := by linarith
    have : (-1 : Int) < d := by exact_mod_cast this
    omega
  have hd0' : (0 : ℚ) ≤ d := by exact_mod_cast hd0
  obtain ⟨kk, hkk⟩ := hkint
  by_contra hcon
  have hP : (k + 1) * d < P := by
    have : (d : ℚ) < P / (k + 1) := by rw [hdq]; linarith
    rw [lt_div_iff₀ hk1] at this; linarith
  have hP1 : (k + 1) * d + 1 ≤ P := by
    rw [hkk] at hP ⊢; exact_mod_cast hP
  have hMd : d < M := by
    have : k * d < k * M := by nlinarith
    have := lt_of_mul_lt_mul_left this hkpos.le
    exact_mod_cast this
  have hMd' : (d : ℚ) + 1 ≤ M := by exact_mod_cast hMd
  have hFl := hs (by omega)
  have e : f0 * (M : ℚ) + (1 - f0) * (P - M) / k =
      P * ((1 - f0) / k) + M * (f0 - (1 - f0) / k) := by field_simp; ring
  rw [e] at hFl
  have hq : 0 ≤ (1 - f0) / k := div_nonneg (by linarith) hkpos.le
  have hq2 : 0 ≤ f0 - (1 - f0) / k := by
    have : (1 - f0) / k ≤ f0 := by rw [div_le_iff₀ hkpos]; linarith
    linarith
  have e1 := mul_le_mul_of_nonneg_right hP1 hq
  have e2 := mul_le_mul_of_nonneg_right hMd' hq2
  have e3 : ((k + 1) * (d : ℚ) + 1) * ((1 - f0) / k) + (d + 1) * (f0 - (1 - f0) / k) = d + f0 := by
    field_simp; ring
  linarith

end MiniMip.Rounding
