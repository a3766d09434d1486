import Verif.Lemmas.IeeeGenerator

/-!
# C91: cuts generated in floating-point arithmetic
-/

namespace MiniMip
namespace Ieee

open Rounding (Term MirTerm)

/-! ## Specification -/

/-- The value of a list of entries at a point; infinities and NaN do not count. -/
def eval (l : List (AEntry Dbl)) (x : Int → ℚ) : ℚ := (l.map fun e => Generator.finPart e.value * x e.index).sum

/-- The sum of `(|a| + 1) x` over the entries. -/
def size (l : List (AEntry Dbl)) (x : Int → ℚ) : ℚ :=
  (l.map fun e => (|Generator.finPart e.value| + 1) * x e.index).sum

/-- All coefficients are doubles of moderate size. -/
def Moderate (l : List (AEntry Dbl)) : Prop := ∀ e ∈ l, ∃ q, e.value = .fin q ∧ IsDouble q ∧ |q| ≤ 2 ^ 900

/-- The values of the variables in the row are non-negative, and integral where they have to be. -/
def Admissible (int : Int → Bool) (l : List (AEntry Dbl)) (x : Int → ℚ) : Prop :=
  ∀ e ∈ l, 0 ≤ x e.index ∧ (int e.index = true → ∃ k : ℤ, x e.index = k)

/-! ## MIR rounding -/

theorem eval_cons (e : AEntry Dbl) (l : List (AEntry Dbl)) (x : Int → ℚ) :
    eval (e :: l) x = Generator.finPart e.value * x e.index + eval l x := by simp [eval]

theorem size_cons (e : AEntry Dbl) (l : List (AEntry Dbl)) (x : Int → ℚ) :
    size (e :: l) x = (|Generator.finPart e.value| + 1) * x e.index + size l x := by simp [size]

/-- The coefficient of one entry. -/
def mirCoef (tol : ℚ) (int : Bool) (f0 : ℚ) (v : Dbl) : Dbl :=
  if int then mirRoundInteger (.fin tol) v (.fin f0) else mirRoundContinuous v (.fin f0)

theorem mirCoef_term {tol f0 : ℚ} (ht : 0 ≤ tol) (hf : Rep f0) (h0 : 0 ≤ f0) (h1 : f0 < 1) (int : Bool) {q x : ℚ}
    (hq : IsDouble q) (hb : |q| ≤ 2 ^ 900) (hx : 0 ≤ x) (hi : int = true → ∃ k : ℤ, x = k) :
    ∃ r t, mirCoef tol int f0 (.fin q) = .fin r ∧ MirTerm f0 t ∧ t.coef = q ∧ t.val = x ∧
      r * x ≤ t.rounded * x + (tol + 1 / 2 ^ 49) / (1 - f0) * ((|q| + 1) * x) := by
  have hy : 0 < 1 - f0 := by linarith
  have e1 : (tol + 1 / 2 ^ 49) / (1 - f0) * ((|q| + 1) * x) = (tol + 1 / 2 ^ 49) * (|q| + 1) / (1 - f0) * x := by ring
  have hq0 := abs_nonneg q
  cases int with
  | true =>
    obtain ⟨r, hr, hle⟩ := mirRoundInteger_bound ht hq hf h0 h1
    refine ⟨r, ⟨true, q, mirExact q f0, x⟩, by simpa [mirCoef] using hr, ⟨hx, Or.inl ⟨rfl, hi rfl, ?_⟩⟩, rfl, rfl, ?_⟩
    · show mirExact q f0 ≤ _ ∨ _ ∧ mirExact q f0 ≤ _
      unfold mirExact
      split_ifs with h
      · exact Or.inr ⟨h, le_rfl⟩
      · exact Or.inl le_rfl
    · rw [e1, ← add_mul]
      exact mul_le_mul_of_nonneg_right hle hx
  | false =>
    obtain ⟨r, hr, hpos, hneg⟩ := mirRoundContinuous_bound hb hf h0 h1
    have hr' : mirCoef tol false f0 (.fin q) = .fin r := by simpa [mirCoef] using hr
    have herr : 0 ≤ (tol + 1 / 2 ^ 49) * (|q| + 1) / (1 - f0) :=
      div_nonneg (mul_nonneg (by have : (0 : ℚ) ≤ 1 / 2 ^ 49 := by norm_num
                                 linarith) (by linarith)) hy.le
    rcases le_or_gt 0 q with hs | hs
    · refine ⟨r, ⟨false, q, 0, x⟩, hr', ⟨hx, Or.inr (Or.inl ⟨hs, le_rfl⟩)⟩, rfl, rfl, ?_⟩
      rw [e1, hpos hs, zero_mul, zero_add]
      exact mul_nonneg herr hx
    · refine ⟨r, ⟨false, q, q / (1 - f0), x⟩, hr', ⟨hx, Or.inr (Or.inr ⟨hs, le_rfl⟩)⟩, rfl, rfl, ?_⟩
      rw [e1, ← add_mul]
      apply mul_le_mul_of_nonneg_right _ hx
      refine (hneg hs).trans ?_
      have : (1 / 2 ^ 49 : ℚ) * (|q| + 1) / (1 - f0) ≤ (tol + 1 / 2 ^ 49) * (|q| + 1) / (1 - f0) := by
        apply div_le_div_of_nonneg_right _ hy.le
        apply mul_le_mul_of_nonneg_right _ (by linarith)
        linarith
      linarith

/-- A list of entries, rounded. -/
theorem mirList {tol f0 : ℚ} (ht : 0 ≤ tol) (hf : Rep f0) (h0 : 0 ≤ f0) (h1 : f0 < 1) (int : Int → Bool)
    (l : List (AEntry Dbl)) (hm : Moderate l) (x : Int → ℚ) (hx : Admissible int l x) :
    ∃ ts : List Term, (∀ t ∈ ts, MirTerm f0 t) ∧ Rounding.lhs ts = eval l x ∧
      (∀ e ∈ l, ∃ r, mirCoef tol (int e.index) f0 e.value = .fin r) ∧
      eval (l.map fun e => ⟨e.index, mirCoef tol (int e.index) f0 e.value⟩) x ≤
        Rounding.lhsRounded ts + (tol + 1 / 2 ^ 49) / (1 - f0) * size l x := by
  induction l with
  | nil => exact ⟨[], by simp, by simp [Rounding.lhs, eval], by simp, by simp [eval, Rounding.lhsRounded, size]⟩
  | cons e l ih =>
    obtain ⟨ts, hts, hl, hfin, hle⟩ := ih (fun e he => hm e (List.mem_cons_of_mem _ he))
      (fun e he => hx e (List.mem_cons_of_mem _ he))
    obtain ⟨q, hq, hd, hb⟩ := hm e (List.mem_cons_self ..)
    obtain ⟨hx0, hxi⟩ := hx e (List.mem_cons_self ..)
    obtain ⟨r, t, hr, ht', hc, hv, hle'⟩ := mirCoef_term ht hf h0 h1 (int e.index) hd hb hx0 hxi
    refine ⟨t :: ts, ?_, ?_, ?_, ?_⟩
    · intro t' h'
      rcases List.mem_cons.1 h' with rfl | h'
      exacts [ht', hts t' h']
    · rw [eval_cons, hq, ← hl]
      simp [Rounding.lhs, hc, hv, Generator.finPart]
    · intro e' h'
      rcases List.mem_cons.1 h' with rfl | h'
      · exact ⟨r, by rw [hq]; exact hr⟩
      · exact hfin e' h'
    · rw [List.map_cons, eval_cons, size_cons, hq, hr]
      have : Rounding.lhsRounded (t :: ts) = t.rounded * x e.index + Rounding.lhsRounded ts := by
        simp [Rounding.lhsRounded, hv]
      rw [this]
      simp only [Generator.finPart]
      rw [mul_add]
      linarith

/-- Dropping zeros does not change the value. -/
theorem eval_filter (l : List (AEntry Dbl)) (x : Int → ℚ) :
    eval (l.filter fun e => !Arith.ieee.isZero e.value) x = eval l x := by
  induction l with
  | nil => rfl
  | cons e l ih =>
    rw [List.filter_cons]
    split_ifs with h
    · rw [eval_cons, eval_cons, ih]
    · rw [eval_cons, ih]
      have h2 : Dbl.eq e.value (.fin 0) = true := by simpa [Arith.ieee] using h
      have h3 : Generator.finPart e.value = 0 := by
        cases hv : e.value <;> rw [hv] at h2 <;> simp [Dbl.eq] at h2
        simp [Generator.finPart, h2]
      rw [h3]; ring

/-- `Transform` with a function that may fail, when it does not. -/
theorem transformM_spec {f : Int → Dbl → Outcome Dbl} {l l' : List (AEntry Dbl)} (h : transformM f l = .ok l') :
    ∃ g : Int → Dbl → Dbl, (∀ e ∈ l, f e.index e.value = .ok (g e.index e.value)) ∧
      l' = (l.map fun e => ⟨e.index, g e.index e.value⟩).filter fun e => !Arith.ieee.isZero e.value := by
  refine ⟨fun i v => match f i v with
    | .ok y => y
    | _ => .nan, ?_⟩
  induction l generalizing l' with
  | nil => simp only [transformM, Outcome.ok.injEq] at h; simp [← h]
  | cons e r ih =>
    simp only [transformM] at h
    obtain ⟨y, hy, h⟩ := Outcome.bind_eq_ok.1 h
    obtain ⟨l'', hl, h⟩ := Outcome.bind_eq_ok.1 h
    simp only [Outcome.pure_eq, Outcome.ok.injEq] at h
    obtain ⟨ih1, ih2⟩ := ih hl
    constructor
    · intro e' he'
      rcases List.mem_cons.1 he' with rfl | he'
      · simp only [hy]
      · exact ih1 e' he'
    · rw [List.map_cons, List.filter_cons, ← ih2]
      simp only [hy]
      rw [← h]

open Classical in
/-- The fraction of the right-hand side that the code works with: 0 near an integer, otherwise the difference to the
floor, rounded. -/
noncomputable def fraction (tol b : ℚ) : ℚ := if ∃ n : ℤ, |b - n| ≤ tol then 0 else rnd (b - ⌊b⌋)

/-- The difference to the floor is computed exactly, but for negative numbers near zero. -/
theorem fraction_exact {tol b : ℚ} (hb : Rep b) (hr : 0 ≤ b ∨ b ≤ -1 / 2) (hn : ¬ ∃ n : ℤ, |b - n| ≤ tol) :
    fraction tol b = b - ⌊b⌋ := by
  unfold fraction
  rw [if_neg hn, rnd_rep (hb.sub_floor hr)]

theorem fractionality_eq {tol b : ℚ} (hb : IsDouble b) : fractionality (.fin tol) (.fin b) = .fin (fraction tol b) := by
  rw [fractionality_fin hb]
  unfold fraction
  split_ifs <;> rfl

/-- A number that is not near 1 is not rounded to 1. -/
theorem rnd_lt_one {y : ℚ} (h : y < 1 - 1 / 2 ^ 54) : rnd y < 1 := by
  have hz : Rep (1 - 1 / 2 ^ 53) := ⟨2 ^ 53 - 1, -53, by norm_num, by norm_num, by norm_num⟩
  rcases le_or_gt y (1 - 1 / 2 ^ 53) with h1 | h1
  · have := rnd_mono h1
    rw [rnd_rep hz] at this
    exact this.trans_lt (by norm_num)
  · have h2 := rnd_le (x := y) hz
    rw [abs_sub_comm (1 - 1 / 2 ^ 53) y, abs_of_pos (by linarith : 0 < y - (1 - 1 / 2 ^ 53))] at h2
    have h3 := (abs_le.1 h2).2
    have h4 : (1 : ℚ) / 2 ^ 53 = 1 / 2 ^ 54 + 1 / 2 ^ 54 := by norm_num
    linarith

theorem fraction_bounds {tol b : ℚ} (hb : Rep b) (hr : 0 ≤ b ∨ b ≤ -1 / 2 ∨ 1 / 2 ^ 54 ≤ tol) :
    Rep (fraction tol b) ∧ 0 ≤ fraction tol b ∧ fraction tol b < 1 := by
  have h1 := Int.floor_le b
  have h2 := Int.lt_floor_add_one b
  by_cases hn : ∃ n : ℤ, |b - n| ≤ tol
  · unfold fraction
    rw [if_pos hn]
    exact ⟨by exact_mod_cast rep_int (n := 0) (by norm_num), by norm_num, by norm_num⟩
  by_cases hr' : 0 ≤ b ∨ b ≤ -1 / 2
  · rw [fraction_exact hb hr' hn]
    exact ⟨hb.sub_floor hr', by linarith, by linarith⟩
  · push Not at hr'
    have ht : 1 / 2 ^ 54 ≤ tol := by
      rcases hr with h | h | h
      · exact absurd h (not_le.2 hr'.1)
      · exact absurd h (not_le.2 hr'.2)
      · exact h
    have hfl : ⌊b⌋ = -1 := Int.floor_eq_iff.2 ⟨by push_cast; linarith [hr'.2], by push_cast; linarith [hr'.1]⟩
    have h3 : tol < |b - (0 : ℤ)| := not_le.1 fun h => hn ⟨0, h⟩
    rw [Int.cast_zero, sub_zero, abs_of_neg hr'.1] at h3
    unfold fraction
    rw [if_neg hn, hfl]
    push_cast
    exact ⟨rep_rnd _, rnd_nonneg (by linarith [hr'.2]), rnd_lt_one (by linarith)⟩

/-- The right-hand side after rounding. -/
theorem floor_bounds {tol b : ℚ} (ht0 : 0 ≤ tol) (hd : IsDouble b) :
    ∃ β : ℤ, floorWithTolerance (.fin tol) (.fin b) = .fin β ∧ IsDouble β ∧ (β : ℚ) ≤ b + tol ∧ b - 1 ≤ β ∧
      b ≤ β + fraction tol b + (tol + 1 / 2 ^ 53) := by
  have hfl := Int.floor_le b
  have hfl' := Int.lt_floor_add_one b
  rw [floorWithTolerance_fin hd]
  by_cases hi : ∃ n : ℤ, |b - n| ≤ tol
  · have hn := abs_le.1 (near_roundAway hi)
    rw [if_pos hi]
    refine ⟨_, rfl, hd.roundAway, by linarith, ?_, ?_⟩
    · rcases roundAway_cases b with h | h
      · rw [h]; linarith
      · rw [h]; linarith [Int.le_ceil b]
    · rw [fraction, if_pos hi]
      have : (0 : ℚ) ≤ 1 / 2 ^ 53 := by norm_num
      linarith
  · rw [if_neg hi]
    refine ⟨_, rfl, hd.floor, by linarith, by linarith, ?_⟩
    rw [fraction, if_neg hi]
    have h := (abs_le.1 (rnd_error (b - ⌊b⌋))).1
    rw [abs_of_nonneg (show 0 ≤ b - ⌊b⌋ by linarith)] at h
    have h2 : max (u * (b - ⌊b⌋)) eta ≤ 1 / 2 ^ 53 := by
      refine max_le ?_ eta_le_u
      have := u_pos
      have hu : u = 1 / 2 ^ 53 := rfl
      nlinarith
    linarith

/-- What MIR rounding in doubles computes, and how far it is from valid. -/
theorem mir_core (c : GenContext) (tol : ℚ) (ht : c.tol = .fin tol) (ht0 : 0 ≤ tol) (a a' : AggRow) (b f0 : ℚ) (β : ℤ)
    (hb : a.rhs = .fin b) (hf : fractionality (.fin tol) (.fin b) = .fin f0) (hrep : Rep f0) (h0 : 0 ≤ f0) (h1 : f0 < 1)
    (hβ : floorWithTolerance (.fin tol) (.fin b) = .fin β) (hv : Moderate a.vars.entries)
    (hs : Moderate a.slackCoefs.entries) (h : mirRound c a = .ok (some a')) :
    a'.rhs = .fin β ∧ a'.slackSigns = a.slackSigns ∧ a'.sideValues = a.sideValues ∧
    a'.vars = ⟨(a.vars.entries.map fun e =>
      (⟨e.index, mirCoef tol (c.isInteger e.index) f0 e.value⟩ : AEntry Dbl)).filter
        fun e => !Arith.ieee.isZero e.value, a.vars.dirty⟩ ∧
    a'.slackCoefs = ⟨(a.slackCoefs.entries.map fun e =>
      (⟨e.index, mirCoef tol (c.integralRow.getD e.index.toNat false) f0 e.value⟩ : AEntry Dbl)).filter
        fun e => !Arith.ieee.isZero e.value, a.slackCoefs.dirty⟩ ∧
    (∀ e ∈ a'.vars.entries ++ a'.slackCoefs.entries, ∃ q, e.value = .fin q) ∧
    ∀ (x t : Int → ℚ), Admissible c.isInteger a.vars.entries x →
      Admissible (fun i => c.integralRow.getD i.toNat false) a.slackCoefs.entries t → ∀ ε : ℚ, 0 ≤ ε →
      eval a.vars.entries x + eval a.slackCoefs.entries t ≤ β + f0 + ε →
      eval a'.vars.entries x + eval a'.slackCoefs.entries t ≤
        β + (ε + (tol + 1 / 2 ^ 49) * (size a.vars.entries x + size a.slackCoefs.entries t)) / (1 - f0) := by
  have hy : 0 < 1 - f0 := by linarith
  simp only [mirRound, ht, hb, hf] at h
  obtain ⟨sl, hsl, h⟩ := Outcome.bind_eq_ok.1 h
  simp only [Outcome.pure_eq, Outcome.ok.injEq, Option.some.injEq] at h
  obtain ⟨g, hg, rfl⟩ := transformM_spec hsl
  -- the slacks
  have hg' : ∀ e ∈ a.slackCoefs.entries,
      g e.index e.value = mirCoef tol (c.integralRow.getD e.index.toNat false) f0 e.value := by
    intro e he
    have h2 := hg e he
    obtain ⟨i, hi, h2⟩ := Outcome.bind_eq_ok.1 h2
    simp only [Outcome.pure_eq, Outcome.ok.injEq] at h2
    have h3 : c.integralRow.getD e.index.toNat false = i := by
      unfold hasIntegralSlack listAt at hi
      split_ifs at hi with hneg
      cases hx : c.integralRow[e.index.toNat]? with
      | none => rw [hx] at hi; cases hi
      | some v => rw [hx] at hi; simp only [Outcome.ok.injEq] at hi; simp [List.getD, hx, hi]
    rw [h3, ← h2]
    rfl
  have hmap : (a.slackCoefs.entries.map fun e => (⟨e.index, g e.index e.value⟩ : AEntry Dbl)) =
      a.slackCoefs.entries.map fun e => ⟨e.index, mirCoef tol (c.integralRow.getD e.index.toNat false) f0 e.value⟩ :=
    List.map_congr_left fun e he => by rw [hg' e he]
  have hvars : a'.vars = ⟨(a.vars.entries.map fun e =>
      (⟨e.index, mirCoef tol (c.isInteger e.index) f0 e.value⟩ : AEntry Dbl)).filter
        fun e => !Arith.ieee.isZero e.value, a.vars.dirty⟩ := by
    rw [← h]; rfl
  have hslk : a'.slackCoefs = ⟨(a.slackCoefs.entries.map fun e =>
      (⟨e.index, mirCoef tol (c.integralRow.getD e.index.toNat false) f0 e.value⟩ : AEntry Dbl)).filter
        fun e => !Arith.ieee.isZero e.value, a.slackCoefs.dirty⟩ := by
    rw [← h, ← hmap]
  have hrhs : a'.rhs = .fin β := by rw [← h, ← hβ]
  have hfinite : ∀ (int : Int → Bool) (l : List (AEntry Dbl)), Moderate l → ∀ e ∈ l,
      ∃ r, mirCoef tol (int e.index) f0 e.value = .fin r := by
    intro int l hm
    obtain ⟨-, -, -, hfin, -⟩ := mirList ht0 hrep h0 h1 int l hm (fun _ => 0)
      (fun e _ => ⟨le_rfl, fun _ => ⟨0, by simp⟩⟩)
    exact hfin
  refine ⟨hrhs, by rw [← h], by rw [← h], hvars, hslk, ?_, ?_⟩
  · intro e he
    rcases List.mem_append.1 he with he | he
    · rw [hvars] at he
      obtain ⟨e', he', rfl⟩ := List.mem_map.1 (List.mem_filter.1 he).1
      exact hfinite c.isInteger _ hv e' he'
    · rw [hslk] at he
      obtain ⟨e', he', rfl⟩ := List.mem_map.1 (List.mem_filter.1 he).1
      exact hfinite (fun i => c.integralRow.getD i.toNat false) _ hs e' he'
  · intro x t hx htt ε hε hrow
    obtain ⟨t1, ht1, hl1, -, hle1⟩ := mirList ht0 hrep h0 h1 c.isInteger _ hv x hx
    obtain ⟨t2, ht2, hl2, -, hle2⟩ := mirList ht0 hrep h0 h1 (fun i => c.integralRow.getD i.toNat false) _ hs t htt
    have hlip := Rounding.mir_lipschitz (f0 := f0) (ε := ε) (β := β) h0 h1 hε (t1 ++ t2)
      (fun t ht => (List.mem_append.1 ht).elim (ht1 t) (ht2 t)) (by
        have : Rounding.lhs (t1 ++ t2) = Rounding.lhs t1 + Rounding.lhs t2 := by simp [Rounding.lhs]
        rw [this, hl1, hl2]
        linarith)
    have hsplit : Rounding.lhsRounded (t1 ++ t2) = Rounding.lhsRounded t1 + Rounding.lhsRounded t2 := by
      simp [Rounding.lhsRounded]
    rw [hsplit] at hlip
    rw [hvars, hslk, eval_filter, eval_filter]
    have e1 : (ε + (tol + 1 / 2 ^ 49) * (size a.vars.entries x + size a.slackCoefs.entries t)) / (1 - f0) =
        ε / (1 - f0) + (tol + 1 / 2 ^ 49) / (1 - f0) * size a.vars.entries x +
          (tol + 1 / 2 ^ 49) / (1 - f0) * size a.slackCoefs.entries t := by ring
    rw [e1]
    linarith

/-- **C91, MIR rounding.**  The row that `MIRRounder` computes in doubles from the aggregated row
`Σ a_j x_j + Σ s_i t_i ≤ b` is valid up to an explicit error.  `x` and `t` are any non-negative values, integral for
integer variables and slacks that are taken for integral; they may violate the given row by `ε`.  With
`f0` the fraction of `b`, the computed row is violated by at most
`(ε + tol + 2^-53 + (tol + 2^-49) Σ (|a_j| + 1) x_j) / (1 - f0)`, where the sum runs over variables and slacks.  The
right-hand side is the exact floor of `b` (or the nearest integer
within the tolerance).  So MIR rounding damps: a rounding error in the aggregated row costs at most a multiple of
it.  Missing (and false): no violation at all (`C91_mir_violated`); right-hand sides in `(-1/2, 0)` if the tolerance is
below `2^-54`, whose fraction may be rounded to 1. -/
theorem C91_mir_partial (c : GenContext) (tol : ℚ) (ht : c.tol = .fin tol) (ht0 : 0 ≤ tol) (a a' : AggRow) (b : ℚ)
    (hb : a.rhs = .fin b) (hd : IsDouble b) (hr : 0 ≤ b ∨ b ≤ -1 / 2 ∨ 1 / 2 ^ 54 ≤ tol)
    (hv : Moderate a.vars.entries) (hs : Moderate a.slackCoefs.entries) (h : mirRound c a = .ok (some a'))
    (x t : Int → ℚ) (hx : Admissible c.isInteger a.vars.entries x)
    (htt : Admissible (fun i => c.integralRow.getD i.toNat false) a.slackCoefs.entries t) (ε : ℚ) (hε : 0 ≤ ε)
    (hrow : eval a.vars.entries x + eval a.slackCoefs.entries t ≤ b + ε) :
    ∃ β : ℤ, a'.rhs = .fin β ∧ (β : ℚ) ≤ b + tol ∧
      (∀ e ∈ a'.vars.entries ++ a'.slackCoefs.entries, ∃ q, e.value = .fin q) ∧
      eval a'.vars.entries x + eval a'.slackCoefs.entries t ≤
        β + (ε + (tol + 1 / 2 ^ 53) + (tol + 1 / 2 ^ 49) * (size a.vars.entries x + size a.slackCoefs.entries t)) /
          (1 - fraction tol b) := by
  obtain ⟨hrep, h0, h1⟩ := fraction_bounds hd.1 hr
  obtain ⟨β, hβ, -, hβ1, -, hβ2⟩ := floor_bounds ht0 hd
  obtain ⟨h2, -, -, -, -, h3, h4⟩ := mir_core c tol ht ht0 a a' b _ β hb (fractionality_eq hd) hrep h0 h1 hβ hv hs h
  have : (0 : ℚ) ≤ 1 / 2 ^ 53 := by norm_num
  exact ⟨β, h2, hβ1, h3, h4 x t hx htt _ (by linarith) (by linarith)⟩

/-! ## Evaluation -/

/-- `List.merge` by recursion on the number of steps, which the kernel can evaluate. -/
def mergeFuel : Nat → List (AEntry Dbl) → List (AEntry Dbl) → List (AEntry Dbl)
  | 0, _, _ => []
  | _ + 1, [], l => l
  | _ + 1, l, [] => l
  | n + 1, a :: as, b :: bs =>
    if a.index ≤ b.index then a :: mergeFuel n as (b :: bs) else b :: mergeFuel n (a :: as) bs

theorem merge_fuel (n : Nat) (l1 l2 : List (AEntry Dbl)) (h : l1.length + l2.length < n) :
    List.merge l1 l2 (fun a b => decide (a.index ≤ b.index)) = mergeFuel n l1 l2 := by
  induction n generalizing l1 l2 with
  | zero => omega
  | succ n ih =>
    match l1, l2 with
    | [], l => simp [mergeFuel]
    | a :: as, [] => simp [mergeFuel]
    | a :: as, b :: bs =>
      rw [List.merge, mergeFuel]
      simp only [decide_eq_true_eq]
      simp only [List.length_cons] at h
      rw [ih as (b :: bs) (by simp only [List.length_cons]; omega), ih (a :: as) bs (by simp only [List.length_cons]; omega)]

theorem addMultiple_fuel (v : Vec) (factor : Dbl) (other : Vec) : v.addMultiple .ieee factor other =
    if AVector.isSortedWeak v.entries &&
        AVector.isSortedWeak (other.entries.map fun e => (⟨e.index, mul e.value factor⟩ : AEntry Dbl)) then do
      let summed ← AVector.sumDuplicates .ieee (-1) none []
        (mergeFuel (v.entries.length + other.entries.length + 1) v.entries
          (other.entries.map fun e => ⟨e.index, mul e.value factor⟩))
      return ⟨summed.filter (fun e => !Arith.ieee.isZero e.value), v.dirty⟩
    else .ub := by
  unfold AVector.addMultiple
  rw [← merge_fuel _ _ _ (by simp)]
  rfl

/-! ## The generator on a concrete LP: maximise `x` with `3 x ≤ 4` -/

/-- `x` satisfies bounds, sides and integrality; sides and coefficients are read as the reals they stand for. -/
structure Feasible (c : GenContext) (x : Int → ℚ) : Prop where
  lower : ∀ (j : Nat) l, c.lp.lower[j]? = some l → Dbl.le l (.fin (x j)) = true
  upper : ∀ (j : Nat) l, c.lp.upper[j]? = some l → Dbl.le (.fin (x j)) l = true
  lhs : ∀ (i : Nat) (r : Vec) l, c.lp.rows[i]? = some r → c.lp.lhs[i]? = some l → Dbl.le l (.fin (eval r.entries x)) = true
  rhs : ∀ (i : Nat) (r : Vec) l, c.lp.rows[i]? = some r → c.lp.rhs[i]? = some l → Dbl.le (.fin (eval r.entries x)) l = true
  integral : ∀ j, c.isInteger j = true → ∃ k : ℤ, x j = k

/-- `3 x ≤ 4`, `0 ≤ x ≤ 9`, `x` integer, with the default integrality tolerance. -/
def third : GenContext where
  lp := {
    rows := [⟨[⟨0, .fin 3⟩], false⟩]
    lhs := [.ninf]
    rhs := [.fin 4]
    lower := [.fin 0]
    upper := [.fin 9] }
  isInteger := fun j => decide (j ∈ [(0 : Int)])
  integralRow := [true]
  tol := round (1 / 10 ^ 6)

/-- The LP optimum `x = 4/3` with `x` basic; all numbers are the doubles nearest to the exact ones. -/
def thirdView : SolverView where
  isSolved := true
  isOptimal := true
  activities := .ok [round 4]
  basis := [some 0]
  primal := .ok [round (4 / 3)]
  bInverted := fun _ => .ok ⟨[⟨0, round (1 / 3)⟩], false⟩

/-- The aggregated row: `x + fl(1/3) s ≤ 4 fl(1/3)`. -/
def thirdAgg : AggRow where
  vars := ⟨[⟨0, .fin 1⟩], false⟩
  slackCoefs := ⟨[⟨0, .fin (6004799503160661 / 2 ^ 54)⟩], false⟩
  slackSigns := ⟨[⟨0, .fin 1⟩], false⟩
  sideValues := ⟨[⟨0, .fin 4⟩], false⟩
  rhs := .fin (6004799503160661 / 2 ^ 52)

theorem third_weights : rowWeights ⟨[⟨0, round (1 / 3)⟩], false⟩ = ⟨[⟨0, .fin (6004799503160661 / 2 ^ 54)⟩], false⟩ := by
  decide +kernel

theorem third_agg : aggregateByWeight third.lp (rowWeights ⟨[⟨0, round (1 / 3)⟩], false⟩) [true] = .ok thirdAgg := by
  rw [third_weights]
  simp only [aggregateByWeight, aggregateLoop, aggregateStep, addMultiple_fuel]
  decide +kernel

theorem third_nonneg : toNonNegative third.lp thirdAgg = .ok (thirdAgg, true) := by decide +kernel

theorem roundOne_eq {c : GenContext} {a r r' : AggRow} {rounder : Generator.Rounder} {v : Vec} {b : Dbl}
    (h1 : roundBy c rounder a = .ok (some r)) (h2 : toOriginal c.lp r = .ok (r', true))
    (h3 : substituteSlacks c.lp r' = .ok { vars := v, rhs := b }) : roundOne c a rounder = .ok (some (v, b)) := by
  simp [roundOne, h1, h2, h3]

/-- `x + s/4 ≤ 1`: the coefficient of the slack should be 0. -/
theorem third_scg : roundOne third thirdAgg .strongCG = .ok (some (⟨[⟨0, .fin (1 / 4)⟩], false⟩, .fin 0)) := by
  refine roundOne_eq (r := { thirdAgg with slackCoefs := ⟨[⟨0, .fin (1 / 4)⟩], false⟩, rhs := .fin 1 })
    (r' := { thirdAgg with slackCoefs := ⟨[⟨0, .fin (1 / 4)⟩], false⟩, rhs := .fin 1 })
    (by decide +kernel) (by decide +kernel) ?_
  simp only [substituteSlacks, substituteLoop, addMultiple_fuel]
  decide +kernel

theorem third_mir : roundOne third thirdAgg .mir = .ok (some (⟨[⟨0, .fin (4503599627370495 / 2 ^ 52)⟩], false⟩,
    .fin (9007199254740989 / 2 ^ 53))) := by
  refine roundOne_eq (r := { thirdAgg with slackCoefs := ⟨[⟨0, .fin (6755399441055743 / 2 ^ 106)⟩], false⟩, rhs := .fin 1 })
    (r' := { thirdAgg with slackCoefs := ⟨[⟨0, .fin (6755399441055743 / 2 ^ 106)⟩], false⟩, rhs := .fin 1 })
    (by decide +kernel) (by decide +kernel) ?_
  simp only [substituteSlacks, substituteLoop, addMultiple_fuel]
  decide +kernel

theorem third_generate (rs : List Generator.Rounder) (m : Int) (hm : 0 < m) :
    generateCuttingPlanes third thirdView rs m = roundAll third (ofDense [round (4 / 3)]) thirdAgg 0 rs := by
  have h1 : chooseSides third.lp 0 [round 4] = .ok [true] := by decide +kernel
  have h2 : tableauRow third thirdView rs [true] (ofDense [round (4 / 3)]) 0 =
      roundAll third (ofDense [round (4 / 3)]) thirdAgg 0 rs := by
    have h3 : listAt thirdView.basis (0 : Nat) = .ok (some 0) := by decide +kernel
    have h4 : third.isInteger 0 = true := by decide +kernel
    have h5 : isIntegerWithinTolerance third.tol ((ofDense [round (4 / 3)]).value .ieee 0) = false := by decide +kernel
    simp only [tableauRow, h3, h4, h5, Outcome.bind_ok, Bool.not_true, Bool.false_eq_true, if_false,
      show thirdView.bInverted 0 = .ok ⟨[⟨0, round (1 / 3)⟩], false⟩ from rfl, third_agg, third_nonneg]
  simp only [generateCuttingPlanes, show thirdView.isSolved = true from rfl, show thirdView.isOptimal = true from rfl,
    show thirdView.activities = .ok [round 4] from rfl, show thirdView.primal = .ok [round (4 / 3)] from rfl,
    Outcome.bind_ok, Bool.not_true, Bool.false_eq_true, if_false, h1, if_neg (show ¬ m < 0 by omega),
    show third.lp.rows.length = 1 from rfl, tableauLoop, List.length_nil, Int.natCast_zero, if_pos hm, h2]
  cases roundAll third (ofDense [round (4 / 3)]) thirdAgg 0 rs <;> simp

theorem third_feasible : Feasible third (fun _ => 1) := by
  refine ⟨?_, ?_, ?_, ?_, fun _ _ => ⟨1, by simp⟩⟩
  · intro j l h
    rcases j with _ | j <;> simp [third] at h
    subst h; norm_num [Dbl.le]
  · intro j l h
    rcases j with _ | j <;> simp [third] at h
    subst h; norm_num [Dbl.le]
  · intro i r l _ h
    rcases i with _ | i <;> simp [third] at h
    subst h; rfl
  · intro i r l hr h
    rcases i with _ | i <;> simp [third] at hr h
    subst hr; subst h
    norm_num [Dbl.le, eval, Generator.finPart]

theorem third_dot (q r : ℚ) (h : Dbl.lt (.fin r) (add (.fin 0) (mul (.fin q) (round (4 / 3)))) = true) :
    removesLPOptimum ⟨[⟨0, .fin q⟩], false⟩ (.fin r) (ofDense [round (4 / 3)]) = true := by
  have h1 : ofDense [round (4 / 3)] = ⟨[⟨0, round (4 / 3)⟩], false⟩ := by decide +kernel
  rw [h1]
  simp only [removesLPOptimum, AVector.dotProduct, AVector.dotWalk]
  simpa [AVector.dotWalk, Arith.ieee] using h

/-- **C91, strong Chvátal-Gomory rounding**, counterexample, with the default tolerance and an LP solver whose answers
are the exact ones correctly rounded.  On `3 x ≤ 4`, `0 ≤ x ≤ 9`, `x` integer, the generator returns the cut
`x/4 ≤ 0`, which cuts off the optimum `x = 1` by 1/4.  The fraction of the right-hand side of the aggregated row is
slightly less than 1/3, so that `k` becomes 3 instead of 2, and the fraction of the coefficient of the slack is not
less than it any more. -/
theorem C91_strong_cg_violated : ∃ (c : GenContext) (s : SolverView) (x : Int → ℚ) (cut : Cut) (β : ℚ),
    c.tol = round (1 / 10 ^ 6) ∧ Feasible c x ∧ (∀ j, 0 ≤ x j ∧ x j ≤ 1) ∧
    s.primal = .ok [round (4 / 3)] ∧ s.activities = .ok [round 4] ∧
    s.bInverted 0 = .ok ⟨[⟨0, round (1 / 3)⟩], false⟩ ∧ c.lp.rows = [⟨[⟨0, .fin 3⟩], false⟩] ∧
    generateCuttingPlanes c s [.strongCG] 100 = .ok [cut] ∧ cut.rhs = .fin β ∧ β + 1 / 4 ≤ eval cut.row.entries x := by
  refine ⟨third, thirdView, fun _ => 1, ⟨⟨[⟨0, .fin (1 / 4)⟩], false⟩, .fin 0, "SCG0"⟩, 0, rfl, third_feasible,
    fun _ => by norm_num, rfl, rfl, rfl, rfl, ?_, rfl, by norm_num [eval, Generator.finPart]⟩
  rw [third_generate _ _ (by norm_num)]
  simp only [roundAll, third_scg, Outcome.bind_ok, third_dot _ _ (show Dbl.lt (.fin 0) (add (.fin 0)
    (mul (.fin (1 / 4)) (round (4 / 3)))) = true by decide +kernel), if_true, Outcome.pure_eq]
  decide +kernel

/-- **C91, MIR rounding**, counterexample: on the same LP, MIR rounding cuts off `x = 1`, but only by `2^-53`. -/
theorem C91_mir_violated : ∃ (c : GenContext) (s : SolverView) (x : Int → ℚ) (cut : Cut) (β : ℚ),
    c.tol = round (1 / 10 ^ 6) ∧ Feasible c x ∧
    s.primal = .ok [round (4 / 3)] ∧ s.activities = .ok [round 4] ∧
    s.bInverted 0 = .ok ⟨[⟨0, round (1 / 3)⟩], false⟩ ∧ c.lp.rows = [⟨[⟨0, .fin 3⟩], false⟩] ∧
    generateCuttingPlanes c s [.mir] 100 = .ok [cut] ∧ cut.rhs = .fin β ∧ β < eval cut.row.entries x := by
  refine ⟨third, thirdView, fun _ => 1, ⟨⟨[⟨0, .fin (4503599627370495 / 2 ^ 52)⟩], false⟩,
    .fin (9007199254740989 / 2 ^ 53), "MIR0"⟩, _, rfl, third_feasible, rfl, rfl, rfl, rfl, ?_, rfl,
    by norm_num [eval, Generator.finPart]⟩
  rw [third_generate _ _ (by norm_num)]
  simp only [roundAll, third_mir, Outcome.bind_ok, third_dot _ _ (show Dbl.lt (.fin (9007199254740989 / 2 ^ 53))
    (add (.fin 0) (mul (.fin (4503599627370495 / 2 ^ 52)) (round (4 / 3)))) = true by decide +kernel), if_true,
    Outcome.pure_eq]
  decide +kernel

theorem dyadic {q : ℚ} {m : ℤ} {n : ℕ} (hm : |m| < 2 ^ 53) (hn : n ≤ 1074) (hq : q * 2 ^ n = m) :
    IsDouble q ∧ |q| ≤ 2 ^ 900 := by
  have hp : (0 : ℚ) < 2 ^ n := pow_pos (by norm_num) n
  have e : q = m * 2 ^ (-(n : ℤ)) := by
    rw [zpow_neg, zpow_natCast, ← hq, mul_assoc, mul_inv_cancel₀ hp.ne', mul_one]
  have h1 : |q| ≤ 2 ^ 53 := by
    have h2 : |q| * 2 ^ n = |(m : ℚ)| := by rw [← hq, abs_mul, abs_of_pos hp]
    have h3 : |(m : ℚ)| ≤ 2 ^ 53 := by exact_mod_cast hm.le
    have h4 : (1 : ℚ) ≤ 2 ^ n := one_le_pow₀ (by norm_num)
    have h5 := abs_nonneg q
    nlinarith
  have h6 : (2 : ℚ) ^ 53 ≤ maxFinite := by
    have h7 : (2 : ℚ) ^ 1 ≤ 2 ^ 971 := pow_le_pow_right₀ (by norm_num) (by norm_num)
    unfold maxFinite
    calc (2 : ℚ) ^ 53 ≤ (2 ^ 53 - 1) * 2 ^ 1 := by norm_num
      _ ≤ _ := mul_le_mul_of_nonneg_left h7 (by norm_num)
  exact ⟨⟨⟨m, -(n : ℤ), hm, by omega, e⟩, h1.trans h6⟩,
    h1.trans (pow_le_pow_right₀ (by norm_num) (by norm_num))⟩

/-- The hypotheses of `C91_mir_partial` are met by the aggregated row of that LP at `x = 1`, `s = 1`. -/
example : ∃ (tol b : ℚ) (a' : AggRow), third.tol = .fin tol ∧ 0 ≤ tol ∧ thirdAgg.rhs = .fin b ∧ IsDouble b ∧ 0 ≤ b ∧
    Moderate thirdAgg.vars.entries ∧ Moderate thirdAgg.slackCoefs.entries ∧
    mirRound third thirdAgg = .ok (some a') ∧ Admissible third.isInteger thirdAgg.vars.entries (fun _ => 1) ∧
    Admissible (fun i => third.integralRow.getD i.toNat false) thirdAgg.slackCoefs.entries (fun _ => 1) ∧
    eval thirdAgg.vars.entries (fun _ => 1) + eval thirdAgg.slackCoefs.entries (fun _ => 1) ≤ b + 1 / 2 ^ 52 := by
  refine ⟨4722366482869645 / 2 ^ 72, 6004799503160661 / 2 ^ 52,
    { thirdAgg with slackCoefs := ⟨[⟨0, .fin (6755399441055743 / 2 ^ 106)⟩], false⟩, rhs := .fin 1 },
    by decide +kernel, by norm_num, rfl,
    (dyadic (m := 6004799503160661) (n := 52) (by norm_num) (by norm_num) (by norm_num)).1, by norm_num, ?_, ?_,
    by decide +kernel, fun _ _ => ⟨by norm_num, fun _ => ⟨1, by simp⟩⟩, fun _ _ => ⟨by norm_num, fun _ => ⟨1, by simp⟩⟩,
    by norm_num [eval, thirdAgg, Generator.finPart]⟩
  · intro e he
    simp only [thirdAgg, List.mem_singleton] at he
    subst he
    exact ⟨1, rfl, dyadic (m := 1) (n := 0) (by norm_num) (by norm_num) (by norm_num)⟩
  · intro e he
    simp only [thirdAgg, List.mem_singleton] at he
    subst he
    exact ⟨_, rfl, dyadic (m := 6004799503160661) (n := 54) (by norm_num) (by norm_num) (by norm_num)⟩

end Ieee
end MiniMip
