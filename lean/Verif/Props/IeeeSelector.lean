import Verif.Lemmas.IeeeSelector
import Mathlib.Data.List.Perm.Basic

/-!
# Property C99: the measures of a cut and the hybrid selector in floating-point arithmetic
-/

namespace MiniMip
namespace Ieee

/-! ## A square root with the properties that IEEE 754 demands -/

theorem exists_root {x : ℚ} (hx : IsDouble x) (h0 : 0 ≤ x) :
    ∃ z : ℚ, Rep z ∧ 0 ≤ z ∧ |(z : ℝ) - Real.sqrt x| ≤ 1 / 2 ^ 53 * Real.sqrt x := by
  rcases h0.eq_or_lt with rfl | hpos
  · exact ⟨0, ⟨0, 0, by norm_num, by norm_num, by norm_num⟩, le_rfl, by simp⟩
  have hxr : (0 : ℝ) < x := by exact_mod_cast hpos
  set y := Real.sqrt x with hy
  have hy0 : 0 < y := Real.sqrt_pos.2 hxr
  have hmin : (2 : ℝ) ^ (-1074 : ℤ) ≤ x := by
    obtain ⟨k, hk⟩ := hx.1.grid
    have h2 : (0 : ℚ) < 2 ^ (-1074 : ℤ) := zpow_pos (by norm_num) _
    have hk1 : (1 : ℤ) ≤ k := by
      have : (0 : ℚ) < k := by
        rw [hk] at hpos
        exact (mul_pos_iff_of_pos_right h2).1 hpos
      exact_mod_cast this
    have h3 : (2 : ℚ) ^ (-1074 : ℤ) ≤ x := by
      rw [hk]
      have : (1 : ℚ) ≤ k := by exact_mod_cast hk1
      calc (2 : ℚ) ^ (-1074 : ℤ) = 1 * 2 ^ (-1074 : ℤ) := (one_mul _).symm
        _ ≤ k * 2 ^ (-1074 : ℤ) := mul_le_mul_of_nonneg_right this h2.le
    have h4 : (((2 : ℚ) ^ (-1074 : ℤ) : ℚ) : ℝ) ≤ x := Rat.cast_le.2 h3
    rwa [Rat.cast_zpow, Rat.cast_ofNat] at h4
  have hylow : (2 : ℝ) ^ (-537 : ℤ) ≤ y := by
    refine Real.le_sqrt_of_sq_le ?_
    rw [← zpow_natCast, ← zpow_mul]
    exact hmin
  set e := Int.log 2 y with he
  have h1 : (2 : ℝ) ^ e ≤ y := by
    have := Int.zpow_log_le_self (b := 2) (by norm_num) hy0
    simpa using this
  have h2 : y < (2 : ℝ) ^ (e + 1) := by
    have := Int.lt_zpow_succ_log_self (b := 2) (by norm_num) y
    simpa using this
  have hel : -537 ≤ e := by
    by_contra hlt
    have : (2 : ℝ) ^ (e + 1) ≤ 2 ^ (-537 : ℤ) := zpow_le_zpow_right₀ (by norm_num) (by omega)
    linarith
  set g : ℝ := 2 ^ (e - 52) with hg
  have hg0 : 0 < g := zpow_pos (by norm_num) _
  have hgy : g * 2 ^ 52 = 2 ^ e := by
    rw [hg, ← zpow_natCast, ← zpow_add₀ (by norm_num)]
    congr 1
    norm_num
  have hgy2 : (2 : ℝ) ^ (e + 1) = g * 2 ^ 53 := by
    rw [zpow_add₀ (by norm_num), ← hgy]
    ring
  set k : ℤ := _root_.round (y / g) with hk
  have hkd : |(k : ℝ) * g - y| ≤ g / 2 := by
    have h3 : |y / g - k| ≤ 1 / 2 := abs_sub_round _
    have h4 : (k : ℝ) * g - y = -((y / g - k) * g) := by field_simp; ring
    rw [h4, abs_neg, abs_mul, abs_of_pos hg0]
    nlinarith
  have hk53 : (k : ℝ) ≤ 2 ^ 53 := by
    have h3 : (k : ℝ) * g < (2 ^ 53 + 1) * g := by
      have := (abs_le.1 hkd).2
      linarith
    have h4 : (k : ℝ) < 2 ^ 53 + 1 := lt_of_mul_lt_mul_right h3 hg0.le
    have h5 : k < 2 ^ 53 + 1 := by exact_mod_cast h4
    have h6 : k ≤ 2 ^ 53 := by omega
    exact_mod_cast h6
  have hk0 : (0 : ℤ) ≤ k := by
    have h3 : (-1 : ℝ) * g < (k : ℝ) * g := by
      have := (abs_le.1 hkd).1
      linarith
    have h4 : (-1 : ℝ) < k := lt_of_mul_lt_mul_right h3 hg0.le
    have h5 : -1 < k := by exact_mod_cast h4
    omega
  have hcast : (((k : ℚ) * 2 ^ (e - 52) : ℚ) : ℝ) = k * g := by
    rw [Rat.cast_mul, Rat.cast_zpow, Rat.cast_ofNat, Rat.cast_intCast]
  have hz0 : (0 : ℚ) ≤ (k : ℚ) * 2 ^ (e - 52) :=
    mul_nonneg (by exact_mod_cast hk0) (zpow_pos (by norm_num) _).le
  refine ⟨k * 2 ^ (e - 52), rep_of_grid (by omega) ?_, hz0, ?_⟩
  · rw [abs_of_nonneg hz0, zpow_add₀ (by norm_num)]
    refine mul_le_mul_of_nonneg_right ?_ (zpow_pos (by norm_num) _).le
    have : k ≤ 2 ^ 53 := by exact_mod_cast hk53
    exact_mod_cast this
  · rw [hcast]
    refine hkd.trans ?_
    have : g = 1 / 2 ^ 52 * 2 ^ e := by rw [← hgy]; ring
    rw [this]
    linarith

open Classical in
/-- A square root with the properties that IEEE 754 demands. -/
noncomputable def exSqrt : SqrtCode where
  root x :=
    if h : ∃ y, Rep y ∧ 0 ≤ y ∧ x = y * y then h.choose
    else if h : IsDouble x ∧ 0 ≤ x then (exists_root h.1 h.2).choose else 0
  rep x := by
    split
    · rename_i h; exact h.choose_spec.1
    · split
      · rename_i h; exact (exists_root h.1 h.2).choose_spec.1
      · exact ⟨0, 0, by norm_num, by norm_num, by norm_num⟩
  nonneg x := by
    split
    · rename_i h; exact h.choose_spec.2.1
    · split
      · rename_i h; exact (exists_root h.1 h.2).choose_spec.2.1
      · exact le_rfl
  error x hx h0 := by
    split
    · rename_i h
      obtain ⟨h1, h2, h3⟩ := h.choose_spec
      have h2' : (0 : ℝ) ≤ h.choose := by exact_mod_cast h2
      have h4 : Real.sqrt x = h.choose := by
        have : (x : ℝ) = (h.choose : ℝ) * h.choose := by exact_mod_cast h3
        rw [this]
        exact Real.sqrt_mul_self h2'
      rw [h4, sub_self, abs_zero]
      exact mul_nonneg (by norm_num) h2'
    · rw [dif_pos ⟨hx, h0⟩]
      exact (exists_root hx h0).choose_spec.2.2
  exact y hy h0 := by
    have h : ∃ z, Rep z ∧ 0 ≤ z ∧ y * y = z * z := ⟨y, hy, h0, rfl⟩
    rw [dif_pos h]
    exact ((mul_self_inj h0 h.choose_spec.2.1).1 h.choose_spec.2.2).symm

/-! ## The measures -/

/-- **C99**, measures: `CreateCut` in doubles.  For a row and an objective whose lengths are not extreme the efficacy is
the violation divided by the length of the row, up to the rounding of the terms of the violation, and the parallelism is
the cosine of the angle to the objective, up to `5κ` with `κ = (2n + 5) / 2⁵³`.  Everything else is recorded exactly. -/
theorem C99_measures {n : ℕ} (hn : n ≤ 2 ^ 30) (s : SqrtCode) {objective row x : Vec} (isInteger : Int → Bool) {b : ℚ}
    (name : String) (forced : Bool) (ho : MidRow n objective) (hr : MidRow n row) (hx : IsRow n x) (hb : Rep b)
    (hM : termSum n row x b ≤ 2 ^ 700) :
    let c := createCut s objective isInteger x row (.fin b) name forced
    c.row = row ∧ c.rhs = .fin b ∧ c.name = name ∧ c.forced = forced ∧ c.index = none ∧ c.score = none ∧
      c.numNonZeros = row.entries.length ∧ c.numIntegers = (row.entries.filter fun e => isInteger e.index).length ∧
      (∃ e, c.efficacy = .fin e ∧
        |(e : ℝ) - (dot n row x - b) / norm n row| ≤ 3 * kappa n * (termSum n row x b / norm n row) + 1 / 2 ^ 800) ∧
      ∃ q, c.objectiveParallelism = .fin q ∧
        |(q : ℝ) - |(dot n row objective : ℝ)| / (norm n row * norm n objective)| ≤ 5 * kappa n := by
  obtain ⟨e, e1, -, e2⟩ := efficacy_spec hn s hr hx hb hM
  obtain ⟨q, q1, -, q2⟩ := parallelism_spec hn s hr ho
  exact ⟨rfl, rfl, rfl, rfl, rfl, rfl, rfl, rfl, ⟨e, e1, e2⟩, q, q1, q2⟩

namespace Selector

/-! ## The score -/

theorem mul_term {w m : ℚ} (hS : |max w 0 * m| ≤ 2 ^ 900) :
    ∃ p, (if Dbl.lt (.fin 0) (.fin w) then mul (.fin w) (.fin m) else .fin 0) = .fin p ∧ Rep p ∧
      |p - max w 0 * m| ≤ u * |max w 0 * m| + eta := by
  have heta : 0 ≤ eta := by unfold eta; exact one_div_nonneg.2 (pow_nonneg zero_le_two _)
  by_cases hw : 0 < w
  · rw [if_pos (by simpa using hw)]
    rw [max_eq_left hw.le] at hS ⊢
    refine ⟨rnd (w * m), ?_, rep_rnd _, ?_⟩
    · show round (w * m) = _
      exact round_fin (hS.trans (pow_le_pow_right₀ (by norm_num) (by norm_num)))
    · exact (rnd_error _).trans (max_le (by linarith) (by linarith [mul_nonneg u_pos.le (abs_nonneg (w * m))]))
  · rw [if_neg (by simpa using hw), max_eq_right (not_lt.1 hw)]
    exact ⟨0, rfl, ⟨0, 0, by norm_num, by norm_num, by norm_num⟩, by simpa using heta⟩

theorem sum_three {a b c A B C : ℚ} (ha : Rep a) (hb : Rep b) (hc : Rep c) (h1 : |a - A| ≤ u * |A| + eta)
    (h2 : |b - B| ≤ u * |B| + eta) (h3 : |c - C| ≤ u * |C| + eta) (hS : |A| + |B| + |C| ≤ 2 ^ 900) :
    ∃ x, add (add (.fin a) (.fin b)) (.fin c) = .fin x ∧
      |x - (A + B + C)| ≤ 4 * u * (|A| + |B| + |C|) + 10 * eta := by
  have heta : 0 ≤ eta := by unfold eta; exact one_div_nonneg.2 (pow_nonneg zero_le_two _)
  have hE : eta ≤ 1 := by
    unfold eta
    rw [div_le_one (by positivity)]
    exact one_le_pow₀ (by norm_num)
  have hu := u_pos.le
  have hu1 : u ≤ 1 / 1000 := by unfold u; norm_num
  have hbig : 8 * ((2 : ℚ) ^ 900 + 1) ≤ 2 ^ 1000 := by
    calc 8 * ((2 : ℚ) ^ 900 + 1) ≤ 8 * (2 ^ 900 + 2 ^ 900) :=
          mul_le_mul_of_nonneg_left (add_le_add_right (one_le_pow₀ (by norm_num)) _) (by norm_num)
      _ = 2 ^ 904 := by rw [show (904 : ℕ) = 900 + 4 from rfl, pow_add]; ring
      _ ≤ 2 ^ 1000 := pow_le_pow_right₀ (by norm_num) (by norm_num)
  have tri : ∀ p q : ℚ, |p| ≤ |p - q| + |q| := fun p q => by
    have := abs_add_le (p - q) q
    rwa [sub_add_cancel] at this
  have hab0 := abs_add_le A B
  have e1 := rnd_add_error ha hb
  have e2 := rnd_add_error (rep_rnd (a + b)) hc
  have a1 := tri a A
  have b1 := tri b B
  have c1 := tri c C
  have ab : |a + b| ≤ |a| + |b| := abs_add_le a b
  have r1 := tri (rnd (a + b)) (a + b)
  have rc : |rnd (a + b) + c| ≤ |rnd (a + b)| + |c| := abs_add_le _ _
  have uA : u * |A| ≤ 1 / 1000 * |A| := mul_le_mul_of_nonneg_right hu1 (abs_nonneg _)
  have uB : u * |B| ≤ 1 / 1000 * |B| := mul_le_mul_of_nonneg_right hu1 (abs_nonneg _)
  have uC : u * |C| ≤ 1 / 1000 * |C| := mul_le_mul_of_nonneg_right hu1 (abs_nonneg _)
  have hab : |a + b| ≤ 1001 / 1000 * (|A| + |B|) + 2 * eta := by linarith
  have uab : u * |a + b| ≤ 1 / 1000 * |a + b| := mul_le_mul_of_nonneg_right hu1 (abs_nonneg _)
  have hrc : |rnd (a + b) + c| ≤ 1003 / 1000 * (|A| + |B| + |C|) + 4 * eta := by
    have := abs_nonneg A; have := abs_nonneg B; have := abs_nonneg C
    linarith
  have s1 : |a + b| ≤ 2 ^ 1000 := by
    refine le_trans ?_ hbig
    have := abs_nonneg A; have := abs_nonneg B; have := abs_nonneg C
    generalize (2 : ℚ) ^ 900 = P at *
    linarith
  have s2 : |rnd (a + b) + c| ≤ 2 ^ 1000 := by
    refine le_trans ?_ hbig
    have := abs_nonneg A; have := abs_nonneg B; have := abs_nonneg C
    generalize (2 : ℚ) ^ 900 = P at *
    linarith
  refine ⟨rnd (rnd (a + b) + c), ?_, ?_⟩
  · have i1 : add (.fin a) (.fin b) = .fin (rnd (a + b)) := round_fin s1
    rw [i1]
    exact round_fin s2
  · have m1 := mul_le_mul_of_nonneg_left hab hu
    have m2 := mul_le_mul_of_nonneg_left hrc hu
    have t : |rnd (rnd (a + b) + c) - (A + B + C)| ≤
        |rnd (rnd (a + b) + c) - (rnd (a + b) + c)| + |rnd (a + b) - (a + b)| + (|a - A| + |b - B| + |c - C|) := by
      have t1 := abs_add_three (a - A) (b - B) (c - C)
      have t2 := abs_add_three (rnd (rnd (a + b) + c) - (rnd (a + b) + c)) (rnd (a + b) - (a + b))
        ((a - A) + (b - B) + (c - C))
      refine le_trans (le_of_eq (congrArg _ ?_)) (t2.trans (add_le_add_right t1 _))
      ring
    have uE : u * eta ≤ 1 / 1000 * eta := mul_le_mul_of_nonneg_right hu1 heta
    have pA := mul_nonneg hu (abs_nonneg A)
    have pB := mul_nonneg hu (abs_nonneg B)
    have pC := mul_nonneg hu (abs_nonneg C)
    generalize eta = E at *
    linarith

/-- **C99**, score: `ComputeCutScore` in doubles.  The score is the weighted sum of efficacy, integer support and
parallelism, where weights that are not positive count as zero, up to four roundings. -/
theorem C99_score (p : Params) (c : CutF) {w₁ w₂ w₃ e q : ℚ} (h₁ : p.efficacyWeight = .fin w₁)
    (h₂ : p.integerSupportWeight = .fin w₂) (h₃ : p.objectiveParallelismWeight = .fin w₃)
    (he : c.efficacy = .fin e) (hq : c.objectiveParallelism = .fin q) (hn : c.numNonZeros ≠ 0)
    (hS : |max w₁ 0 * e| + |max w₂ 0 * (c.numIntegers.tdiv c.numNonZeros : Int)| + |max w₃ 0 * q| ≤ 2 ^ 900) :
    ∃ x, computeCutScore p c = .ok (.fin x) ∧
      |x - (max w₁ 0 * e + max w₂ 0 * (c.numIntegers.tdiv c.numNonZeros : Int) + max w₃ 0 * q)| ≤
        1 / 2 ^ 51 * (|max w₁ 0 * e| + |max w₂ 0 * (c.numIntegers.tdiv c.numNonZeros : Int)| + |max w₃ 0 * q|) +
          1 / 2 ^ 1000 := by
  have n1 := abs_nonneg (max w₁ 0 * e)
  have n2 := abs_nonneg (max w₂ 0 * ((c.numIntegers.tdiv c.numNonZeros : Int) : ℚ))
  have n3 := abs_nonneg (max w₃ 0 * q)
  obtain ⟨a, a1, a2, a3⟩ := mul_term (w := w₁) (m := e) (le_trans (by linarith) hS)
  obtain ⟨b, b1, b2, b3⟩ := mul_term (w := w₂) (m := ((c.numIntegers.tdiv c.numNonZeros : Int) : ℚ)) (le_trans (by linarith) hS)
  obtain ⟨d, d1, d2, d3⟩ := mul_term (w := w₃) (m := q) (le_trans (by linarith) hS)
  obtain ⟨x, x1, x2⟩ := sum_three a2 b2 d2 a3 b3 d3 hS
  refine ⟨x, ?_, x2.trans ?_⟩
  · unfold computeCutScore
    simp only [h₁, h₂, h₃, he, hq, if_neg hn, a1, d1]
    by_cases hw : Dbl.lt (.fin 0) (.fin w₂) = true
    · rw [if_pos hw] at b1
      rw [if_pos hw, b1, x1]
    · rw [if_neg hw] at b1
      rw [if_neg hw, b1, x1]
  · have h4 : 4 * u = 1 / 2 ^ 51 := by unfold u; norm_num
    rw [h4]
    refine add_le_add_right ?_ _
    have : 10 * eta ≤ 2 ^ 4 * eta := mul_le_mul_of_nonneg_right (by norm_num)
      (by unfold eta; exact one_div_nonneg.2 (pow_nonneg zero_le_two _))
    exact this.trans ((two_pow_eta (by norm_num)).trans (one_div_le_one_div_of_le (by positivity)
      (pow_le_pow_right₀ (by norm_num) (by norm_num))))

/-! ## The selection -/

theorem StrictWeak.sub {l m : List CutF} (h : StrictWeak l) (hm : ∀ c ∈ m, c ∈ l) : StrictWeak m := by
  rcases h with h | h
  · exact Or.inl fun c hc => h c (hm c hc)
  · exact Or.inr fun a ha b hb => h a (hm a ha) b (hm b hb)

theorem lt_self (a : Dbl) : Dbl.lt a a = false := by cases a <;> simp [Dbl.lt]

/-- Everything about the selection loop. -/
theorem selectLoop_spec (s : SqrtCode) (t : Sorter) (p : Params) (cuts sel : List CutF) (hw : StrictWeak cuts) :
    ∃ out rest, selectLoop s t p cuts sel = .ok (sel ++ out) ∧ (out ++ rest).Perm cuts ∧
      out.Pairwise (fun a b => Dbl.lt (scoreOf a) (scoreOf b) = false) ∧
      (∀ c ∈ out, Dbl.lt (scoreOf c) p.scoreThreshold = false) ∧
      out.Pairwise (fun a b => twoCutsAreOrthogonal s p a b = false) ∧
      (∀ c ∈ rest, (∃ a ∈ out, Dbl.lt (scoreOf a) (scoreOf c) = false ∧ twoCutsAreOrthogonal s p a c = true) ∨
        ((∀ a ∈ out, Dbl.lt (scoreOf a) (scoreOf c) = false) ∧
          ((∃ d ∈ cuts, Dbl.lt (scoreOf d) p.scoreThreshold = true ∧ Dbl.lt (scoreOf d) (scoreOf c) = false) ∨
            (out ≠ [] ∧ ((sel ++ out).length : Int) = p.maxNumCuts)))) ∧
      ((sel.length : Int) < p.maxNumCuts → ((sel ++ out).length : Int) ≤ p.maxNumCuts) := by
  induction hn : cuts.length using Nat.strong_induction_on generalizing cuts sel with
  | _ n ih =>
  subst hn
  have hperm := t.perm cuts
  have hs := t.sorted cuts hw
  rw [selectLoop, if_pos hw]
  split
  · rename_i h
    rw [h] at hperm
    have hnil : cuts = [] := List.Perm.eq_nil hperm.symm
    subst hnil
    exact ⟨[], [], by simp, by simp, by simp, by simp, by simp, by simp, by simp; omega⟩
  · rename_i c rest h
    rw [h] at hperm
    rw [h, List.pairwise_cons] at hs
    split
    · rename_i hthr
      refine ⟨[], cuts, by simp, by simp, by simp, by simp, by simp, ?_, by simp; omega⟩
      intro d hd
      right
      refine ⟨by simp, Or.inl ⟨c, hperm.mem_iff.1 (by simp), hthr, ?_⟩⟩
      rcases List.mem_cons.1 (hperm.mem_iff.2 hd) with rfl | hd'
      · exact lt_self _
      · exact hs.1 d hd'
    · rename_i hthr
      rw [Bool.not_eq_true] at hthr
      split
      · rename_i hmax
        refine ⟨[c], rest, rfl, by simpa using hperm, by simp, ?_, by simp, ?_, fun _ => le_of_eq hmax⟩
        · intro d hd; simp only [List.mem_singleton] at hd; subst hd; exact hthr
        · intro d hd
          right
          exact ⟨fun a ha => by simp only [List.mem_singleton] at ha; subst ha; exact hs.1 d hd,
            Or.inr ⟨by simp, hmax⟩⟩
      · rename_i hmax
        have hsub : ∀ d ∈ keep s p c rest, d ∈ cuts := fun d hd =>
          hperm.mem_iff.1 (by simp [(List.mem_filter.1 hd).1])
        have hlt : (keep s p c rest).length < cuts.length := by
          have h1 : (keep s p c rest).length ≤ rest.length := List.length_filter_le ..
          have h2 := hperm.length_eq
          simp only [List.length_cons] at h2
          omega
        obtain ⟨out, left, h1, h2, h3, h4, h5, h6, h7⟩ := ih _ hlt (keep s p c rest) (sel ++ [c]) (hw.sub hsub) rfl
        have hmem : ∀ d ∈ out, d ∈ rest ∧ twoCutsAreOrthogonal s p c d = false := by
          intro d hd
          have := h2.mem_iff.1 (List.mem_append_left left hd)
          rw [keep, List.mem_filter] at this
          exact ⟨this.1, by simpa using this.2⟩
        refine ⟨c :: out, left ++ rest.filter (fun d => twoCutsAreOrthogonal s p c d), ?_, ?_, ?_, ?_, ?_, ?_, ?_⟩
        · rw [h1]; simp
        · have hp2 : (rest.filter (fun d => !twoCutsAreOrthogonal s p c d) ++
              rest.filter (fun d => twoCutsAreOrthogonal s p c d)).Perm rest := by
            have := List.filter_append_perm (fun d => !twoCutsAreOrthogonal s p c d) rest
            simpa using this
          refine List.Perm.trans ?_ hperm
          rw [List.cons_append, ← List.append_assoc]
          exact ((h2.append_right _).trans hp2).cons c
        · rw [List.pairwise_cons]
          exact ⟨fun d hd => hs.1 d (hmem d hd).1, h3⟩
        · intro d hd
          rcases List.mem_cons.1 hd with rfl | hd
          · exact hthr
          · exact h4 d hd
        · rw [List.pairwise_cons]
          exact ⟨fun d hd => (hmem d hd).2, h5⟩
        · intro d hd
          rcases List.mem_append.1 hd with hd | hd
          · have hdr : d ∈ rest := by
              have := h2.mem_iff.1 (List.mem_append_right out hd)
              exact List.mem_of_mem_filter this
            rcases h6 d hd with ⟨a, ha, hn⟩ | ⟨hle, hor⟩
            · exact Or.inl ⟨a, by simp [ha], hn⟩
            · refine Or.inr ⟨fun a ha => ?_, ?_⟩
              · rcases List.mem_cons.1 ha with rfl | ha
                · exact hs.1 d hdr
                · exact hle a ha
              · rcases hor with ⟨q, hq, hq'⟩ | h
                · exact Or.inl ⟨q, hsub q hq, hq'⟩
                · exact Or.inr ⟨by simp, by simpa [add_assoc, add_comm] using h.2⟩
          · rw [List.mem_filter] at hd
            exact Or.inl ⟨c, by simp, hs.1 d hd.1, hd.2⟩
        · intro hlt
          have := h7 (by
            simp only [List.length_append, List.length_singleton] at hmax ⊢
            push_cast at hmax ⊢; omega)
          simpa using this

/-- The cosine of the angle between two rows that decides about the removal of the second. -/
noncomputable def angle (n : ℕ) (p : Params) (a b : CutF) : ℝ :=
  if p.signedOrthogonality then dot n a.row b.row / (norm n a.row * norm n b.row)
  else |dot n a.row b.row / (norm n a.row * norm n b.row)|

/-- The removal test in doubles decides correctly except in a band of width `12κ`. -/
theorem orthogonal_spec {n : ℕ} (hn : n ≤ 2 ^ 30) (s : SqrtCode) (p : Params) {m : ℚ}
    (hp : p.minimumOrthogonality = .fin m) (hm : Rep m) (h0 : 0 ≤ m) (h1 : m ≤ 1) {a b : CutF} (ha : MidRow n a.row)
    (hb : MidRow n b.row) :
    (twoCutsAreOrthogonal s p a b = true → b.forced = false ∧ 1 - m - 6 * kappa n < angle n p a b) ∧
    (twoCutsAreOrthogonal s p a b = false → b.forced = false → angle n p a b ≤ 1 - m + 6 * kappa n) := by
  obtain ⟨q, q1, -, q2⟩ := cosAngle_spec hn s ha hb
  have hk := kappa_bounds hn
  have hsub : sub (.fin 1) (.fin m) = .fin (rnd (1 - m)) := by
    have : |1 - m| ≤ 2 ^ 1000 := by
      rw [abs_of_nonneg (by linarith)]
      have : (1 : ℚ) ≤ 2 ^ 1000 := one_le_pow₀ (by norm_num)
      exact le_trans (by linarith) this
    rw [← round_fin this, sub_eq_add_neg]
    rfl
  have hr : |(rnd (1 - m) : ℝ) - (1 - m)| ≤ 1 / 2 ^ 53 := by
    have e := rnd_add_error (rep_int (n := 1) (by norm_num)) hm.neg
    rw [Int.cast_one, ← sub_eq_add_neg, abs_of_nonneg (by linarith : (0 : ℚ) ≤ 1 - m)] at e
    have e2 : |rnd (1 - m) - (1 - m)| ≤ u := e.trans (by nlinarith [u_pos])
    have e3 : ((|rnd (1 - m) - (1 - m)| : ℚ) : ℝ) ≤ ((u : ℚ) : ℝ) := Rat.cast_le.2 e2
    rw [Rat.cast_abs] at e3
    unfold u at e3
    push_cast at e3
    exact e3
  have hu : (1 : ℝ) / 2 ^ 53 < kappa n := lt_of_lt_of_le (by norm_num) hk.1
  have hr' := abs_le.1 hr
  cases hf : b.forced
  · by_cases hsg : p.signedOrthogonality = true
    · have hval : twoCutsAreOrthogonal s p a b = Dbl.lt (.fin (rnd (1 - m))) (.fin q) := by
        simp only [twoCutsAreOrthogonal, hf, Bool.false_eq_true, if_false, hsg, if_true, hp, hsub, q1]
      have hang : angle n p a b = dot n a.row b.row / (norm n a.row * norm n b.row) := if_pos hsg
      have q2' := abs_le.1 q2
      rw [hval, hang]
      constructor
      · intro h
        rw [Dbl.lt_fin] at h
        have h' : (rnd (1 - m) : ℝ) < q := by exact_mod_cast h
        exact ⟨rfl, by linarith⟩
      · intro h _
        have h2 : ¬ rnd (1 - m) < q := by
          rw [← Dbl.lt_fin, h]; simp
        have h' : (q : ℝ) ≤ rnd (1 - m) := by exact_mod_cast not_lt.1 h2
        linarith
    · have hval : twoCutsAreOrthogonal s p a b = Dbl.lt (.fin (rnd (1 - m))) (.fin |q|) := by
        simp only [twoCutsAreOrthogonal, hf, Bool.false_eq_true, if_false, hsg, hp, hsub, q1]
        rfl
      have hang : angle n p a b = |dot n a.row b.row / (norm n a.row * norm n b.row)| := if_neg hsg
      have q3 : |(|(q : ℝ)|) - (|dot n a.row b.row / (norm n a.row * norm n b.row)|)| ≤ 5 * kappa n :=
        (abs_abs_sub_abs_le_abs_sub _ _).trans q2
      have q2' := abs_le.1 q3
      rw [hval, hang]
      constructor
      · intro h
        rw [Dbl.lt_fin] at h
        have h' : (rnd (1 - m) : ℝ) < |(q : ℝ)| := by exact_mod_cast h
        exact ⟨rfl, by linarith⟩
      · intro h _
        have h2 : ¬ rnd (1 - m) < |q| := by
          rw [← Dbl.lt_fin, h]; simp
        have h' : |(q : ℝ)| ≤ rnd (1 - m) := by exact_mod_cast not_lt.1 h2
        linarith
  · refine ⟨fun h => ?_, fun _ h => by simp at h⟩
    simp [twoCutsAreOrthogonal, hf] at h

/-- The same cut, with its score. -/
def WithScore (p : Params) (c d : CutF) : Prop := ∃ x, computeCutScore p c = .ok x ∧ d = { c with score := some x }

theorem scoreAll_spec {p : Params} {l : List CutF} (h : ∀ c ∈ l, ∃ x, computeCutScore p c = .ok (.fin x)) :
    ∃ m, scoreAll p l = .ok m ∧ List.Forall₂ (WithScore p) l m ∧ ∀ d ∈ m, ∃ x, scoreOf d = .fin x := by
  induction l with
  | nil => exact ⟨[], rfl, .nil, by simp⟩
  | cons c r ih =>
    obtain ⟨m, h1, h2, h3⟩ := ih fun d hd => h d (List.mem_cons_of_mem _ hd)
    obtain ⟨x, hx⟩ := h c (List.mem_cons_self ..)
    refine ⟨{ c with score := some (.fin x) } :: m, ?_, .cons ⟨_, hx, rfl⟩ h2, ?_⟩
    · simp [scoreAll, hx, h1]
    · intro d hd
      rcases List.mem_cons.1 hd with rfl | hd
      · exact ⟨x, rfl⟩
      · exact h3 d hd

theorem WithScore.rows {p : Params} {l m : List CutF} (h : List.Forall₂ (WithScore p) l m) {Q : Vec → Prop}
    (hl : ∀ c ∈ l, Q c.row) : ∀ d ∈ m, Q d.row := by
  induction h with
  | nil => simp
  | cons h1 h2 ih =>
    intro d hd
    rcases List.mem_cons.1 hd with rfl | hd
    · obtain ⟨x, -, h⟩ := h1
      rw [h]
      have := hl _ (List.mem_cons_self ..)
      exact this
    · exact ih (fun c hc => hl c (List.mem_cons_of_mem _ hc)) d hd

/-- **C99**, selection, proved part: `SelectCuttingPlanes` in doubles, for rows whose lengths are not extreme and finite
scores (see `C99_measures` and `C99_score`).  Whatever `std::sort` does with equal scores, the selection succeeds; the
result together with the cuts left out is a permutation of the scored candidates; the scores do not increase; each is at
least the threshold; no later unforced cut is more parallel to an earlier one than allowed, up to `6κ`; a positive limit
is respected; and nothing is left out without a reason: a cut left out is unforced and, up to `6κ`, too parallel to a
selected cut with at least its score, or it scores no better than any selected cut and is below the threshold or the
limit has been reached.  Missing (and false, see `C99_tiny_violated` and `C99_huge_violated`): extreme rows. -/
theorem C99_selection_partial {n : ℕ} (hn : n ≤ 2 ^ 30) (s : SqrtCode) (t : Sorter) (p : Params) {m thr : ℚ}
    (hp : p.minimumOrthogonality = .fin m) (hm : Rep m) (h0 : 0 ≤ m) (h1 : m ≤ 1) (ht : p.scoreThreshold = .fin thr)
    (cuts : List CutF) (hrow : ∀ c ∈ cuts, MidRow n c.row) (hfin : ∀ c ∈ cuts, ∃ x, computeCutScore p c = .ok (.fin x)) :
    ∃ out scored rest, selectCuttingPlanes s t p cuts = .ok out ∧ List.Forall₂ (WithScore p) cuts scored ∧
      (out ++ rest).Perm scored ∧
      out.Pairwise (fun a b => Dbl.le (scoreOf b) (scoreOf a)) ∧
      (∀ c ∈ out, Dbl.le (.fin thr) (scoreOf c)) ∧
      out.Pairwise (fun a b => b.forced = false → angle n p a b ≤ 1 - m + 6 * kappa n) ∧
      (0 < p.maxNumCuts → (out.length : Int) ≤ p.maxNumCuts) ∧
      ∀ c ∈ rest,
        (c.forced = false ∧ ∃ a ∈ out, Dbl.le (scoreOf c) (scoreOf a) ∧ 1 - m - 6 * kappa n < angle n p a c) ∨
        ((∀ a ∈ out, Dbl.le (scoreOf c) (scoreOf a)) ∧
          (Dbl.lt (scoreOf c) (.fin thr) ∨ (out ≠ [] ∧ (out.length : Int) = p.maxNumCuts))) := by
  obtain ⟨scored, g1, g2, g3⟩ := scoreAll_spec hfin
  have hr := WithScore.rows g2 hrow
  obtain ⟨out, rest, o1, o2, o3, o4, o5, o6, o7⟩ := selectLoop_spec s t p scored []
    (Or.inl fun c hc => by obtain ⟨x, hx⟩ := g3 c hc; rw [hx]; simp)
  simp only [List.nil_append] at o1 o6 o7
  have ho : ∀ c ∈ out, c ∈ scored := fun c hc => o2.mem_iff.1 (List.mem_append_left _ hc)
  have hl : ∀ c ∈ rest, c ∈ scored := fun c hc => o2.mem_iff.1 (List.mem_append_right _ hc)
  have conv : ∀ a ∈ scored, ∀ b ∈ scored, Dbl.lt (scoreOf a) (scoreOf b) = false → Dbl.le (scoreOf b) (scoreOf a) = true := by
    intro a ha b hb h
    obtain ⟨x, hx⟩ := g3 a ha
    obtain ⟨y, hy⟩ := g3 b hb
    rw [hx, hy] at h ⊢
    simpa [Dbl.lt, Dbl.le] using h
  refine ⟨out, scored, rest, by simp [selectCuttingPlanes, g1, o1], g2, o2, ?_, ?_, ?_, ?_, ?_⟩
  · exact o3.imp_of_mem fun ha hb h => conv _ (ho _ ha) _ (ho _ hb) h
  · intro c hc
    have := o4 c hc
    obtain ⟨x, hx⟩ := g3 c (ho c hc)
    rw [hx, ht] at this
    rw [hx]
    simpa [Dbl.lt, Dbl.le] using this
  · exact o5.imp_of_mem fun ha hb h => (orthogonal_spec hn s p hp hm h0 h1 (hr _ (ho _ ha)) (hr _ (ho _ hb))).2 h
  · intro hlim
    exact o7 (by simpa using hlim)
  · intro c hc
    rcases o6 c hc with ⟨a, ha, h3, h4⟩ | ⟨h3, h4⟩
    · obtain ⟨k1, k2⟩ := (orthogonal_spec hn s p hp hm h0 h1 (hr _ (ho _ ha)) (hr _ (hl _ hc))).1 h4
      exact Or.inl ⟨k1, a, ha, conv _ (ho _ ha) _ (hl _ hc) h3, k2⟩
    · refine Or.inr ⟨fun a ha => conv _ (ho _ ha) _ (hl _ hc) (h3 a ha), ?_⟩
      rcases h4 with ⟨d, hd, h5, h6⟩ | h4
      · left
        obtain ⟨x, hx⟩ := g3 d hd
        obtain ⟨y, hy⟩ := g3 c (hl c hc)
        rw [hx, ht, Dbl.lt_fin] at h5
        rw [hx, hy] at h6
        have h6' : ¬ x < y := by rw [← Dbl.lt_fin, h6]; simp
        rw [hy, Dbl.lt_fin]
        linarith
      · exact Or.inr h4

/-! ## Extreme rows -/

/-- The row `v x_j`. -/
def single (j : Int) (v : ℚ) : Vec := ⟨[⟨j, .fin v⟩], false⟩

theorem single_dot (j k : Int) (v w : ℚ) : (single j v).dotProduct .ieee (single k w) =
    if j = k then add (.fin 0) (mul (.fin v) (.fin w)) else .fin 0 := by
  unfold AVector.dotProduct
  rw [AVector.dotWalk_eq _ _ _ _ (by simp [single, AVector.StrictSorted]) (by simp [single, AVector.StrictSorted])]
  by_cases h : j = k
  · subst h
    simp [single, AVector.matched, AVector.lookup, Arith.ieee]
  · simp [single, AVector.matched, AVector.lookup, h, Ne.symm h, Arith.ieee]

/-- The point whose first two coordinates are 1. -/
def ones : Vec := ⟨[⟨0, .fin 1⟩, ⟨1, .fin 1⟩], false⟩

theorem single_ones {j : Int} (hj : j = 0 ∨ j = 1) (v : ℚ) : (single j v).dotProduct .ieee ones =
    add (.fin 0) (mul (.fin v) (.fin 1)) := by
  unfold AVector.dotProduct
  rw [AVector.dotWalk_eq _ _ _ _ (by simp [single, AVector.StrictSorted]) (by simp [ones, AVector.StrictSorted])]
  rcases hj with rfl | rfl <;> simp [single, ones, AVector.matched, AVector.lookup, Arith.ieee]

theorem root_zero (s : SqrtCode) : s.root 0 = 0 := by
  have := s.exact 0 ⟨0, 0, by norm_num, by norm_num, by norm_num⟩ le_rfl
  simpa using this

theorem root_one (s : SqrtCode) : s.root 1 = 1 := by
  have := s.exact 1 ⟨1, 0, by norm_num, by norm_num, by norm_num⟩ (by norm_num)
  simpa using this

/-- The cut `v x_j ≤ b`, made at the point (1, 1) for the objective `x₀`; no variable is integer. -/
def cut (s : SqrtCode) (j : Int) (v b : ℚ) : CutF :=
  createCut s (single 0 1) (fun _ => false) ones (single j v) (.fin b) "cut" false

theorem cut_score (s : SqrtCode) (j : Int) (v b : ℚ) :
    computeCutScore {} (cut s j v b) =
      .ok (add (add (mul (.fin 1) (cut s j v b).efficacy) (.fin 0))
        (mul (round (1 / 10)) (cut s j v b).objectiveParallelism)) := by
  have h1 : Dbl.lt (.fin 0) (round (1 / 10)) = true := by decide +kernel
  have h2 : Dbl.lt (.fin 0) (.fin 1) = true := by decide +kernel
  have h3 : (cut s j v b).numIntegers = 0 := rfl
  have h4 : (cut s j v b).numNonZeros = 1 := rfl
  have h5 : mul (round (1 / 10)) (.fin ((0 : Int).tdiv 1 : Int)) = .fin 0 := by decide +kernel
  simp only [computeCutScore, h1, h2, h3, h4, if_true, one_ne_zero, if_false, h5]

/-- The cut `x₀ ≤ b`. -/
theorem unit_cut (s : SqrtCode) (b : ℚ) : (cut s 0 1 b).efficacy = div (sub (.fin 1) (.fin b)) (.fin 1) ∧
    (cut s 0 1 b).objectiveParallelism = .fin 1 := by
  have a1 : add (.fin 0) (mul (.fin 1) (.fin 1)) = .fin 1 := by decide +kernel
  have a2 : mul (.fin 1) (.fin 1) = .fin 1 := by decide +kernel
  have a3 : s.sqrt (.fin 1) = .fin 1 := by
    show (if (1 : ℚ) < 0 then Dbl.nan else .fin (s.root 1)) = _
    rw [root_one, if_neg (by norm_num)]
  have a4 : div (abs (.fin 1)) (.fin 1) = .fin 1 := by decide +kernel
  constructor
  · show computeEfficacy s (single 0 1) (.fin b) ones = _
    unfold computeEfficacy
    rw [single_ones (Or.inl rfl), single_dot, if_pos rfl, a1, a3]
  · show parallelism s (single 0 1) (single 0 1) = _
    unfold parallelism
    rw [single_dot, if_pos rfl, a1, a2, a3, a4]

/-- The cut `2⁻⁶⁰⁰ x₁ ≤ 0`. -/
theorem tiny_cut (s : SqrtCode) : (cut s 1 (1 / 2 ^ 600) 0).efficacy = .pinf ∧
    (cut s 1 (1 / 2 ^ 600) 0).objectiveParallelism = .nan := by
  have a1 : add (.fin 0) (mul (.fin (1 / 2 ^ 600)) (.fin 1)) = .fin (1 / 2 ^ 600) := by decide +kernel
  have a2 : add (.fin 0) (mul (.fin (1 / 2 ^ 600)) (.fin (1 / 2 ^ 600))) = .fin 0 := by decide +kernel
  have a3 : s.sqrt (.fin 0) = .fin 0 := by
    show (if (0 : ℚ) < 0 then Dbl.nan else .fin (s.root 0)) = _
    rw [root_zero, if_neg (lt_irrefl _)]
  have a4 : sub (.fin (1 / 2 ^ 600)) (.fin 0) = .fin (1 / 2 ^ 600) := by decide +kernel
  have a5 : div (.fin (1 / 2 ^ 600)) (.fin 0) = .pinf := by decide +kernel
  have a6 : add (.fin 0) (mul (.fin 1) (.fin 1)) = .fin 1 := by decide +kernel
  have a7 : mul (.fin 0) (.fin 1) = .fin 0 := by decide +kernel
  have a8 : div (abs (.fin 0)) (.fin 0) = .nan := by decide +kernel
  constructor
  · show computeEfficacy s (single 1 _) (.fin 0) ones = _
    unfold computeEfficacy
    rw [single_ones (Or.inr rfl), single_dot, if_pos rfl, a1, a2, a3, a4, a5]
  · show parallelism s (single 1 _) (single 0 1) = _
    unfold parallelism
    rw [single_dot, single_dot, single_dot, if_pos rfl, if_pos rfl, if_neg (by norm_num), a2, a6, a7, a3, a8]

/-- Violated: "the selector has defined behaviour on cuts with finite, non-zero coefficients".  A row whose squared
length underflows and that is orthogonal to the objective has the parallelism `0 / 0`.  Its score is NaN, and next to
two cuts with different scores the comparison is no strict weak ordering: `std::sort` has undefined behaviour, with the
default parameters and whatever it does otherwise.  In exact arithmetic all three cuts have efficacy and parallelism. -/
theorem C99_tiny_violated (s : SqrtCode) (t : Sorter) :
    selectCuttingPlanes s t {} [cut s 0 1 0, cut s 0 1 (1 / 2), cut s 1 (1 / 2 ^ 600) 0] = .ub := by
  have s1 : computeCutScore {} (cut s 0 1 0) = .ok (add (.fin 1) (round (1 / 10))) := by
    rw [cut_score, (unit_cut s 0).1, (unit_cut s 0).2]
    exact congrArg _ (by decide +kernel)
  have s2 : computeCutScore {} (cut s 0 1 (1 / 2)) = .ok (add (.fin (1 / 2)) (round (1 / 10))) := by
    rw [cut_score, (unit_cut s _).1, (unit_cut s _).2]
    exact congrArg _ (by decide +kernel)
  have s3 : computeCutScore {} (cut s 1 (1 / 2 ^ 600) 0) = .ok .nan := by
    rw [cut_score, (tiny_cut s).1, (tiny_cut s).2]
    exact congrArg _ (by decide +kernel)
  have hs : scoreAll {} [cut s 0 1 0, cut s 0 1 (1 / 2), cut s 1 (1 / 2 ^ 600) 0] =
      .ok [{ cut s 0 1 0 with score := some (add (.fin 1) (round (1 / 10))) },
        { cut s 0 1 (1 / 2) with score := some (add (.fin (1 / 2)) (round (1 / 10))) },
        { cut s 1 (1 / 2 ^ 600) 0 with score := some .nan }] := by
    simp only [scoreAll, s1, s2, s3, Outcome.bind_ok, Outcome.pure_eq]
  unfold selectCuttingPlanes
  rw [hs]
  show selectLoop s t {} _ [] = .ub
  rw [selectLoop, if_neg]
  rintro (h | h)
  · exact h { cut s 1 (1 / 2 ^ 600) 0 with score := some .nan } (by simp) rfl
  · have h2 := h { cut s 0 1 (1 / 2) with score := some (add (.fin (1 / 2)) (round (1 / 10))) } (by simp)
      { cut s 0 1 0 with score := some (add (.fin 1) (round (1 / 10))) } (by simp)
    have h3 : Dbl.lt (add (.fin (1 / 2)) (round (1 / 10))) (add (.fin 1) (round (1 / 10))) = true := by decide +kernel
    change Dbl.lt (add (.fin (1 / 2)) (round (1 / 10))) (add (.fin 1) (round (1 / 10))) = false at h2
    rw [h3] at h2
    exact Bool.noConfusion h2

/-- The cut `2⁶⁰⁰ x₁ ≤ 0`. -/
theorem huge_cut (s : SqrtCode) : (cut s 1 (2 ^ 600) 0).efficacy = .fin 0 ∧
    (cut s 1 (2 ^ 600) 0).objectiveParallelism = .fin 0 := by
  have a1 : add (.fin 0) (mul (.fin (2 ^ 600)) (.fin 1)) = .fin (2 ^ 600) := by decide +kernel
  have a2 : add (.fin 0) (mul (.fin (2 ^ 600)) (.fin (2 ^ 600))) = .pinf := by decide +kernel
  have a4 : sub (.fin (2 ^ 600)) (.fin 0) = .fin (2 ^ 600) := by decide +kernel
  have a5 : div (.fin (2 ^ 600)) .pinf = .fin 0 := rfl
  have a6 : add (.fin 0) (mul (.fin 1) (.fin 1)) = .fin 1 := by decide +kernel
  have a7 : mul .pinf (.fin 1) = .pinf := by decide +kernel
  have a8 : div (abs (.fin 0)) .pinf = .fin 0 := rfl
  constructor
  · show computeEfficacy s (single 1 _) (.fin 0) ones = _
    unfold computeEfficacy
    rw [single_ones (Or.inr rfl), single_dot, if_pos rfl, a1, a2, a4]
    exact a5
  · show parallelism s (single 1 _) (single 0 1) = _
    unfold parallelism
    rw [single_dot, single_dot, single_dot, if_pos rfl, if_pos rfl, if_neg (by norm_num), a2, a6, a7]
    exact a8

/-- Violated: "a cut whose efficacy exceeds the threshold by far is selected if nothing is parallel to it".  The cut
`2⁶⁰⁰ x₁ ≤ 0` has efficacy 1 at the point (1, 1), but its squared length overflows, the computed efficacy is zero, and the
only candidate is dropped. -/
theorem C99_huge_violated (s : SqrtCode) (t : Sorter) :
    (dot 2 (single 1 (2 ^ 600)) ones - 0) / norm 2 (single 1 (2 ^ 600)) = 1 ∧
    selectCuttingPlanes s t {} [cut s 1 (2 ^ 600) 0] = .ok [] := by
  have v0 : val (single 1 (2 ^ 600)) 0 = 0 := by decide +kernel
  have v1 : val (single 1 (2 ^ 600)) 1 = 2 ^ 600 := by decide +kernel
  have o1 : val ones 1 = 1 := by decide +kernel
  constructor
  · have d : dot 2 (single 1 (2 ^ 600)) ones = 2 ^ 600 := by
      simp only [dot, Finset.sum_range_succ, Finset.sum_range_zero, Nat.cast_zero, Nat.cast_one, v0, v1, o1]
      ring
    have e : normSq 2 (single 1 (2 ^ 600)) = 2 ^ 600 * 2 ^ 600 := by
      simp only [normSq, Finset.sum_range_succ, Finset.sum_range_zero, Nat.cast_zero, Nat.cast_one, v0, v1]
      ring
    have h0 : (0 : ℝ) < 2 ^ 600 := by positivity
    unfold norm
    rw [d, e, Rat.cast_mul, Rat.cast_pow, Rat.cast_ofNat, Real.sqrt_mul_self h0.le, sub_zero, div_self h0.ne']
  · have s1 : computeCutScore {} (cut s 1 (2 ^ 600) 0) = .ok (.fin 0) := by
      rw [cut_score, (huge_cut s).1, (huge_cut s).2]
      exact congrArg _ (by decide +kernel)
    have hw : StrictWeak [{ cut s 1 (2 ^ 600) 0 with score := some (.fin 0) }] := Or.inl (by simp [scoreOf])
    have hs : t.sort [{ cut s 1 (2 ^ 600) 0 with score := some (.fin 0) }] =
        [{ cut s 1 (2 ^ 600) 0 with score := some (.fin 0) }] := List.perm_singleton.1 (t.perm _)
    have hl : Dbl.lt (.fin 0) (round (1 / 1000000)) = true := by decide +kernel
    have ha : scoreAll {} [cut s 1 (2 ^ 600) 0] = .ok [{ cut s 1 (2 ^ 600) 0 with score := some (.fin 0) }] := by
      simp only [scoreAll, s1, Outcome.bind_ok, Outcome.pure_eq]
    unfold selectCuttingPlanes
    rw [ha]
    show selectLoop s t {} _ [] = .ok []
    rw [selectLoop, if_pos hw]
    split
    · rfl
    · rename_i c rest h
      rw [hs] at h
      obtain ⟨rfl, rfl⟩ := List.cons.inj h
      exact if_pos hl

/-! ## Non-vacuity -/

/-- Insertion sort by descending score. -/
def insertDesc (c : CutF) : List CutF → List CutF
  | [] => [c]
  | d :: r => if Dbl.lt (scoreOf d) (scoreOf c) then c :: d :: r else d :: insertDesc c r

def sortDesc : List CutF → List CutF
  | [] => []
  | c :: r => insertDesc c (sortDesc r)

theorem insertDesc_perm (c : CutF) (l : List CutF) : (insertDesc c l).Perm (c :: l) := by
  induction l with
  | nil => simp [insertDesc]
  | cons d r ih =>
    rw [insertDesc]
    split
    · rfl
    · exact (ih.cons d).trans (List.Perm.swap ..)

theorem lt_trans' {a b c : Dbl} (h : Dbl.lt a b = true) (h' : Dbl.lt b c = true) : Dbl.lt a c = true := by
  cases a <;> cases b <;> cases c <;> simp_all [Dbl.lt]
  linarith

/-- A sorter. -/
def exSorter : Sorter where
  sort := sortDesc
  perm l := by
    induction l with
    | nil => rfl
    | cons c r ih => exact (insertDesc_perm c _).trans (ih.cons c)
  sorted l h := by
    clear h
    induction l with
    | nil => simp [sortDesc]
    | cons c r ih =>
      rw [sortDesc]
      generalize sortDesc r = m at ih
      induction m with
      | nil => simp [insertDesc]
      | cons d m ihm =>
        rw [List.pairwise_cons] at ih
        rw [insertDesc]
        split
        · rename_i hlt
          rw [List.pairwise_cons]
          refine ⟨fun e he => ?_, List.pairwise_cons.2 ih⟩
          rw [← Bool.not_eq_true]
          intro h
          rcases List.mem_cons.1 he with rfl | he
          · have := lt_trans' hlt h
            rw [lt_self] at this
            exact Bool.noConfusion this
          · have := lt_trans' hlt h
            rw [ih.1 e he] at this
            exact Bool.noConfusion this
        · rename_i hlt
          rw [List.pairwise_cons]
          refine ⟨fun e he => ?_, ihm ih.2⟩
          rcases List.mem_cons.1 ((insertDesc_perm c m).mem_iff.1 he) with rfl | he
          · simpa using hlt
          · exact ih.1 e he

theorem single_mid : MidRow 2 (single 0 1) := by
  have v0 : val (single 0 1) 0 = 1 := by decide +kernel
  have v1 : val (single 0 1) 1 = 0 := by decide +kernel
  have e : normSq 2 (single 0 1) = 1 := by
    simp only [normSq, Finset.sum_range_succ, Finset.sum_range_zero, Nat.cast_zero, Nat.cast_one, v0, v1]
    norm_num
  refine ⟨⟨by simp [single, AVector.StrictSorted], by simp [single], by simp [single], ?_⟩, ?_, ?_⟩
  · simp only [single, List.mem_singleton, forall_eq]
    exact ⟨1, rfl, ⟨1, 0, by norm_num, by norm_num, by norm_num⟩, le_maxFinite (by norm_num)⟩
  · rw [e, div_le_one (by positivity)]; exact one_le_pow₀ (by norm_num)
  · rw [e]; exact one_le_pow₀ (by norm_num)

/-- Non-vacuity of `C99_measures`, `C99_score` and `C99_selection_partial`: two parallel cuts with the default
parameters. -/
example : (∀ b, MidRow 2 (cut exSqrt 0 1 b).row) ∧
    (∀ c ∈ [cut exSqrt 0 1 0, cut exSqrt 0 1 (1 / 2)], ∃ x, computeCutScore {} c = .ok (.fin x)) ∧
    (∃ m, ({} : Params).minimumOrthogonality = .fin m ∧ Rep m ∧ 0 ≤ m ∧ m ≤ 1) ∧
    ∃ out, selectCuttingPlanes exSqrt exSorter {} [cut exSqrt 0 1 0, cut exSqrt 0 1 (1 / 2)] = .ok out := by
  have hm : ({} : Params).minimumOrthogonality = .fin (rnd (9 / 10)) :=
    round_fin (le_trans (by norm_num : |(9 / 10 : ℚ)| ≤ 1) (one_le_pow₀ (by norm_num)))
  have ht : ({} : Params).scoreThreshold = .fin (rnd (1 / 1000000)) :=
    round_fin (le_trans (by norm_num : |(1 / 1000000 : ℚ)| ≤ 1) (one_le_pow₀ (by norm_num)))
  have h0 : (0 : ℚ) ≤ rnd (9 / 10) := rnd_nonneg (by norm_num)
  have h1 : rnd (9 / 10) ≤ 1 := by decide +kernel
  have hr : ∀ b, MidRow 2 (cut exSqrt 0 1 b).row := fun b => single_mid
  have hf : ∀ c ∈ [cut exSqrt 0 1 0, cut exSqrt 0 1 (1 / 2)], ∃ x, computeCutScore {} c = .ok (.fin x) := by
    simp only [List.mem_cons, List.not_mem_nil, or_false, forall_eq_or_imp, forall_eq]
    constructor
    · rw [cut_score, (unit_cut _ _).1, (unit_cut _ _).2]
      exact ⟨_, congrArg _ (by decide +kernel : _ = Dbl.fin (rnd (1 + rnd (1 / 10))))⟩
    · rw [cut_score, (unit_cut _ _).1, (unit_cut _ _).2]
      exact ⟨_, congrArg _ (by decide +kernel : _ = Dbl.fin (rnd (1 / 2 + rnd (1 / 10))))⟩
  refine ⟨hr, hf, ⟨_, hm, rep_rnd _, h0, h1⟩, ?_⟩
  obtain ⟨out, -, -, h, -⟩ := C99_selection_partial (n := 2) (by norm_num) exSqrt exSorter {} hm (rep_rnd _) h0 h1 ht
    [cut exSqrt 0 1 0, cut exSqrt 0 1 (1 / 2)] (by
      simp only [List.mem_cons, List.not_mem_nil, or_false, forall_eq_or_imp, forall_eq]
      exact ⟨hr _, hr _⟩) hf
  exact ⟨out, h⟩

end Selector

/-- Non-vacuity of `C99_measures`: the cut `x₀ ≤ 1/2` at the point (1, 1). -/
example : MidRow 2 (Selector.single 0 1) ∧ IsRow 2 Selector.ones ∧ Rep (1 / 2) ∧
    termSum 2 (Selector.single 0 1) Selector.ones (1 / 2) ≤ 2 ^ 700 := by
  refine ⟨Selector.single_mid, ⟨by simp [Selector.ones, AVector.StrictSorted], by simp [Selector.ones],
    by simp [Selector.ones], ?_⟩, ⟨1, -1, by norm_num, by norm_num, by norm_num⟩, ?_⟩
  · simp only [Selector.ones, List.mem_cons, List.not_mem_nil, or_false, forall_eq_or_imp, forall_eq]
    have : ∃ q, Dbl.fin 1 = .fin q ∧ IsDouble q :=
      ⟨1, rfl, ⟨1, 0, by norm_num, by norm_num, by norm_num⟩, le_maxFinite (by norm_num)⟩
    exact ⟨this, this⟩
  · have e : termSum 2 (Selector.single 0 1) Selector.ones (1 / 2) ≤ 2 ^ 1 := by decide +kernel
    exact e.trans (pow_le_pow_right₀ (by norm_num) (by norm_num))

end Ieee
end MiniMip
