import Verif.Model.DebugIeeeCut
import Verif.Props.IeeeSelector

/-!
# Property C124: the assertions on a new cut in floating-point arithmetic
-/

namespace MiniMip
namespace Ieee

theorem isSortedStrict_of {l : List (AEntry Dbl)} (h : AVector.StrictSorted l) : AVector.isSortedStrict l = true := by
  induction l with
  | nil => rfl
  | cons e r ih =>
    cases r with
    | nil => rfl
    | cons f r =>
      have h' := List.pairwise_cons.1 h
      have h1 := h'.1 f (by simp)
      simp only [AVector.isSortedStrict, ih h'.2, Bool.and_true, Bool.not_eq_true', decide_eq_false_iff_not]
      omega

theorem IsRow.isClean {n : ℕ} {row : Vec} (h : IsRow n row) (hz : ∀ e ∈ row.entries, e.value ≠ .fin 0) :
    row.isClean .ieee = true := by
  unfold AVector.isClean
  rw [isSortedStrict_of h.sorted, Bool.true_and, List.all_eq_true]
  intro e he
  obtain ⟨q, hq, -⟩ := h.double e he
  have h0 : q ≠ 0 := fun h => hz e he (by rw [hq, h])
  have h1 : Arith.ieee.isZero e.value = false := by
    rw [hq]
    simp [Arith.ieee, Dbl.eq, h0]
  simp [h1, h.nonneg e he]

/-- **C124** as far as it holds: a debug build creates the cut that a release build creates, for rows and objectives
whose lengths are not extreme, if the row stays clear of being parallel to the objective and the point violates the cut,
both by more than the rounding errors. -/
theorem C124_cut_partial {n : ℕ} (hn : n ≤ 2 ^ 30) (s : SqrtCode) {objective row x : Vec} (isInteger : Int → Bool) {b : ℚ}
    {name : String} (forced : Bool) (hname : name ≠ "") (ho : MidRow n objective) (hr : MidRow n row) (hx : IsRow n x)
    (hz : ∀ e ∈ row.entries, e.value ≠ .fin 0)
    (hdo : objective.dirty = false) (hdr : row.dirty = false) (hdx : x.dirty = false)
    (hb : Rep b) (hM : termSum n row x b ≤ 2 ^ 700)
    (hpar : |(dot n row objective : ℝ)| / (norm n row * norm n objective) ≤ 1 - 5 * kappa n)
    (heff : 3 * kappa n * (termSum n row x b / norm n row) + 1 / 2 ^ 800 ≤ (dot n row x - b) / norm n row) :
    debugCreateCut s objective isInteger x row (.fin b) name forced =
      .ok (createCut s objective isInteger x row (.fin b) name forced) := by
  obtain ⟨h1, h2, h3, -, -, -, h4, h5, ⟨e, e1, e2⟩, q, q1, q2⟩ := C99_measures hn s isInteger name forced ho hr hx hb hM
  have hne : row.entries ≠ [] := by
    intro h
    have hl := hr.lower
    have hv : ∀ j, val row j = 0 := fun j => by simp [val, AVector.value, h, Arith.ieee, Generator.finPart]
    have : normSq n row = 0 := by simp [normSq, hv]
    rw [this] at hl
    exact absurd hl (not_le.2 (by positivity))
  have hq0 : (-1 : ℝ) ≤ q := by
    have h6 := (abs_le.1 q2).1
    have h7 : 0 ≤ |(dot n row objective : ℝ)| / (norm n row * norm n objective) :=
      div_nonneg (abs_nonneg _) (mul_nonneg (Real.sqrt_nonneg _) (Real.sqrt_nonneg _))
    have h8 := (kappa_bounds hn).2
    have h9 : (1 : ℝ) / 2 ^ 20 ≤ 1 / 5 := by norm_num
    linarith
  have hq1 : (q : ℝ) ≤ 1 := by
    have := (abs_le.1 q2).2
    linarith
  have he0 : (0 : ℝ) ≤ e := by
    have := (abs_le.1 e2).1
    linarith
  have hq0' : -1 ≤ q := by exact_mod_cast hq0
  have hq1' : q ≤ 1 := by exact_mod_cast hq1
  have he0' : 0 ≤ e := by exact_mod_cast he0
  unfold debugCreateCut
  rw [hdo, hdr, hdx]
  have hc : cutDataChecks (createCut s objective isInteger x row (.fin b) name forced) = true := by
    have hl : 0 < row.entries.length := List.length_pos_iff.2 hne
    unfold cutDataChecks
    rw [h1, h2, h3, h4, h5, e1, q1, IsRow.isClean hr.row hz]
    simp [Dbl.lt, hq0', hq1', he0', hl, hname]
  simp only [Bool.or_self, Bool.false_eq_true, if_false]
  rw [if_pos hc]

/-! ## A row parallel to the objective -/

/-- The objective `x₀ + 7 x₁`. -/
def parObjective : Vec := ⟨[⟨0, .fin 1⟩, ⟨1, .fin 7⟩], false⟩

/-- The row `0.3 x₀ + 2.1 x₁`, each coefficient the nearest double. -/
def parRow : Vec := ⟨[⟨0, .fin (rnd (3 / 10))⟩, ⟨1, .fin (rnd (21 / 10))⟩], false⟩

theorem pair_dot (a b c d : Dbl) : (⟨[⟨0, a⟩, ⟨1, b⟩], false⟩ : Vec).dotProduct .ieee ⟨[⟨0, c⟩, ⟨1, d⟩], false⟩ =
    add (add (.fin 0) (mul a c)) (mul b d) := by
  unfold AVector.dotProduct
  rw [AVector.dotWalk_eq _ _ _ _ (by simp [AVector.StrictSorted]) (by simp [AVector.StrictSorted])]
  simp [AVector.matched, AVector.lookup, Arith.ieee]

theorem par_parallelism (s : SqrtCode) : parallelism s parRow parObjective = .fin (1 + 1 / 2 ^ 52) := by
  have a1 : add (add (.fin 0) (mul (.fin (rnd (3 / 10))) (.fin 1))) (mul (.fin (rnd (21 / 10))) (.fin 7)) =
      .fin (15 + 1 / 2 ^ 49) := by decide +kernel
  have a2 : mul (add (add (.fin 0) (mul (.fin (rnd (3 / 10))) (.fin (rnd (3 / 10)))))
      (mul (.fin (rnd (21 / 10))) (.fin (rnd (21 / 10)))))
      (add (add (.fin 0) (mul (.fin 1) (.fin 1))) (mul (.fin 7) (.fin 7))) = .fin (15 * 15) := by decide +kernel
  have a3 : s.sqrt (.fin (15 * 15)) = .fin 15 := by
    show (if (15 * 15 : ℚ) < 0 then Dbl.nan else .fin (s.root (15 * 15))) = _
    rw [s.exact 15 ⟨15, 0, by norm_num, by norm_num, by norm_num⟩ (by norm_num), if_neg (by norm_num)]
  have a4 : div (abs (.fin (15 + 1 / 2 ^ 49))) (.fin 15) = .fin (1 + 1 / 2 ^ 52) := by decide +kernel
  unfold parallelism parRow parObjective
  rw [pair_dot, pair_dot, pair_dot, a1, a2, a3, a4]

/-- Violated: "a debug build creates every cut with finite coefficients that the point violates".  The cut
`0.3 x₀ + 2.1 x₁ ≤ 1` is violated by the point (1, 1) and parallel to the objective `x₀ + 7 x₁`.  Its parallelism is at
most one in exact arithmetic, and `1 + 2⁻⁵²` as computed: the assertion that it is at most one ends the debug build. -/
theorem C124_parallel_violated (s : SqrtCode) (isInteger : Int → Bool) (name : String) (forced : Bool) :
    MidRow 2 parObjective ∧ MidRow 2 parRow ∧ parRow.isClean .ieee = true ∧
      1 < dot 2 parRow Selector.ones ∧
      |(dot 2 parRow parObjective : ℝ)| / (norm 2 parRow * norm 2 parObjective) ≤ 1 ∧
      (createCut s parObjective isInteger Selector.ones parRow (.fin 1) name forced).objectiveParallelism =
        .fin (1 + 1 / 2 ^ 52) ∧
      debugCreateCut s parObjective isInteger Selector.ones parRow (.fin 1) name forced = .abort := by
  have hone : ∀ {a b : ℚ}, IsDouble a → IsDouble b → IsRow 2 (⟨[⟨0, .fin a⟩, ⟨1, .fin b⟩], false⟩ : Vec) := by
    intro a b ha hb
    refine ⟨by simp [AVector.StrictSorted], by simp, by simp, ?_⟩
    simp only [List.mem_cons, List.not_mem_nil, or_false, forall_eq_or_imp, forall_eq]
    exact ⟨⟨a, rfl, ha⟩, ⟨b, rfl, hb⟩⟩
  have hmid : ∀ {v : Vec}, IsRow 2 v → 1 ≤ normSq 2 v → normSq 2 v ≤ 2 ^ 10 → MidRow 2 v := fun h h1 h2 =>
    ⟨h, le_trans (by rw [div_le_one (by positivity)]; exact one_le_pow₀ (by norm_num)) h1,
      h2.trans (pow_le_pow_right₀ (by norm_num) (by norm_num))⟩
  have d1 : IsDouble (1 : ℚ) := ⟨⟨1, 0, by norm_num, by norm_num, by norm_num⟩, le_maxFinite (by norm_num)⟩
  have d7 : IsDouble (7 : ℚ) := ⟨⟨7, 0, by norm_num, by norm_num, by norm_num⟩, le_maxFinite (by norm_num)⟩
  have d3 : IsDouble (rnd (3 / 10)) := ⟨rep_rnd _, le_maxFinite (by decide +kernel)⟩
  have d21 : IsDouble (rnd (21 / 10)) := ⟨rep_rnd _, le_maxFinite (by decide +kernel)⟩
  have mo : MidRow 2 parObjective := hmid (hone d1 d7) (by decide +kernel) (by decide +kernel)
  have mr : MidRow 2 parRow := hmid (hone d3 d21) (by decide +kernel) (by decide +kernel)
  refine ⟨mo, mr, by decide +kernel, by decide +kernel, ?_, par_parallelism s, ?_⟩
  · exact div_le_one_of_le₀ (abs_dot_le' 2 _ _) (mul_nonneg (Real.sqrt_nonneg _) (Real.sqrt_nonneg _))
  · unfold debugCreateCut
    have hd : (parRow.dirty || parObjective.dirty || Selector.ones.dirty) = false := rfl
    have hp : (createCut s parObjective isInteger Selector.ones parRow (.fin 1) name forced).objectiveParallelism =
        .fin (1 + 1 / 2 ^ 52) := par_parallelism s
    have hl : Dbl.le (.fin (1 + 1 / 2 ^ 52)) (.fin 1) = false := by decide +kernel
    rw [hd]
    simp only [Bool.false_eq_true, if_false]
    rw [if_neg]
    simp [cutDataChecks, hp, hl]

theorem checks_nan {c : CutF} (h : c.objectiveParallelism = .nan) : cutDataChecks c = false := by
  simp [cutDataChecks, h, Dbl.le]

/-- Violated in a second way: a row whose squared length underflows and that is orthogonal to the objective has the
parallelism `0 / 0`, which passes no comparison. -/
theorem C124_tiny_violated (s : SqrtCode) :
    debugCreateCut s (Selector.single 0 1) (fun _ => false) Selector.ones (Selector.single 1 (1 / 2 ^ 600)) (.fin 0)
      "cut" false = .abort := by
  unfold debugCreateCut
  have hd : ((Selector.single 1 (1 / 2 ^ 600)).dirty || (Selector.single 0 1).dirty || Selector.ones.dirty) = false := rfl
  have hp : (createCut s (Selector.single 0 1) (fun _ => false) Selector.ones (Selector.single 1 (1 / 2 ^ 600)) (.fin 0)
      "cut" false).objectiveParallelism = .nan := (Selector.tiny_cut s).2
  rw [hd]
  simp only [Bool.false_eq_true, if_false]
  rw [checks_nan hp, if_neg (by decide)]

/-- Non-vacuity of `C124_cut_partial`: the cut `x₀ ≤ 1/2` at the point (1, 1) with the objective `x₀ + 7 x₁`. -/
example (s : SqrtCode) : debugCreateCut s parObjective (fun _ => true) Selector.ones (Selector.single 0 1)
    (.fin (1 / 2)) "cut" false =
      .ok (createCut s parObjective (fun _ => true) Selector.ones (Selector.single 0 1) (.fin (1 / 2)) "cut" false) := by
  have hx : IsRow 2 Selector.ones := by
    refine ⟨by simp [Selector.ones, AVector.StrictSorted], by simp [Selector.ones], by simp [Selector.ones], ?_⟩
    simp only [Selector.ones, List.mem_cons, List.not_mem_nil, or_false, forall_eq_or_imp, forall_eq]
    have : ∃ q, Dbl.fin 1 = .fin q ∧ IsDouble q :=
      ⟨1, rfl, ⟨1, 0, by norm_num, by norm_num, by norm_num⟩, le_maxFinite (by norm_num)⟩
    exact ⟨this, this⟩
  have hns : normSq 2 (Selector.single 0 1) = 1 := by decide +kernel
  have hno : normSq 2 parObjective = 50 := by decide +kernel
  have hn1 : norm 2 (Selector.single 0 1) = 1 := by simp [norm, hns]
  have hn2 : (7 : ℝ) ≤ norm 2 parObjective := by
    unfold norm
    rw [hno]
    exact Real.le_sqrt_of_sq_le (by norm_num)
  have hd : dot 2 (Selector.single 0 1) parObjective = 1 := by decide +kernel
  have hdx : dot 2 (Selector.single 0 1) Selector.ones = 1 := by decide +kernel
  have ht : termSum 2 (Selector.single 0 1) Selector.ones (1 / 2) = 3 / 2 := by decide +kernel
  have hk := (kappa_bounds (n := 2) (by norm_num)).2
  have hk' : kappa 2 ≤ 1 / 100 := hk.trans (by norm_num)
  refine C124_cut_partial (n := 2) (by norm_num) s _ false (by decide) (C124_parallel_violated s (fun _ => true) "" false).1
    Selector.single_mid hx (by simp [Selector.single]) rfl rfl rfl ⟨1, -1, by norm_num, by norm_num, by norm_num⟩ ?_ ?_ ?_
  · rw [ht]
    exact le_trans (by norm_num : (3 / 2 : ℚ) ≤ 2 ^ 1) (pow_le_pow_right₀ (by norm_num) (by norm_num))
  · rw [hd, hn1, one_mul, div_le_iff₀ (by linarith)]
    push_cast
    rw [abs_one]
    nlinarith
  · rw [ht, hdx, hn1]
    have : (1 : ℝ) / 2 ^ 800 ≤ 1 / 2 ^ 5 := one_div_le_one_div_of_le (by norm_num) (pow_le_pow_right₀ (by norm_num) (by norm_num))
    push_cast
    norm_num at this ⊢
    linarith

end Ieee
end MiniMip
