import Verif.Props.DebugBuild

/-!
# C120: the assertions of strong CG rounding and of `CutData`
-/

namespace MiniMip
namespace Generator

theorem transformM_congr {f g : Int → ℚ → Outcome ℚ} {l : List Entry} (h : ∀ e ∈ l, f e.index e.value = g e.index e.value) :
    transformM f l = transformM g l := by
  induction l with
  | nil => rfl
  | cons e l ih =>
    unfold transformM
    rw [h e (by simp), ih fun e' he' => h e' (by simp [he'])]

theorem transformM_abort {f : Int → ℚ → Outcome ℚ} {l : List Entry}
    (h : ∀ e ∈ l, (∃ y, f e.index e.value = .ok y) ∨ f e.index e.value = .abort)
    (h' : ∃ e ∈ l, f e.index e.value = .abort) : transformM f l = .abort := by
  induction l with
  | nil => obtain ⟨e, he, -⟩ := h'; simp at he
  | cons e l ih =>
    unfold transformM
    rcases h e (by simp) with ⟨y, hy⟩ | hy
    · rw [hy]
      have : transformM f l = .abort := by
        refine ih (fun e' he' => h e' (by simp [he'])) ?_
        obtain ⟨e', he', ha⟩ := h'
        rcases List.mem_cons.1 he' with rfl | he'
        · rw [hy] at ha; cases ha
        · exact ⟨e', he', ha⟩
      rw [Outcome.bind_ok, this]
      rfl
    · rw [hy]; rfl

theorem slacksAllowCG_true {c : GenContext} {l : List Entry} (h : slacksAllowCG c l = .ok true) :
    ∀ e ∈ l, hasIntegralSlack c e.index = .ok true ∧ 0 ≤ e.value := by
  induction l with
  | nil => simp
  | cons e l ih =>
    unfold slacksAllowCG at h
    rw [Outcome.bind_eq_ok] at h
    obtain ⟨i, hi, h⟩ := h
    split at h
    · rename_i hc
      simp only [Bool.and_eq_true, decide_eq_true_eq] at hc
      intro e' he'
      rcases List.mem_cons.1 he' with rfl | he'
      · exact ⟨by rw [hi, hc.1], hc.2⟩
      · exact ih h e' he'
    · cases h

theorem fractionality_bounds (tol v : ℚ) : 0 ≤ fractionality tol v ∧ fractionality tol v < 1 := by
  unfold fractionality
  split
  · norm_num
  · exact ⟨by linarith [Int.floor_le v], by linarith [Int.lt_floor_add_one v]⟩

theorem floorWithTolerance_nonneg {tol v : ℚ} (h : 0 ≤ v) : 0 ≤ floorWithTolerance tol v := by
  unfold floorWithTolerance
  split
  · unfold roundAway
    rw [if_pos h]
    have : (0 : Int) ≤ ⌊v + 1 / 2⌋ := Int.floor_nonneg.2 (by linarith)
    exact_mod_cast this
  · exact_mod_cast Int.floor_nonneg.2 h

/-- The assertions on the number `k` (aggregating_generator.cc:340-341). -/
theorem cg_parameter {f0 : ℚ} (h0 : 0 < f0) (h1 : f0 < 1) :
    0 < ((⌈1 / f0⌉ : ℚ) - 1) ∧ 1 / ((⌈1 / f0⌉ : ℚ) - 1 + 1) ≤ f0 ∧ f0 < 1 / ((⌈1 / f0⌉ : ℚ) - 1) := by
  have hlt : 1 < 1 / f0 := by rw [lt_div_iff₀ h0]; linarith
  have hc := Int.le_ceil (1 / f0)
  have hc' := Int.ceil_lt_add_one (1 / f0)
  have hk : (1 : Int) < ⌈1 / f0⌉ := Int.lt_ceil.2 (by exact_mod_cast hlt)
  have hk : 0 < ((⌈1 / f0⌉ : ℚ) - 1) := by
    have : (1 : ℚ) < (⌈1 / f0⌉ : ℚ) := by exact_mod_cast hk
    linarith
  refine ⟨hk, ?_, ?_⟩
  · rw [sub_add_cancel, div_le_iff₀ (by linarith)]
    rw [div_le_iff₀ h0] at hc
    linarith
  · rw [lt_div_iff₀ hk]
    have : (⌈1 / f0⌉ : ℚ) - 1 < 1 / f0 := by linarith
    rw [lt_div_iff₀ h0] at this
    linarith

/-- The assertions of `CGRoundInteger` hold for every coefficient that is not negative. -/
theorem cg_asserts {tol x k f0 : ℚ} (hk : 0 < k) (h1 : f0 < 1) (hx : 0 ≤ x) :
    debugCgRoundInteger tol x k f0 = .ok (cgRoundInteger tol x k f0) := by
  unfold debugCgRoundInteger cgRoundInteger
  simp only
  have hf : 0 < 1 - f0 := by linarith
  generalize hfj : fractionality tol x = fj
  by_cases hle : fj ≤ f0
  · have := floorWithTolerance_nonneg (tol := tol) hx
    simp [hle, Outcome.check, this]
  · simp only [hle, if_false, decide_false, Bool.false_or]
    have hpos : 0 < k * (fj - f0) / (1 - f0) := div_pos (mul_pos hk (by linarith)) hf
    have hc := Int.le_ceil (k * (fj - f0) / (1 - f0))
    have hc' := Int.ceil_lt_add_one (k * (fj - f0) / (1 - f0))
    generalize (⌈k * (fj - f0) / (1 - f0)⌉ : ℚ) = p at hc hc'
    rw [div_le_iff₀ hf] at hc
    have hc'' : (p - 1) * (1 - f0) < k * (fj - f0) := by
      have : p - 1 < k * (fj - f0) / (1 - f0) := by linarith
      rwa [lt_div_iff₀ hf] at this
    have e1 : f0 + 1 / k * (p - 1) * (1 - f0) < fj := by
      have : 1 / k * (p - 1) * (1 - f0) < fj - f0 := by
        rw [show 1 / k * (p - 1) * (1 - f0) = ((p - 1) * (1 - f0)) / k by ring, div_lt_iff₀ hk]
        linarith
      linarith
    have e2 : fj ≤ f0 + 1 / k * p * (1 - f0) := by
      have : fj - f0 ≤ 1 / k * p * (1 - f0) := by
        rw [show 1 / k * p * (1 - f0) = (p * (1 - f0)) / k by ring, le_div_iff₀ hk]
        linarith
      linarith
    have hp : 0 ≤ p := by
      rw [div_eq_mul_inv] at hpos
      have : 0 < p * (1 - f0) := lt_of_lt_of_le (mul_pos hk (by linarith)) hc
      nlinarith
    have e3 : 0 ≤ floorWithTolerance tol x + p / (k + 1) :=
      add_nonneg (floorWithTolerance_nonneg hx) (div_nonneg hp (by linarith))
    simp only [Outcome.check, e1, e2, e3, decide_true, Bool.and_self, if_true, Outcome.bind_ok, Outcome.pure_eq]

/-- **C120**, strong CG rounding.  For every row and context, valid or not: the assertions fail exactly if the row passes the
two tests at the beginning and its right-hand side is infinite or integral, or a continuous variable has a negative
coefficient.  Otherwise the debug build rounds like the release build. -/
theorem C120_strong_cg (c : GenContext) (a : AggRow) :
    debugStrongCGRound c a =
      open Classical in
      if slacksAllowCG c a.slackCoefs.entries = .ok true ∧ varsAllowCG c a.vars.entries = true ∧
          ((∀ b, a.rhs = some b → fractionality c.tol b = 0) ∨
            ∃ t ∈ a.vars.entries, c.isInteger t.index = false ∧ t.value < 0) then .abort
      else strongCGRound c a := by
  unfold debugStrongCGRound strongCGRound
  cases hs : slacksAllowCG c a.slackCoefs.entries with
  | ok ok =>
    cases ok with
    | false => simp
    | true =>
      cases hv : varsAllowCG c a.vars.entries with
      | false => simp
      | true =>
        simp only [Outcome.bind_ok, Bool.not_true, Bool.false_eq_true, if_false, true_and]
        cases hr : a.rhs with
        | none => simp
        | some b =>
          simp only [Option.some.injEq, forall_eq']
          by_cases hf : fractionality c.tol b = 0
          · simp [hf, Outcome.check]
          · have hb := fractionality_bounds c.tol b
            have h0 : 0 < fractionality c.tol b := lt_of_le_of_ne hb.1 (Ne.symm hf)
            obtain ⟨hk, hk1, hk2⟩ := cg_parameter h0 hb.2
            have hsl : transformM (fun row x => do
                let i ← hasIntegralSlack c row
                if i then debugCgRoundInteger c.tol x ((⌈1 / fractionality c.tol b⌉ : ℚ) - 1) (fractionality c.tol b)
                else do
                  Outcome.check (decide (0 ≤ x))
                  return 0) a.slackCoefs.entries =
              transformM (fun row x => do
                let i ← hasIntegralSlack c row
                return if i then cgRoundInteger c.tol x ((⌈1 / fractionality c.tol b⌉ : ℚ) - 1) (fractionality c.tol b) else 0)
                a.slackCoefs.entries := by
              refine transformM_congr fun e he => ?_
              obtain ⟨g1, g2⟩ := slacksAllowCG_true hs e he
              simp only [g1, Outcome.bind_ok, if_true, cg_asserts hk hb.2 g2, Outcome.pure_eq]
            have hint : ∀ t ∈ a.vars.entries, c.isInteger t.index = true → 0 ≤ t.value := by
              intro t ht hti
              simp only [varsAllowCG, List.all_eq_true] at hv
              have := hv t ht
              simpa [hti] using this
            simp only [hf, ne_eq, not_false_eq_true, decide_true, hk1, hk2, Outcome.check, if_true, Outcome.bind_ok, false_or,
              decide_false, Bool.false_and, Bool.false_eq_true, if_false]
            simp only [Outcome.check] at hsl
            rw [hsl]
            obtain ⟨sl, hslok⟩ : ∃ sl, transformM (fun row x => do
                let i ← hasIntegralSlack c row
                return if i then cgRoundInteger c.tol x ((⌈1 / fractionality c.tol b⌉ : ℚ) - 1) (fractionality c.tol b) else 0)
                a.slackCoefs.entries = .ok sl := by
              rw [transformM_congr (g := fun row x => .ok (cgRoundInteger c.tol x ((⌈1 / fractionality c.tol b⌉ : ℚ) - 1) (fractionality c.tol b)))
                (fun e he => by simp [(slacksAllowCG_true hs e he).1]), transformM_pure _ _ false]
              exact ⟨_, rfl⟩
            rw [hslok]
            simp only [Outcome.bind_ok]
            by_cases hneg : ∃ t ∈ a.vars.entries, c.isInteger t.index = false ∧ t.value < 0
            · rw [if_pos hneg, transformM_abort]
              · rfl
              · intro t ht
                by_cases hti : c.isInteger t.index = true
                · left
                  simp only [hti, if_true]
                  exact ⟨_, cg_asserts hk hb.2 (hint t ht hti)⟩
                · simp only [hti]
                  by_cases h : 0 ≤ t.value <;> simp [h]
              · obtain ⟨t, ht, hti, hlt⟩ := hneg
                exact ⟨t, ht, by simp [hti, not_le.2 hlt]⟩
            · rw [if_neg hneg]
              rw [transformM_congr (g := fun col x => .ok (if c.isInteger col then
                cgRoundInteger c.tol x ((⌈1 / fractionality c.tol b⌉ : ℚ) - 1) (fractionality c.tol b) else 0))
                (fun t ht => by
                  by_cases hti : c.isInteger t.index = true
                  · simp only [hti, if_true]
                    exact cg_asserts hk hb.2 (hint t ht hti)
                  · have : 0 ≤ t.value := by
                      by_contra h
                      exact hneg ⟨t, ht, by simpa using hti, not_le.1 h⟩
                    simp [hti, this]), transformM_pure _ _ a.vars.dirty]
              rfl
  | _ => simp

open SparseVector (Clean) in
/-- **C120**, the constructor of `CutData`.  For every clean row and objective, LP optimum, right-hand side and name: its
assertions hold exactly if the row and the objective are not empty, the LP optimum is on the row or beyond it, and the name is
not empty. -/
theorem C120_cut_data (objective lp row : SparseVector) (isInt : Int → Bool) (rhs : ℚ) (name : String) (forced : Bool)
    (hr : Clean row.entries) (ho : Clean objective.entries) :
    debugCreateCut objective isInt lp row rhs name forced =
      open Classical in
      if row.entries ≠ [] ∧ objective.entries ≠ [] ∧ rhs ≤ row.dotProduct lp ∧ name ≠ "" then
        .ok (createCut objective isInt lp row rhs name forced)
      else .abort := by
  have hclean : row.isClean = true := by
    rw [SparseVector.isClean, Bool.and_eq_true, SparseVector.isSortedStrict_iff, List.all_eq_true]
    refine ⟨hr.1, fun e he => ?_⟩
    have := hr.2 e he
    simp [this.1, this.2]
  unfold debugCreateCut
  simp only
  by_cases hne : row.entries = []
  · rw [if_neg, if_neg (fun h => h.1 hne)]
    rintro ⟨-, h, -⟩
    simp [createCut, hne] at h
  have hn : 0 < (createCut objective isInt lp row rhs name forced).numNonZeros := by
    simpa [createCut] using List.length_pos_iff.2 hne
  by_cases hno : objective.entries = []
  · rw [if_neg, if_neg (fun h => h.2.1 hno)]
    rintro ⟨-, -, h, -⟩
    rw [(createCut_finite hr hne ho).2.2 hno] at h
    exact h
  obtain ⟨S, hS⟩ : ∃ S : Finset Int, ∀ i, i ∈ S ↔ row.value i ≠ 0 := by
    refine ⟨(row.entries.map (·.index)).toFinset.filter fun i => row.value i ≠ 0, fun i => ?_⟩
    rw [Finset.mem_filter, List.mem_toFinset, List.mem_map]
    refine ⟨fun h => h.2, fun h => ⟨?_, h⟩⟩
    by_contra hc
    apply h
    rw [SparseVector.value, SparseVector.valueAt_eq_sumAt hr.1]
    exact SparseVector.sumAt_eq_zero fun e he hei => hc ⟨e, he, hei⟩
  obtain ⟨x, hx, hx0, hx1, -⟩ := (C61_cut_statistics_partial objective lp row isInt rhs name forced hr ho S hS).2.2.2.2.2.2.2.2 hne hno
  have heff : (createCut objective isInt lp row rhs name forced).efficacy = _ := computeEfficacy_fin hr hne rhs lp
  have hpos : 0 < Real.sqrt (row.dotProduct row : ℚ) := Real.sqrt_pos.2 (by exact_mod_cast norm_pos hr hne)
  rw [hx, heff]
  have hiff : ((0 : ℝ) ≤ ((row.dotProduct lp - rhs : ℚ) : ℝ) / Real.sqrt ((row.dotProduct row : ℚ) : ℝ)) ↔
      rhs ≤ row.dotProduct lp := by
    rw [le_div_iff₀ hpos, zero_mul, ← sub_nonneg (b := rhs)]
    exact_mod_cast Iff.rfl
  by_cases hall : rhs ≤ row.dotProduct lp ∧ name ≠ ""
  · have hx' : (-1 : ℝ) ≤ x := by linarith
    rw [if_pos ⟨hclean, hn, hx', hx1, hiff.2 hall.1, hall.2⟩, if_pos ⟨hne, hno, hall⟩]
  · rw [if_neg (fun h => hall ⟨hiff.1 h.2.2.2.2.1, h.2.2.2.2.2⟩), if_neg (fun h => hall h.2.2)]

/-- Non-vacuity: a row that fails at each of the conditions, and one that meets them. -/
example : (∃ x, debugCreateCut ⟨[⟨0, -1⟩], false⟩ (fun _ => true) ⟨[⟨0, 3 / 2⟩], false⟩ ⟨[⟨0, 1⟩], false⟩ 1 "MIR0" false = .ok x) ∧
    debugCreateCut {} (fun _ => true) ⟨[⟨0, 3 / 2⟩], false⟩ ⟨[⟨0, 1⟩], false⟩ 1 "MIR0" false = .abort ∧
    debugCreateCut ⟨[⟨0, -1⟩], false⟩ (fun _ => true) ⟨[⟨0, 3 / 2⟩], false⟩ {} (-1) "MIR0" false = .abort := by
  refine ⟨?_, ?_, ?_⟩
  · rw [C120_cut_data _ _ _ _ _ _ _ (by norm_num [SparseVector.Clean]) (by norm_num [SparseVector.Clean]), if_pos]
    · exact ⟨_, rfl⟩
    · refine ⟨by simp, by simp, by norm_num [SparseVector.dotProduct, SparseVector.dotWalk], by decide⟩
  · rw [C120_cut_data _ _ _ _ _ _ _ (by norm_num [SparseVector.Clean]) (by norm_num [SparseVector.Clean]), if_neg]
    simp
  · rw [C120_cut_data _ _ _ _ _ _ _ (by norm_num [SparseVector.Clean]) (by norm_num [SparseVector.Clean]), if_neg]
    simp

/-- Non-vacuity: a row that strong CG rounding rounds in both builds, `x + s / 2 = 3 / 2`, and the row `x + s / 2 = 2`, at
which the debug build aborts and the release build gives up. -/
example : debugStrongCGRound { lp := {rows := [], lhs := [], rhs := [], lower := [], upper := []}, isInteger := fun _ => true, integralRow := [true], objective := {}, tol := 0 }
      { vars := ⟨[⟨0, 1⟩], false⟩, slackCoefs := ⟨[⟨0, 1 / 2⟩], false⟩, rhs := some (3 / 2) } ≠ .abort ∧
    debugStrongCGRound { lp := {rows := [], lhs := [], rhs := [], lower := [], upper := []}, isInteger := fun _ => true, integralRow := [true], objective := {}, tol := 0 }
      { vars := ⟨[⟨0, 1⟩], false⟩, slackCoefs := ⟨[⟨0, 1 / 2⟩], false⟩, rhs := some 2 } = .abort := by
  constructor
  · rw [C120_strong_cg, if_neg]
    · norm_num [strongCGRound, slacksAllowCG, varsAllowCG, hasIntegralSlack, listAt, fractionality, isIntegerWithinTolerance,
        roundAway, transformM]
      exact fun h => by cases h
    · rintro ⟨-, -, h | ⟨t, -, h, -⟩⟩
      · have := h _ rfl
        norm_num [fractionality, isIntegerWithinTolerance, roundAway] at this
      · cases h
  · rw [C120_strong_cg, if_pos]
    refine ⟨by norm_num [slacksAllowCG, hasIntegralSlack, listAt], by norm_num [varsAllowCG], .inl ?_⟩
    intro b hb
    cases hb
    norm_num [fractionality, isIntegerWithinTolerance, roundAway]

end Generator
end MiniMip
