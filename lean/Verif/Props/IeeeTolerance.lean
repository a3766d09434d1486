import Verif.Props.IeeeCuts

/-!
# C91: integrality tolerances below `2^-54`

The theorem on MIR cuts in doubles asks for a tolerance of at least `2^-54`.  That is the exact limit: for every smaller
tolerance there is an LP on which `1 - f0` is zero and the cut has an infinite coefficient.
-/

namespace MiniMip
namespace Ieee

/-- `x - y ≤ -2^-54` with `x` a non-positive integer and `y` in [0, 9], with tolerance `t`. -/
def tiny (t : ℚ) : GenContext where
  lp := {
    rows := [⟨[⟨0, .fin 1⟩, ⟨1, .fin (-1)⟩], false⟩]
    lhs := [.ninf]
    rhs := [.fin (-1 / 2 ^ 54)]
    lower := [.ninf, .fin 0]
    upper := [.fin 0, .fin 9] }
  isInteger := fun j => decide (j = 0)
  integralRow := [false]
  tol := .fin t

/-- The LP optimum of `max x - 2 y`, with `x` basic. -/
def tinyView : SolverView where
  isSolved := true
  isOptimal := true
  activities := .ok [.fin (-1 / 2 ^ 54)]
  basis := [some 0]
  primal := .ok [.fin (-1 / 2 ^ 54), .fin 0]
  bInverted := fun _ => .ok ⟨[⟨0, .fin 1⟩], false⟩

/-- The aggregated row in `x' = -x` and `y`. -/
def tinyAgg : AggRow where
  vars := ⟨[⟨0, .fin (-1)⟩, ⟨1, .fin (-1)⟩], false⟩
  slackCoefs := ⟨[⟨0, .fin 1⟩], false⟩
  slackSigns := ⟨[⟨0, .fin 1⟩], false⟩
  sideValues := ⟨[⟨0, .fin (-1 / 2 ^ 54)⟩], false⟩
  rhs := .fin (-1 / 2 ^ 54)

theorem tiny_agg (t : ℚ) : aggregateByWeight (tiny t).lp (rowWeights ⟨[⟨0, .fin 1⟩], false⟩) [true] =
    .ok { tinyAgg with vars := ⟨[⟨0, .fin 1⟩, ⟨1, .fin (-1)⟩], false⟩ } := by
  rw [show (tiny t).lp = (tiny 0).lp from rfl,
    show rowWeights ⟨[⟨0, .fin 1⟩], false⟩ = ⟨[⟨0, .fin 1⟩], false⟩ by decide +kernel]
  simp only [aggregateByWeight, aggregateLoop, aggregateStep, addMultiple_fuel]
  decide +kernel

theorem tiny_nonneg (t : ℚ) : toNonNegative (tiny t).lp { tinyAgg with vars := ⟨[⟨0, .fin 1⟩, ⟨1, .fin (-1)⟩], false⟩ } =
    .ok (tinyAgg, true) := by
  rw [show (tiny t).lp = (tiny 0).lp from rfl]
  decide +kernel

theorem tiny_integer {t : ℚ} (h0 : 0 ≤ t) : isIntegerWithinTolerance (.fin t) (.fin (-1)) = true := by
  have h : abs (sub (.fin (-1)) (roundHalfAway (.fin (-1)))) = .fin 0 := by decide +kernel
  rw [isIntegerWithinTolerance, h, Dbl.le_fin]
  exact h0

theorem tiny_fractional {t : ℚ} (h1 : t < 1 / 2 ^ 54) :
    isIntegerWithinTolerance (.fin t) (.fin (-1 / 2 ^ 54)) = false := by
  have h : abs (sub (.fin (-1 / 2 ^ 54)) (roundHalfAway (.fin (-1 / 2 ^ 54)))) = .fin (1 / 2 ^ 54) := by decide +kernel
  rw [isIntegerWithinTolerance, h, ← Bool.not_eq_true, Dbl.le_fin]
  exact not_le.2 h1

theorem tiny_mir {t : ℚ} (h0 : 0 ≤ t) (h1 : t < 1 / 2 ^ 54) : roundBy (tiny t) .mir tinyAgg =
    .ok (some { tinyAgg with
      vars := ⟨[⟨0, .fin (-1)⟩, ⟨1, .ninf⟩], false⟩, slackCoefs := ⟨[], false⟩, rhs := .fin (-1) }) := by
  have hf0 : fractionality (tiny t).tol tinyAgg.rhs = .fin 1 := by
    rw [fractionality, show isIntegerWithinTolerance (tiny t).tol tinyAgg.rhs = false from tiny_fractional h1]
    decide +kernel
  have hm1 : mirRoundInteger (tiny t).tol (.fin (-1)) (.fin 1) = .fin (-1) := by
    have hi : isIntegerWithinTolerance (tiny t).tol (.fin (-1)) = true := tiny_integer h0
    rw [mirRoundInteger, fractionality, floorWithTolerance, hi]
    decide +kernel
  have hrhs : floorWithTolerance (tiny t).tol tinyAgg.rhs = .fin (-1) := by
    rw [floorWithTolerance, show isIntegerWithinTolerance (tiny t).tol tinyAgg.rhs = false from tiny_fractional h1]
    decide +kernel
  have hc1 : mirRoundContinuous (.fin (-1)) (.fin 1) = .ninf := by decide +kernel
  have hc2 : mirRoundContinuous (.fin 1) (.fin 1) = .fin 0 := by decide +kernel
  have hs : transformM (fun row x => do
      let i ← hasIntegralSlack (tiny t) row
      return if i then mirRoundInteger (tiny t).tol x (.fin 1) else mirRoundContinuous x (.fin 1))
      tinyAgg.slackCoefs.entries = .ok [] := by
    have hi : hasIntegralSlack (tiny t) 0 = .ok false := by
      show listAt [false] 0 = _
      decide +kernel
    simp only [tinyAgg, transformM, hi, Outcome.bind_ok, Outcome.pure_eq, Bool.false_eq_true, if_false, hc2]
    decide +kernel
  have hv : (tinyAgg.vars.transform .ieee fun col x =>
      if (tiny t).isInteger col then mirRoundInteger (tiny t).tol x (.fin 1) else mirRoundContinuous x (.fin 1)) =
      ⟨[⟨0, .fin (-1)⟩, ⟨1, .ninf⟩], false⟩ := by
    simp only [tinyAgg, AVector.transform, List.map_cons, List.map_nil, show (tiny t).isInteger 0 = true from rfl,
      show (tiny t).isInteger 1 = false from rfl, if_true, Bool.false_eq_true, if_false, hm1, hc1]
    decide +kernel
  simp only [roundBy, mirRound, hf0, hs, hv, hrhs, Outcome.bind_ok, Outcome.pure_eq]
  rfl

theorem tiny_one {t : ℚ} (h0 : 0 ≤ t) (h1 : t < 1 / 2 ^ 54) : roundOne (tiny t) tinyAgg .mir =
    .ok (some (⟨[⟨0, .fin 1⟩, ⟨1, .ninf⟩], false⟩, .fin (-1))) := by
  refine roundOne_eq (tiny_mir h0 h1) (r' := { tinyAgg with
      vars := ⟨[⟨0, .fin 1⟩, ⟨1, .ninf⟩], false⟩, slackCoefs := ⟨[], false⟩, rhs := .fin (-1) }) ?_ ?_
  · rw [show (tiny t).lp = (tiny 0).lp from rfl]
    decide +kernel
  · simp only [substituteSlacks, substituteLoop]
    decide +kernel

theorem tiny_generate {t : ℚ} (h0 : 0 ≤ t) (h1 : t < 1 / 2 ^ 54) : generateCuttingPlanes (tiny t) tinyView [.mir] 100 =
    .ok [⟨⟨[⟨0, .fin 1⟩, ⟨1, .ninf⟩], false⟩, .fin (-1), "MIR0"⟩] := by
  have hc : chooseSides (tiny t).lp 0 [.fin (-1 / 2 ^ 54)] = .ok [true] := by
    rw [show (tiny t).lp = (tiny 0).lp from rfl]
    decide +kernel
  have hrem : removesLPOptimum ⟨[⟨0, .fin 1⟩, ⟨1, .ninf⟩], false⟩ (.fin (-1)) (ofDense [.fin (-1 / 2 ^ 54), .fin 0]) =
      true := by
    have h : Dbl.lt (.fin (-1)) (add (.fin 0) (mul (.fin 1) (.fin (-1 / 2 ^ 54)))) = true := by decide +kernel
    rw [show ofDense [.fin (-1 / 2 ^ 54), .fin 0] = ⟨[⟨0, .fin (-1 / 2 ^ 54)⟩], false⟩ by decide +kernel]
    simp only [removesLPOptimum, AVector.dotProduct, AVector.dotWalk]
    simpa [AVector.dotWalk, Arith.ieee] using h
  have h2 : tableauRow (tiny t) tinyView [.mir] [true] (ofDense [.fin (-1 / 2 ^ 54), .fin 0]) 0 =
      .ok [⟨⟨[⟨0, .fin 1⟩, ⟨1, .ninf⟩], false⟩, .fin (-1), "MIR0"⟩] := by
    have h3 : listAt tinyView.basis (0 : Nat) = .ok (some 0) := by decide +kernel
    have h4 : (tiny t).isInteger 0 = true := rfl
    have h5 : isIntegerWithinTolerance (tiny t).tol ((ofDense [.fin (-1 / 2 ^ 54), .fin 0]).value .ieee 0) = false := by
      rw [show (ofDense [.fin (-1 / 2 ^ 54), .fin 0]).value .ieee 0 = .fin (-1 / 2 ^ 54) by decide +kernel]
      exact tiny_fractional h1
    simp only [tableauRow, h3, h4, h5, Outcome.bind_ok, Bool.not_true, Bool.false_eq_true, if_false,
      show tinyView.bInverted 0 = .ok ⟨[⟨0, .fin 1⟩], false⟩ from rfl, tiny_agg, tiny_nonneg, roundAll,
      tiny_one h0 h1, hrem, if_true, Outcome.pure_eq]
    decide +kernel
  simp only [generateCuttingPlanes, show tinyView.isSolved = true from rfl, show tinyView.isOptimal = true from rfl,
    show tinyView.activities = .ok [.fin (-1 / 2 ^ 54)] from rfl,
    show tinyView.primal = .ok [.fin (-1 / 2 ^ 54), .fin 0] from rfl,
    Outcome.bind_ok, Bool.not_true, Bool.false_eq_true, if_false, hc, if_neg (show ¬ (100 : Int) < 0 by omega),
    show (tiny t).lp.rows.length = 1 from rfl, tableauLoop, List.length_nil, Int.natCast_zero,
    if_pos (show (0 : Int) < 100 by omega), h2]
  simp

theorem tiny_instance (t : ℚ) : Instance (tiny t) 2 9 := by
  have hd : ∀ k : ℤ, |k| ≤ 9 → Bounded 9 (.fin k) := fun k hk =>
    ⟨k, rfl, (dyadic (m := k) (n := 0) (lt_of_le_of_lt hk (by norm_num)) (by norm_num) (by simp)).1, by exact_mod_cast hk⟩
  refine ⟨?_, ?_, ?_, ?_, ?_, ?_, ?_, ?_, ?_, ?_, ?_⟩
  · intro r hr
    simp only [tiny, List.mem_singleton] at hr
    subst hr
    refine ⟨by decide +kernel, fun e he => ?_⟩
    simp only [List.mem_cons, List.not_mem_nil, or_false] at he
    rcases he with rfl | rfl
    · exact ⟨by norm_num, by exact_mod_cast hd 1 (by norm_num)⟩
    · exact ⟨by norm_num, by exact_mod_cast hd (-1) (by norm_num)⟩
  · intro l hl
    simp only [tiny, List.mem_singleton] at hl
    subst hl
    exact Or.inl rfl
  · intro l hl
    simp only [tiny, List.mem_singleton] at hl
    subst hl
    exact Or.inr ⟨_, rfl, (dyadic (q := -1 / 2 ^ 54) (m := -1) (n := 54) (by norm_num) (by norm_num) (by norm_num)).1,
      by norm_num [abs_of_neg]⟩
  · intro i l r _ hr hinf
    rcases i with _ | i <;> simp [tiny] at hr
    subst hr
    simp [LpView.isInfinity, tiny, Dbl.le] at hinf
  · intro l hl
    simp only [tiny, List.mem_cons, List.not_mem_nil, or_false] at hl
    rcases hl with rfl | rfl
    · exact Or.inl rfl
    · exact Or.inr (Or.inl (by simp [Dbl.le]))
  · intro l hl
    simp only [tiny, List.mem_cons, List.not_mem_nil, or_false] at hl
    rcases hl with rfl | rfl
    · exact Or.inr (by exact_mod_cast hd 0 (by norm_num))
    · exact Or.inr (by exact_mod_cast hd 9 (by norm_num))
  · intro j q hj h
    rcases j with _ | _ | j <;> simp [tiny] at h hj
  · intro j q hj h
    rcases j with _ | _ | j <;> simp [tiny] at h hj
    exact ⟨0, by simp [← h]⟩
  · intro i r hi h
    rcases i with _ | i <;> simp [tiny] at h hi
  · intro i q hi h
    rcases i with _ | i <;> simp [tiny] at h
  · intro i q hi h
    rcases i with _ | i <;> simp [tiny] at h hi

/-- **C91, tolerances below `2^-54`.**  For every integrality tolerance from 0 to below `2^-54` there are an LP with
numbers of size at most 9, with a feasible point, and answers of the LP solver with which the generator makes an MIR cut
with a coefficient that is minus infinity.  So the lower limit on the tolerance in `C91_generator_partial` is exact. -/
theorem C91_tiny_tolerance_violated (t : ℚ) (h0 : 0 ≤ t) (h1 : t < 1 / 2 ^ 54) :
    ∃ (c : GenContext) (s : SolverView) (cut : Cut), Instance c 2 9 ∧ c.tol = .fin t ∧
      (∀ k v, s.bInverted k = .ok v → v.isClean .ieee = true ∧ v.entries.length ≤ 1 ∧
        ∀ e ∈ v.entries, Bounded 9 e.value) ∧
      (∃ x, Feasible c x) ∧ generateCuttingPlanes c s [.mir] 100 = .ok [cut] ∧
      ∃ e ∈ cut.row.entries, e.value = .ninf := by
  refine ⟨tiny t, tinyView, ⟨⟨[⟨0, .fin 1⟩, ⟨1, .ninf⟩], false⟩, .fin (-1), "MIR0"⟩, tiny_instance t, rfl, ?_,
    ⟨fun j => if j = 0 then -1 else 0, ?_⟩, tiny_generate h0 h1, ⟨1, .ninf⟩, by simp, rfl⟩
  · intro k v hv
    cases hv
    refine ⟨by decide +kernel, le_rfl, fun e he => ?_⟩
    simp only [List.mem_singleton] at he
    subst he
    exact ⟨1, rfl, (dyadic (m := 1) (n := 0) (by norm_num) (by norm_num) (by norm_num)).1, by norm_num⟩
  · refine ⟨?_, ?_, ?_, ?_, ?_⟩
    · intro j l h
      rcases j with _ | _ | j <;> simp [tiny] at h <;> subst h <;> simp [Dbl.le]
    · intro j l h
      rcases j with _ | _ | j <;> simp [tiny] at h <;> subst h <;> simp [Dbl.le]
    · intro i r l hr hl
      rcases i with _ | i <;> simp [tiny] at hl
      subst hl
      simp [Dbl.le]
    · intro i r l hr hl
      rcases i with _ | i <;> simp [tiny] at hr hl
      subst hr hl
      norm_num [Dbl.le_fin, eval, Generator.finPart]
    · intro j hj
      simp only [tiny, decide_eq_true_eq] at hj
      exact ⟨-1, by simp [hj]⟩

/-- The hypotheses hold at tolerance 0. -/
example : (0 : ℚ) ≤ 0 ∧ (0 : ℚ) < 1 / 2 ^ 54 := ⟨le_rfl, by norm_num⟩

end Ieee
end MiniMip
