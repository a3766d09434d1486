import Verif.Props.CutRegistry
import Mathlib.Algebra.Order.BigOperators.Ring.Finset
import Mathlib.Data.Rat.BigOperators
import Mathlib.Tactic.FieldSimp
import Mathlib.Tactic.Positivity
import Mathlib.Tactic.NormNum

/-!
# Properties C59, C61: cut efficacy and the statistics recorded with a cut

Points are real-valued functions of the variable index.
-/

namespace MiniMip
open SparseVector

/-- `S` covers the non-zeros of the vector. -/
def Covers (S : Finset Int) (v : SparseVector) : Prop := ∀ i, v.value i ≠ 0 → i ∈ S

theorem dotProduct_real (v w : SparseVector) (hv : Clean v.entries) (hw : Clean w.entries)
    (S : Finset Int) (hS : Covers S v) :
    ((v.dotProduct w : ℚ) : ℝ) = ∑ i ∈ S, (v.value i : ℝ) * (w.value i : ℝ) := by
  rw [C05_dot_product v w hv hw S (fun i h _ => hS i h)]
  push_cast [Rat.cast_sum]; rfl

theorem value_of_mem {l : List Entry} (h : Clean l) {e : Entry} (he : e ∈ l) :
    valueAt l e.index = e.value := by
  rw [valueAt_eq_sumAt h.1]
  have hs := h.1
  clear h
  induction l with
  | nil => simp at he
  | cons a l ih =>
    rw [List.pairwise_cons] at hs
    rcases List.mem_cons.1 he with rfl | he'
    · rw [sumAt, if_pos rfl, sumAt_eq_zero, add_zero]
      intro b hb; have := hs.1 b hb; omega
    · have := hs.1 e he'
      rw [sumAt, if_neg (by omega), zero_add]
      exact ih he' hs.2

theorem norm_pos {v : SparseVector} (hv : Clean v.entries) (hne : v.entries ≠ []) :
    0 < ((v.dotProduct v : ℚ) : ℝ) := by
  obtain ⟨S, hS⟩ := exists_support v v v
  rw [dotProduct_real v v hv hv S (fun i h => hS i (Or.inl h))]
  obtain ⟨e, he⟩ := List.exists_mem_of_ne_nil _ hne
  have hval : v.value e.index = e.value := value_of_mem hv he
  have hne' : v.value e.index ≠ 0 := by rw [hval]; exact (hv.2 e he).1
  apply Finset.sum_pos'
  · intro i _; exact mul_self_nonneg _
  · refine ⟨e.index, hS _ (Or.inl hne'), mul_self_pos.2 ?_⟩
    exact_mod_cast hne'

theorem RDbl.div_pos {b : ℝ} (hb : 0 < b) (a : ℝ) : RDbl.div a b = .fin (a / b) := by
  unfold RDbl.div
  rw [if_neg hb.ne']

theorem computeEfficacy_fin {row : SparseVector} (hr : Clean row.entries) (hne : row.entries ≠ []) (rhs : ℚ)
    (lp : SparseVector) : computeEfficacy row rhs lp =
      .fin (((row.dotProduct lp - rhs : ℚ) : ℝ) / Real.sqrt ((row.dotProduct row : ℚ) : ℝ)) :=
  RDbl.div_pos (Real.sqrt_pos.2 (norm_pos hr hne)) _

/-- **C59.**  For a cut `row · x ≤ rhs` with a non-empty clean row, the efficacy at the LP
point is the signed Euclidean distance of the point from the cut's hyperplane: it is
positive iff the point violates the cut and zero iff the point is on the hyperplane; no
point of the hyperplane is nearer than its absolute value; and one is exactly that near. -/
theorem C59_efficacy (row lp : SparseVector) (rhs : ℚ) (hr : Clean row.entries)
    (hne : row.entries ≠ []) (hl : Clean lp.entries) (S : Finset Int)
    (hS : Covers S row) :
    ∃ e : ℝ, computeEfficacy row rhs lp = .fin e ∧
    (0 < e ↔ rhs < ∑ i ∈ S, row.value i * lp.value i) ∧
    (e = 0 ↔ ∑ i ∈ S, row.value i * lp.value i = rhs) ∧
    (∀ y : Int → ℝ, ∑ i ∈ S, (row.value i : ℝ) * y i = rhs →
      e ^ 2 ≤ ∑ i ∈ S, ((lp.value i : ℝ) - y i) ^ 2) ∧
    (∃ y : Int → ℝ, ∑ i ∈ S, (row.value i : ℝ) * y i = rhs ∧
      ∑ i ∈ S, ((lp.value i : ℝ) - y i) ^ 2 = e ^ 2) := by
  refine ⟨_, computeEfficacy_fin hr hne rhs lp, ?_⟩
  have hn := norm_pos hr hne
  have hnsum := dotProduct_real row row hr hr S hS
  have hdot := C05_dot_product row lp hr hl S (fun i h _ => hS i h)
  have hdotR := dotProduct_real row lp hr hl S hS
  set N : ℝ := ((row.dotProduct row : ℚ) : ℝ) with hN
  have hsq : 0 < Real.sqrt N := Real.sqrt_pos.2 hn
  set e : ℝ := ((row.dotProduct lp - rhs : ℚ) : ℝ) / Real.sqrt N with he
  have he2 : e ^ 2 * N = ((row.dotProduct lp - rhs : ℚ) : ℝ) ^ 2 := by
    rw [he, div_pow, Real.sq_sqrt hn.le]; field_simp
  refine ⟨?_, ?_, ?_, ?_⟩
  · rw [he, div_pos_iff_of_pos_right hsq, ← hdot]
    rw [show (0 : ℝ) = ((0 : ℚ) : ℝ) by simp, Rat.cast_lt]
    constructor <;> intro h <;> linarith
  · rw [he, div_eq_zero_iff, ← hdot]
    simp only [hsq.ne', or_false]
    rw [show (0 : ℝ) = ((0 : ℚ) : ℝ) by simp, Rat.cast_inj]
    constructor <;> intro h <;> linarith
  · intro y hy
    have hcs := Finset.sum_mul_sq_le_sq_mul_sq S (fun i => (row.value i : ℝ))
      (fun i => (lp.value i : ℝ) - y i)
    have h1 : ∑ i ∈ S, (row.value i : ℝ) * ((lp.value i : ℝ) - y i) =
        ((row.dotProduct lp - rhs : ℚ) : ℝ) := by
      simp only [mul_sub, Finset.sum_sub_distrib, hy]
      push_cast
      rw [hdotR]
    have h2 : ∑ i ∈ S, (row.value i : ℝ) ^ 2 = N := by
      rw [hnsum]; exact Finset.sum_congr rfl (fun i _ => sq _)
    rw [h1, h2, ← he2, mul_comm] at hcs
    exact le_of_mul_le_mul_left hcs hn
  · refine ⟨fun i => (lp.value i : ℝ) - ((row.dotProduct lp - rhs : ℚ) : ℝ) / N * (row.value i : ℝ),
      ?_, ?_⟩
    · have : ∀ i, (row.value i : ℝ) * ((lp.value i : ℝ) -
          ((row.dotProduct lp - rhs : ℚ) : ℝ) / N * (row.value i : ℝ)) =
          (row.value i : ℝ) * (lp.value i : ℝ) -
          ((row.dotProduct lp - rhs : ℚ) : ℝ) / N * ((row.value i : ℝ) * (row.value i : ℝ)) := by
        intro i; ring
      simp only [this, Finset.sum_sub_distrib, ← Finset.mul_sum, ← hnsum, ← hdotR]
      rw [div_mul_cancel₀ _ hn.ne']
      push_cast; ring
    · have : ∀ i, ((lp.value i : ℝ) - ((lp.value i : ℝ) -
          ((row.dotProduct lp - rhs : ℚ) : ℝ) / N * (row.value i : ℝ))) ^ 2 =
          (((row.dotProduct lp - rhs : ℚ) : ℝ) / N) ^ 2 * ((row.value i : ℝ) * (row.value i : ℝ)) := by
        intro i; ring
      simp only [this, ← Finset.mul_sum, ← hnsum]
      rw [div_pow, ← he2]; field_simp

/-- Non-vacuity, and a value: the point (3, 4) violates `3x + 4y ≤ 20` by distance 1. -/
example : Clean [⟨0, 3⟩, ⟨1, 4⟩] ∧ Covers {0, 1} ⟨[⟨0, 3⟩, ⟨1, 4⟩], false⟩ ∧
    computeEfficacy ⟨[⟨0, 3⟩, ⟨1, 4⟩], false⟩ 20 ⟨[⟨0, 3⟩, ⟨1, 4⟩], false⟩ = .fin 1 := by
  refine ⟨by norm_num [Clean], ?_, ?_⟩
  · intro i hi
    by_contra h
    simp only [Finset.mem_insert, Finset.mem_singleton, not_or] at h
    apply hi
    simp only [value, valueAt_cons, valueAt_nil]
    split_ifs <;> simp_all
  · rw [computeEfficacy_fin (by norm_num [Clean]) (by simp)]
    have : (25 : ℝ) = 5 ^ 2 := by norm_num
    norm_num [dotProduct, dotWalk]
    rw [this, Real.sqrt_sq (by norm_num)]; norm_num

/-! ## C61 -/

theorem norm_zero {v : SparseVector} (h : v.entries = []) : v.dotProduct v = 0 := by
  unfold dotProduct
  rw [h]
  simp [dotWalk]

/-- The efficacy of a cut with a row that is not empty is a number; so is the parallelism if the
objective is not zero either, and it is NaN otherwise. -/
theorem createCut_finite {objective lp row : SparseVector} {isInt : Int → Bool} {rhs : ℚ} {name : String}
    {forced : Bool} (hr : Clean row.entries) (hne : row.entries ≠ []) (ho : Clean objective.entries) :
    let c := createCut objective isInt lp row rhs name forced
    (∃ x, c.efficacy = .fin x) ∧ (objective.entries ≠ [] → ∃ x, c.objectiveParallelism = .fin x) ∧
      (objective.entries = [] → c.objectiveParallelism = .nan) := by
  refine ⟨⟨_, computeEfficacy_fin hr hne rhs lp⟩, fun h => ⟨_, RDbl.div_pos ?_ _⟩, fun h => ?_⟩
  · apply Real.sqrt_pos.2
    have h1 := norm_pos hr hne
    have h2 := norm_pos ho h
    push_cast
    positivity
  · have h1 : row.dotProduct objective = 0 := by
      unfold dotProduct
      rw [h]
      cases row.entries <;> simp [dotWalk]
    simp [createCut, norm_zero h, h1, RDbl.div]

/-- **C61**, proved part.  The statistics `CreateCut` records with a cut: the number of non-zero
coefficients, the number of those on integer variables, the row, side, name and flag as
given, the efficacy, and, if neither the row nor the objective is zero, an objective
parallelism that is the absolute cosine of the angle between row and objective: it is within
[0, 1] and is 1 for a row that is a non-zero multiple of the objective.  Missing (and false, see
`C61_zero_objective_violated`): the parallelism for a zero objective. -/
theorem C61_cut_statistics_partial (objective lp row : SparseVector) (isInt : Int → Bool) (rhs : ℚ)
    (name : String) (forced : Bool) (hr : Clean row.entries) (ho : Clean objective.entries)
    (S : Finset Int) (hS : ∀ i, i ∈ S ↔ row.value i ≠ 0) :
    let c := createCut objective isInt lp row rhs name forced
    c.row = row ∧ c.rhs = rhs ∧ c.name = name ∧ c.forced = forced ∧
    c.numNonZeros = S.card ∧ c.numIntegers = (S.filter (fun i => isInt i = true)).card ∧
    c.numIntegers ≤ c.numNonZeros ∧
    c.efficacy = computeEfficacy row rhs lp ∧
    (row.entries ≠ [] → objective.entries ≠ [] → ∃ x : ℝ, c.objectiveParallelism = .fin x ∧ 0 ≤ x ∧ x ≤ 1 ∧
      ((∃ t : ℚ, ∀ i, row.value i = t * objective.value i) → x = 1)) := by
  intro c
  have hmap : S = (row.entries.map (·.index)).toFinset := by
    ext i
    rw [hS, List.mem_toFinset, List.mem_map]
    constructor
    · intro h
      obtain ⟨T, hT⟩ := exists_support row row row
      by_contra hc
      apply h
      rw [value, valueAt_eq_sumAt hr.1]
      exact sumAt_eq_zero fun e he hei => hc ⟨e, he, hei⟩
    · rintro ⟨e, he, rfl⟩
      rw [value, value_of_mem hr he]
      exact (hr.2 e he).1
  have hnd : (row.entries.map (·.index)).Nodup := by
    have := hr.1
    rw [List.Nodup, List.pairwise_map]
    exact this.imp (fun h => by omega)
  have hcov : Covers S row := fun i h => (hS i).2 h
  have hnn : (c.numNonZeros : Int) = S.card := by
    rw [hmap, List.toFinset_card_of_nodup hnd, List.length_map]; rfl
  have hni : c.numIntegers = (S.filter (fun i => isInt i = true)).card := by
    rw [hmap, ← List.toFinset_filter, List.toFinset_card_of_nodup (hnd.filter _), List.filter_map,
      List.length_map]
    rfl
  obtain ⟨T, hT⟩ := exists_support row objective objective
  have hTr : Covers T row := fun i h => hT i (Or.inl h)
  have hTo : Covers T objective := fun i h => hT i (Or.inr (Or.inl h))
  have h1 := dotProduct_real row objective hr ho T hTr
  have h2 := dotProduct_real row row hr hr T hTr
  have h3 := dotProduct_real objective objective ho ho T hTo
  have hcs := Finset.sum_mul_sq_le_sq_mul_sq T (fun i => (row.value i : ℝ))
      (fun i => (objective.value i : ℝ))
  simp only [sq (row.value _ : ℝ), sq (objective.value _ : ℝ), ← h1, ← h2, ← h3] at hcs
  refine ⟨rfl, rfl, rfl, rfl, hnn, hni, ?_, rfl, fun hone hobj => ?_⟩
  · rw [hnn, hni]; exact_mod_cast Finset.card_filter_le _ _
  have hrpos := norm_pos hr hone
  have hpos := norm_pos ho hobj
  refine ⟨_, RDbl.div_pos (Real.sqrt_pos.2 (by push_cast; positivity)) _, ?_, ?_, ?_⟩
  · positivity
  · apply div_le_one_of_le₀ _ (Real.sqrt_nonneg _)
    rw [← Real.sqrt_sq_eq_abs]
    apply Real.sqrt_le_sqrt
    push_cast
    exact hcs
  · rintro ⟨t, hval⟩
    have e1 : ((row.dotProduct objective : ℚ) : ℝ) = t * ((objective.dotProduct objective : ℚ) : ℝ) := by
      rw [h1, h3, Finset.mul_sum]
      apply Finset.sum_congr rfl
      intro i _; rw [hval]; push_cast; ring
    have e2 : ((row.dotProduct row : ℚ) : ℝ) = t ^ 2 * ((objective.dotProduct objective : ℚ) : ℝ) := by
      rw [h2, h3, Finset.mul_sum]
      apply Finset.sum_congr rfl
      intro i _; rw [hval]; push_cast; ring
    have ht : t ≠ 0 := by
      rintro rfl
      rw [e2] at hrpos
      simp at hrpos
    push_cast
    rw [e1, e2]
    set P : ℝ := ((objective.dotProduct objective : ℚ) : ℝ)
    have : (t : ℝ) ^ 2 * P * P = (t * P) ^ 2 := by ring
    rw [this, Real.sqrt_sq_eq_abs]
    apply div_self
    have : (t : ℝ) ≠ 0 := by exact_mod_cast ht
    exact abs_ne_zero.2 (mul_ne_zero this hpos.ne')

/-- Non-vacuity: the row is twice the objective. -/
example : Clean [⟨0, 2⟩] ∧ Clean [⟨0, 1⟩] ∧ ∀ i, (⟨[⟨0, 2⟩], false⟩ : SparseVector).value i =
    2 * (⟨[⟨0, 1⟩], false⟩ : SparseVector).value i := by
  refine ⟨by norm_num [Clean], by norm_num [Clean], fun i => ?_⟩
  simp only [value, valueAt_cons, valueAt_nil]
  split_ifs <;> norm_num

/-- C61 fails for a zero objective: the parallelism of every cut is NaN. -/
theorem C61_zero_objective_violated (lp row : SparseVector) (isInt : Int → Bool) (rhs : ℚ) (name : String)
    (forced : Bool) (objective : SparseVector) (ho : objective.entries = []) :
    (createCut objective isInt lp row rhs name forced).objectiveParallelism = .nan := by
  have h1 : row.dotProduct objective = 0 := by
    unfold dotProduct
    rw [ho]
    cases row.entries <;> simp [dotWalk]
  simp [createCut, norm_zero ho, h1, RDbl.div]

end MiniMip
