import Verif.Model.Branching
import Verif.Props.MipData
import Verif.Lemmas.MipTree

/-!
# C42, C43: the branching rules
-/

namespace MiniMip
namespace Branching

/-- `x` is farther than `tol` from every integer. -/
def Fractional (tol x : ℚ) : Prop := ∀ k : Int, tol < |x - k|

theorem not_within_iff (tol x : ℚ) :
    Generator.isIntegerWithinTolerance tol x = false ↔ Fractional tol x := by
  unfold Generator.isIntegerWithinTolerance Fractional
  rw [decide_eq_false_iff_not, near_round_iff]
  push Not
  rfl

theorem Fractional.not_int {tol x : ℚ} (h : Fractional tol x) (ht : 0 ≤ tol) : ¬ ∃ k : Int, x = k := by
  rintro ⟨k, hk⟩
  have := h k
  rw [hk] at this
  simp at this
  linarith

theorem Fractional.part_pos {tol x : ℚ} (h : Fractional tol x) (ht : 0 ≤ tol) : 0 < x - ⌊x⌋ := by
  have h1 := Int.floor_le x
  rcases lt_or_eq_of_le h1 with h2 | h2
  · linarith
  · exact absurd ⟨⌊x⌋, h2.symm⟩ (h.not_int ht)

theorem scan_spec (tol : ℚ) (values : List ℚ) (l : List Int) :
    ∀ (best : ℚ × Int), (∀ j ∈ l, 0 ≤ j ∧ j < values.length) →
    ∃ p i, scan tol values best l = .ok (p, i) ∧ best.1 ≤ p ∧
      ((p, i) = best ∨ (∃ (n : Nat) (x : ℚ), i = n ∧ (n : Int) ∈ l ∧ values[n]? = some x ∧
        Fractional tol x ∧ p = x - ⌊x⌋ ∧ best.1 < p)) ∧
      ∀ (n : Nat) (x : ℚ), (n : Int) ∈ l → values[n]? = some x → Fractional tol x → x - ⌊x⌋ ≤ p := by
  induction l with
  | nil => intro best _; exact ⟨best.1, best.2, rfl, le_refl _, Or.inl rfl, by simp⟩
  | cons j r ih =>
    intro best hl
    obtain ⟨h0, h1⟩ := hl j (by simp)
    obtain ⟨n, rfl⟩ := Int.eq_ofNat_of_zero_le h0
    have hn : n < values.length := by omega
    have hx : values[n]? = some values[n] := by simp [hn]
    have habs : |values[n] - (⌊values[n]⌋ : ℚ)| = values[n] - ⌊values[n]⌋ :=
      abs_of_nonneg (by have := Int.floor_le values[n]; linarith)
    unfold scan
    rw [vecGet_some hx]
    simp only [Outcome.bind_ok, habs]
    cases hint : Generator.isIntegerWithinTolerance tol values[n] with
    | true =>
      obtain ⟨p, i, h2, h3, h4, h5⟩ := ih best (fun k hk => hl k (by simp [hk]))
      refine ⟨p, i, by simpa using h2, h3, ?_, ?_⟩
      · rcases h4 with h4 | ⟨m, x, ha, hb, hc⟩
        · exact Or.inl h4
        · exact Or.inr ⟨m, x, ha, by simp [hb], hc⟩
      · intro m x hm hmx hf
        rcases List.mem_cons.1 hm with hm | hm
        · have : m = n := by omega
          subst this
          rw [hx] at hmx; simp only [Option.some.injEq] at hmx; subst hmx
          rw [(not_within_iff _ _).2 hf] at hint; cases hint
        · exact h5 m x hm hmx hf
    | false =>
      have hfr := (not_within_iff _ _).1 hint
      simp only [Bool.false_eq_true, if_false]
      by_cases hgt : values[n] - (⌊values[n]⌋ : ℚ) > best.1
      · rw [if_pos hgt]
        obtain ⟨p, i, h2, h3, h4, h5⟩ := ih (values[n] - ⌊values[n]⌋, (n : Int))
          (fun k hk => hl k (by simp [hk]))
        simp only at h3 h4
        refine ⟨p, i, h2, by linarith, Or.inr ?_, ?_⟩
        · rcases h4 with h4 | ⟨m, x, ha, hb, hc, hd, he, hf⟩
          · simp only [Prod.mk.injEq] at h4
            exact ⟨n, values[n], h4.2, by simp, hx, hfr, h4.1, by rw [h4.1]; exact hgt⟩
          · exact ⟨m, x, ha, by simp [hb], hc, hd, he, by linarith⟩
        · intro m x hm hmx hf
          rcases List.mem_cons.1 hm with hm | hm
          · have : m = n := by omega
            subst this
            rw [hx] at hmx; simp only [Option.some.injEq] at hmx; subst hmx
            exact h3
          · exact h5 m x hm hmx hf
      · rw [if_neg hgt]
        obtain ⟨p, i, h2, h3, h4, h5⟩ := ih best (fun k hk => hl k (by simp [hk]))
        refine ⟨p, i, h2, h3, ?_, ?_⟩
        · rcases h4 with h4 | ⟨m, x, ha, hb, hc⟩
          · exact Or.inl h4
          · exact Or.inr ⟨m, x, ha, by simp [hb], hc⟩
        · intro m x hm hmx hf
          rcases List.mem_cons.1 hm with hm | hm
          · have : m = n := by omega
            subst this
            rw [hx] at hmx; simp only [Option.some.injEq] at hmx; subst hmx
            linarith
          · exact h5 m x hm hmx hf

/-- The distance to the nearest integer, as a specification: the least distance to an
integer. -/
def IsDistance (x dist : ℚ) : Prop := (∃ k : Int, |x - k| = dist) ∧ ∀ k : Int, dist ≤ |x - k|

/-- **C42, what holds.**  For every LP solution with a value per integer variable in which
some integer variable is farther than the tolerance from every integer, the
max-fractional rule returns (for every iteration order of the set of integer variables) an
integer variable that is farther than the tolerance from every integer, and whose value
minus its floor is the largest among those variables.  It goes up first exactly when the
direction is UP, or is unspecified and that difference is at most one half.

Missing for C42: the rule maximises `value - floor(value)` instead of the distance to the
nearest integer; see `C42_distance_violated`. -/
theorem C42_max_fractional_partial (unset : Int) (dir : Direction) (tol : ℚ) (htol : 0 ≤ tol)
    (ints : List Int) (values : List ℚ) (hl : ∀ j ∈ ints, 0 ≤ j ∧ j < values.length)
    (hfrac : ∃ (n : Nat) (x : ℚ), (n : Int) ∈ ints ∧ values[n]? = some x ∧ Fractional tol x) :
    ∃ (n : Nat) (x : ℚ) (up : Bool), maxFractional unset dir tol ints (.ok values) = .ok ((n : Int), up) ∧
      (n : Int) ∈ ints ∧ values[n]? = some x ∧ Fractional tol x ∧
      (∀ (m : Nat) (y : ℚ), (m : Int) ∈ ints → values[m]? = some y → Fractional tol y →
        y - ⌊y⌋ ≤ x - ⌊x⌋) ∧
      (up = true ↔ dir = .up ∨ (dir = .unspecified ∧ x - ⌊x⌋ ≤ 1 / 2)) := by
  obtain ⟨p, i, h1, -, h3, h4⟩ := scan_spec tol values ints (0, unset) hl
  obtain ⟨m, y, hm, hy, hf⟩ := hfrac
  have hpos : 0 < p := lt_of_lt_of_le (hf.part_pos htol) (h4 m y hm hy hf)
  rcases h3 with h3 | ⟨n, x, rfl, hn, hx, hfx, rfl, -⟩
  · simp only [Prod.mk.injEq] at h3; linarith [h3.1]
  · refine ⟨n, x, (if dir = .unspecified then decide (x - ⌊x⌋ ≤ 1 / 2) else decide (dir = .up)),
      ?_, hn, hx, hfx, h4, ?_⟩
    · have hne : ints ≠ [] := by rintro rfl; simp at hn
      unfold maxFractional
      rw [if_pos hne]
      simp only [h1, Outcome.bind_ok]
      rfl
    · cases dir <;> simp

/-- Two fractional and one integral integer variable and a continuous one; the rule picks
column 2 (part 7/10) and, the direction being unspecified, goes down first. -/
example : (∃ (n : Nat) (x : ℚ), (n : Int) ∈ [3, 0, 2] ∧ [1 / 3, 5 / 7, -(23 / 10), 4][n]? = some x ∧
      Fractional (1 / 1000000) x) ∧
    maxFractional (-1) .unspecified (1 / 1000000) [3, 0, 2] (.ok [1 / 3, 5 / 7, -(23 / 10), 4]) =
      .ok (2, false) := by
  constructor
  · refine ⟨0, 1 / 3, by simp, by simp, ?_⟩
    rw [← not_within_iff]
    decide +kernel
  · decide +kernel

/-- If in addition every fractional integer variable has `value - floor(value)` at most one
half, the variable returned is one of largest distance to the nearest integer. -/
theorem C42_distance_partial (unset : Int) (dir : Direction) (tol : ℚ) (htol : 0 ≤ tol)
    (ints : List Int) (values : List ℚ) (hl : ∀ j ∈ ints, 0 ≤ j ∧ j < values.length)
    (hfrac : ∃ (n : Nat) (x : ℚ), (n : Int) ∈ ints ∧ values[n]? = some x ∧ Fractional tol x)
    (hhalf : ∀ (m : Nat) (y : ℚ), (m : Int) ∈ ints → values[m]? = some y → Fractional tol y →
      y - ⌊y⌋ ≤ 1 / 2) :
    ∃ (n : Nat) (x : ℚ) (up : Bool) (dist : ℚ),
      maxFractional unset dir tol ints (.ok values) = .ok ((n : Int), up) ∧
      values[n]? = some x ∧ IsDistance x dist ∧
      ∀ (m : Nat) (y disty : ℚ), (m : Int) ∈ ints → values[m]? = some y → Fractional tol y →
        IsDistance y disty → disty ≤ dist := by
  have key : ∀ y : ℚ, y - ⌊y⌋ ≤ 1 / 2 → IsDistance y (y - ⌊y⌋) := by
    intro y hy
    have hf := Int.floor_le y
    refine ⟨⟨⌊y⌋, abs_of_nonneg (by linarith)⟩, fun k => ?_⟩
    rcases le_or_gt k ⌊y⌋ with hk | hk
    · have : (k : ℚ) ≤ ⌊y⌋ := by exact_mod_cast hk
      rw [abs_of_nonneg (by linarith)]; linarith
    · have : (⌊y⌋ : ℚ) + 1 ≤ k := by exact_mod_cast hk
      have h2 := Int.lt_floor_add_one y
      rw [abs_of_nonpos (by linarith)]; linarith
  obtain ⟨n, x, up, h1, h2, h3, h4, h5, -⟩ :=
    C42_max_fractional_partial unset dir tol htol ints values hl hfrac
  refine ⟨n, x, up, x - ⌊x⌋, h1, h3, key x (hhalf n x h2 h3 h4), ?_⟩
  rintro m y disty hm hy hf ⟨⟨k, hk⟩, hd⟩
  have := h5 m y hm hy hf
  have h6 := hd ⌊y⌋
  rw [abs_of_nonneg (by have := Int.floor_le y; linarith)] at h6
  linarith

/-- The extra hypothesis is met by a solution with parts 1/3 and 2/5. -/
example : ∀ (m : Nat) (y : ℚ), (m : Int) ∈ [(0 : Int), 1] → [(7 / 3 : ℚ), 2 / 5][m]? = some y →
    Fractional 0 y → y - ⌊y⌋ ≤ 1 / 2 := by
  intro m y hm hy _
  simp only [List.mem_cons, List.not_mem_nil, or_false] at hm
  rcases hm with hm | hm
  · obtain rfl : m = 0 := by omega
    simp at hy; subst hy; norm_num
  · obtain rfl : m = 1 := by omega
    simp at hy; subst hy; norm_num

/-- **C42 fails.**  With values 1/2 and 9/10 of two integer variables the rule picks the
second one, whose distance to the nearest integer is 1/10, although the first one has
distance 1/2. -/
theorem C42_distance_violated :
    maxFractional (-1) .unspecified (1 / 1000000) [0, 1] (.ok [1 / 2, 9 / 10]) = .ok (1, false) ∧
    IsDistance (9 / 10) (1 / 10) ∧ IsDistance (1 / 2) (1 / 2) ∧
    Fractional (1 / 1000000) (1 / 2) := by
  refine ⟨by decide +kernel, ⟨⟨1, by norm_num [abs_of_nonpos]⟩, fun k => ?_⟩,
    ⟨⟨0, by norm_num [abs_of_nonneg]⟩, fun k => ?_⟩, ?_⟩
  · rcases le_or_gt k 0 with hk | hk
    · have : (k : ℚ) ≤ 0 := by exact_mod_cast hk
      rw [abs_of_nonneg (by linarith)]; linarith
    · have : (1 : ℚ) ≤ k := by exact_mod_cast hk
      rw [abs_of_nonpos (by linarith)]; linarith
  · rcases le_or_gt k 0 with hk | hk
    · have : (k : ℚ) ≤ 0 := by exact_mod_cast hk
      rw [abs_of_nonneg (by linarith)]; linarith
    · have : (1 : ℚ) ≤ k := by exact_mod_cast hk
      rw [abs_of_nonpos (by linarith)]; linarith
  · rw [← not_within_iff]; decide +kernel

/-- Without integer variables the rules return an error. -/
theorem C42_C43_no_integer_variables (unset : Int) (dir : Direction) (tol : ℚ) (values : List ℚ)
    (draw : Nat) :
    (∃ e, maxFractional unset dir tol [] (.ok values) = .error e) ∧
    ∃ e, random dir [] draw = .error e := ⟨⟨_, rfl⟩, ⟨_, rfl⟩⟩

/-- **C43 fails**, in both ways: with columns 0 (continuous) and 1 (integer) every draw
returns the continuous column 0; with integer columns 0 and 1 and LP values 0 and 1/2 the
draw 0 returns the column whose value is integral. -/
theorem C43_random_violated :
    (∀ draw dir, ∃ up, random dir [1] draw = .ok (0, up)) ∧ (0 : Int) ∉ [(1 : Int)] ∧
    random .down [0, 1] 0 = .ok (0, false) ∧ [(0 : ℚ), 1 / 2][0]? = some 0 ∧
      ¬ Fractional (1 / 1000000) 0 := by
  refine ⟨fun draw dir => ⟨decide (dir = .up), ?_⟩, by simp, by decide, by simp, ?_⟩
  · simp [random, Nat.mod_one]
  · intro h
    have := h 0
    norm_num at this

/-- **C43, what holds.**  When there are integer variables the rule returns for every draw
an index below their number; if the integer variables are the first columns, this is an
integer variable.  It goes up first exactly when the direction is UP.  Every index below
the number is returned for some draw. -/
theorem C43_random_partial (dir : Direction) (ints : List Int) (hne : ints ≠ []) :
    (∀ draw, ∃ (n : Nat) (up : Bool), random dir ints draw = .ok ((n : Int), up) ∧ n < ints.length ∧
      (up = true ↔ dir = .up) ∧
      ((∀ j : Int, j ∈ ints ↔ 0 ≤ j ∧ j < ints.length) → (n : Int) ∈ ints)) ∧
    ∀ n < ints.length, ∃ draw up, random dir ints draw = .ok ((n : Int), up) := by
  have hpos : 0 < ints.length := List.length_pos_iff.2 hne
  constructor
  · intro draw
    refine ⟨draw % ints.length, decide (dir = .up), by simp [random, hpos],
      Nat.mod_lt _ hpos, by simp, fun h => (h _).2 ⟨by omega, ?_⟩⟩
    have := Nat.mod_lt draw hpos
    exact_mod_cast this
  · intro n hn
    exact ⟨n, decide (dir = .up), by simp [random, hpos, Nat.mod_eq_of_lt hn]⟩

example : ([0, 1, 2] : List Int) ≠ [] ∧
    ∀ j : Int, j ∈ [(0 : Int), 1, 2] ↔ 0 ≤ j ∧ j < ([0, 1, 2] : List Int).length := by
  refine ⟨by simp, fun j => ?_⟩
  simp only [List.mem_cons, List.not_mem_nil, or_false, List.length_cons, List.length_nil]
  omega

/-- The factory returns the rule whose parameters are set, with the direction given, and an
error if none is set. -/
theorem create_spec (dir : Direction) :
    create .random dir = .ok (.random dir) ∧ create .maxFractional dir = .ok (.maxFractional dir) ∧
    ∃ e, create .none dir = .error e := ⟨rfl, rfl, _, rfl⟩

end Branching
end MiniMip
