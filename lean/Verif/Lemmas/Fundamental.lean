import Verif.Lemmas.LinearProgram
import Mathlib.Tactic.Linarith
import Mathlib.Tactic.FieldSimp
import Mathlib.Tactic.Ring

/-!
# A linear program is infeasible, unbounded or has an optimum

Fourier–Motzkin elimination over the rationals.  It shows that the assumption "the LP code answers
rightly" of C75 can be met for every LP.
-/

namespace MiniMip
namespace Polyhedron

/-- An inequality `∑ a i * x i ≤ b`. -/
abbrev Ineq := (Nat → ℚ) × ℚ

/-- The left-hand side over the first `n` coordinates. -/
def lhs (n : Nat) (a : Nat → ℚ) (x : Nat → ℚ) : ℚ := ∑ i ∈ Finset.range n, a i * x i

/-- The points of a list of inequalities. -/
def Holds (n : Nat) (P : List Ineq) (x : Nat → ℚ) : Prop := ∀ p ∈ P, lhs n p.1 x ≤ p.2

theorem lhs_succ (n : Nat) (a x : Nat → ℚ) : lhs (n + 1) a x = lhs n a x + a n * x n :=
  Finset.sum_range_succ _ _

theorem lhs_comb (n : Nat) (a b : Nat → ℚ) (s t : ℚ) (x : Nat → ℚ) :
    lhs n (fun i => a i * s + b i * t) x = lhs n a x * s + lhs n b x * t := by
  simp only [lhs, Finset.sum_mul, ← Finset.sum_add_distrib]
  exact Finset.sum_congr rfl fun i _ => by ring

theorem lhs_congr {n : Nat} {a x y : Nat → ℚ} (h : ∀ i < n, x i = y i) : lhs n a x = lhs n a y :=
  Finset.sum_congr rfl fun i hi => by rw [h i (Finset.mem_range.mp hi)]

theorem exists_below (U : List ℚ) : ∃ t, ∀ u ∈ U, t ≤ u := by
  induction U with
  | nil => exact ⟨0, by simp⟩
  | cons u U ih =>
    obtain ⟨t, ht⟩ := ih
    refine ⟨min u t, fun v hv => ?_⟩
    rcases List.mem_cons.1 hv with rfl | hv
    · exact min_le_left _ _
    · exact (min_le_right _ _).trans (ht v hv)

theorem exists_between (L U : List ℚ) (h : ∀ l ∈ L, ∀ u ∈ U, l ≤ u) :
    ∃ t, (∀ l ∈ L, l ≤ t) ∧ ∀ u ∈ U, t ≤ u := by
  induction L with
  | nil => obtain ⟨t, ht⟩ := exists_below U; exact ⟨t, by simp, ht⟩
  | cons l L ih =>
    obtain ⟨t, h1, h2⟩ := ih fun l hl => h l (by simp [hl])
    refine ⟨max l t, fun v hv => ?_, fun u hu => max_le (h l (by simp) u hu) (h2 u hu)⟩
    rcases List.mem_cons.1 hv with rfl | hv
    · exact le_max_left _ _
    · exact (h1 v hv).trans (le_max_right _ _)

/-- Eliminating the last coordinate. -/
def eliminate (n : Nat) (P : List Ineq) : List Ineq :=
  P.filter (fun p => p.1 n = 0) ++
  (P.filter fun p => 0 < p.1 n).flatMap fun p =>
    (P.filter fun q => q.1 n < 0).map fun q =>
      (fun i => p.1 i * (-q.1 n) + q.1 i * p.1 n, p.2 * (-q.1 n) + q.2 * p.1 n)

theorem eliminate_spec (n : Nat) (P : List Ineq) (x : Nat → ℚ) :
    (∃ t, Holds (n + 1) P (Function.update x n t)) ↔ Holds n (eliminate n P) x := by
  have hx : ∀ t a, lhs (n + 1) a (Function.update x n t) = lhs n a x + a n * t := by
    intro t a
    rw [lhs_succ, Function.update_self, lhs_congr (y := x)]
    intro i hi
    rw [Function.update_of_ne (by omega)]
  constructor
  · rintro ⟨t, ht⟩ p hp
    rcases List.mem_append.1 hp with hp | hp
    · simp only [List.mem_filter, decide_eq_true_eq] at hp
      have := ht p hp.1
      rw [hx, hp.2] at this
      linarith
    · simp only [List.mem_flatMap, List.mem_map, List.mem_filter, decide_eq_true_eq] at hp
      obtain ⟨p1, ⟨h1, h2⟩, p2, ⟨h3, h4⟩, rfl⟩ := hp
      have k1 := ht p1 h1
      have k2 := ht p2 h3
      rw [hx] at k1 k2
      simp only [lhs_comb]
      nlinarith [mul_le_mul_of_nonneg_right k1 (show 0 ≤ -p2.1 n by linarith),
        mul_le_mul_of_nonneg_right k2 (le_of_lt h2)]
  · intro h
    obtain ⟨t, h1, h2⟩ := exists_between
      ((P.filter fun q => q.1 n < 0).map fun q => (q.2 - lhs n q.1 x) / q.1 n)
      ((P.filter fun q => 0 < q.1 n).map fun q => (q.2 - lhs n q.1 x) / q.1 n) (by
        intro l hl u hu
        simp only [List.mem_map, List.mem_filter, decide_eq_true_eq] at hl hu
        obtain ⟨q, ⟨hq, hq0⟩, rfl⟩ := hl
        obtain ⟨p, ⟨hp, hp0⟩, rfl⟩ := hu
        have := h _ (List.mem_append_right _ (List.mem_flatMap.2 ⟨p, by simp [hp, hp0],
          List.mem_map.2 ⟨q, by simp [hq, hq0], rfl⟩⟩))
        simp only [lhs_comb] at this
        rw [← neg_div_neg_eq, div_le_div_iff₀ (by linarith) hp0]
        linarith)
    refine ⟨t, fun p hp => ?_⟩
    rw [hx]
    rcases lt_trichotomy (p.1 n) 0 with hs | hs | hs
    · have := h1 _ (List.mem_map.2 ⟨p, by simp [hp, hs], rfl⟩)
      rw [div_le_iff_of_neg hs] at this
      linarith
    · have := h p (List.mem_append_left _ (by simp [hp, hs]))
      rw [hs]; linarith
    · have := h2 _ (List.mem_map.2 ⟨p, by simp [hp, hs], rfl⟩)
      rw [le_div_iff₀ hs] at this
      linarith

/-- The values of the first coordinate. -/
theorem project (n : Nat) : ∀ P : List Ineq, ∃ Q : List (ℚ × ℚ), ∀ z : ℚ,
    (∃ x : Nat → ℚ, x 0 = z ∧ Holds (n + 1) P x) ↔ ∀ q ∈ Q, q.1 * z ≤ q.2 := by
  induction n with
  | zero =>
    intro P
    refine ⟨P.map fun p => (p.1 0, p.2), fun z => ⟨?_, fun h => ⟨fun _ => z, rfl, fun p hp => ?_⟩⟩⟩
    · rintro ⟨x, rfl, hx⟩ q hq
      obtain ⟨p, hp, rfl⟩ := List.mem_map.1 hq
      simpa [lhs] using hx p hp
    · simpa [lhs] using h _ (List.mem_map.2 ⟨p, hp, rfl⟩)
  | succ n ih =>
    intro P
    obtain ⟨Q, hQ⟩ := ih (eliminate (n + 1) P)
    refine ⟨Q, fun z => ?_⟩
    rw [← hQ z]
    constructor
    · rintro ⟨x, hx, hP⟩
      exact ⟨x, hx, (eliminate_spec _ _ _).1 ⟨x (n + 1), by rw [Function.update_eq_self]; exact hP⟩⟩
    · rintro ⟨x, hx, hP⟩
      obtain ⟨t, ht⟩ := (eliminate_spec _ _ _).2 hP
      exact ⟨_, by rw [Function.update_of_ne (by omega)]; exact hx, ht⟩

/-- Inequalities in one variable: no solution, arbitrarily small ones, or a smallest one. -/
theorem one_variable (Q : List (ℚ × ℚ)) :
    (∀ z, ¬ ∀ q ∈ Q, q.1 * z ≤ q.2) ∨ (∀ B, ∃ z, (∀ q ∈ Q, q.1 * z ≤ q.2) ∧ z < B) ∨
      ∃ m, (∀ q ∈ Q, q.1 * m ≤ q.2) ∧ ∀ z, (∀ q ∈ Q, q.1 * z ≤ q.2) → m ≤ z := by
  by_cases h0 : ∃ z, ∀ q ∈ Q, q.1 * z ≤ q.2
  · right
    obtain ⟨z₀, hz⟩ := h0
    have hdown : ∀ z ≤ z₀, (∀ q ∈ Q, q.1 < 0 → q.2 / q.1 ≤ z) → ∀ q ∈ Q, q.1 * z ≤ q.2 := by
      intro z hle hl q hq
      by_cases hs : q.1 < 0
      · have := hl q hq hs
        rw [div_le_iff_of_neg hs] at this
        linarith
      · exact (mul_le_mul_of_nonneg_left hle (not_lt.1 hs)).trans (hz q hq)
    have hL : ∀ L : List ℚ, L = [] ∨ ∃ m ∈ L, ∀ l ∈ L, l ≤ m := by
      intro L
      induction L with
      | nil => exact Or.inl rfl
      | cons a L ih =>
        right
        rcases ih with rfl | ⟨m, hm, hmax⟩
        · exact ⟨a, by simp, by simp⟩
        · rcases le_total a m with ham | ham
          · exact ⟨m, by simp [hm], fun l hl => by
              rcases List.mem_cons.1 hl with rfl | hl
              · exact ham
              · exact hmax l hl⟩
          · exact ⟨a, by simp, fun l hl => by
              rcases List.mem_cons.1 hl with rfl | hl
              · exact le_refl _
              · exact (hmax l hl).trans ham⟩
    rcases hL ((Q.filter fun q => q.1 < 0).map fun q => q.2 / q.1) with hL | ⟨m, hm, hmax⟩
    · left
      intro B
      refine ⟨min z₀ (B - 1), hdown _ (min_le_left _ _) (fun q hq hs => ?_), ?_⟩
      · have : q.2 / q.1 ∈ (Q.filter fun q => q.1 < 0).map fun q => q.2 / q.1 :=
          List.mem_map.2 ⟨q, by simp [hq, hs], rfl⟩
        rw [hL] at this
        cases this
      · exact lt_of_le_of_lt (min_le_right _ _) (by linarith)
    · right
      obtain ⟨q₀, hq₀, rfl⟩ := List.mem_map.1 hm
      simp only [List.mem_filter, decide_eq_true_eq] at hq₀
      have hmin : ∀ z, (∀ q ∈ Q, q.1 * z ≤ q.2) → q₀.2 / q₀.1 ≤ z := by
        intro z hz
        rw [div_le_iff_of_neg hq₀.2, mul_comm]
        exact hz q₀ hq₀.1
      exact ⟨_, hdown _ (hmin z₀ hz) fun q hq hs =>
        hmax _ (List.mem_map.2 ⟨q, by simp [hq, hs], rfl⟩), hmin⟩
  · left
    push Not at h0
    intro z hz
    obtain ⟨q, hq, hlt⟩ := h0 z
    exact absurd (hz q hq) (not_le.2 hlt)

/-- Sets described by finitely many inequalities. -/
def Linear (n : Nat) (F : (Nat → ℚ) → Prop) : Prop := ∃ P, ∀ x, F x ↔ Holds n P x

theorem Linear.and {n : Nat} {F G : (Nat → ℚ) → Prop} (hF : Linear n F) (hG : Linear n G) :
    Linear n fun x => F x ∧ G x := by
  obtain ⟨P, hP⟩ := hF
  obtain ⟨Q, hQ⟩ := hG
  refine ⟨P ++ Q, fun x => ?_⟩
  simp only [hP, hQ, Holds, List.mem_append]
  exact ⟨fun ⟨h1, h2⟩ p hp => hp.elim (h1 p) (h2 p), fun h => ⟨fun p hp => h p (.inl hp), fun p hp => h p (.inr hp)⟩⟩

theorem Linear.forall_lt {n : Nat} {F : Nat → (Nat → ℚ) → Prop} (m : Nat) (h : ∀ i < m, Linear n (F i)) :
    Linear n fun x => ∀ i < m, F i x := by
  induction m with
  | zero => exact ⟨[], fun x => by simp [Holds]⟩
  | succ m ih =>
    obtain ⟨P, hP⟩ := (ih fun i hi => h i (by omega)).and (h m (by omega))
    refine ⟨P, fun x => ?_⟩
    rw [← hP x]
    refine ⟨fun k => ⟨fun i hi => k i (by omega), k m (by omega)⟩, fun ⟨k1, k2⟩ i hi => ?_⟩
    rcases Nat.lt_succ_iff_lt_or_eq.1 hi with hi | rfl
    · exact k1 i hi
    · exact k2

theorem lhs_neg (n : Nat) (a x : Nat → ℚ) : lhs n (fun i => -a i) x = -lhs n a x := by
  simp [lhs, Finset.sum_neg_distrib]

theorem Linear.between (n : Nat) (a : Nat → ℚ) (l u : Dbl) :
    Linear n fun x => Between l (lhs n a x) u := by
  have none : ∀ x, ¬ Holds n [((fun _ => 0, -1) : Ineq)] x := by
    intro x h
    have := h _ (List.mem_singleton.2 rfl)
    simp [lhs] at this
    linarith
  refine Linear.and ?_ ?_
  · cases l with
    | nan => exact ⟨_, fun x => ⟨fun h => by simp [Dbl.le] at h, fun h => absurd h (none x)⟩⟩
    | pinf => exact ⟨_, fun x => ⟨fun h => by simp [Dbl.le] at h, fun h => absurd h (none x)⟩⟩
    | ninf => exact ⟨[], fun x => by simp [Dbl.le, Holds]⟩
    | fin q =>
      refine ⟨[(fun i => -a i, -q)], fun x => ?_⟩
      simp only [Holds, List.mem_singleton, forall_eq, lhs_neg, Dbl.le_fin]
      constructor <;> intro h <;> linarith
  · cases u with
    | nan => exact ⟨_, fun x => ⟨fun h => by simp [Dbl.le] at h, fun h => absurd h (none x)⟩⟩
    | ninf => exact ⟨_, fun x => ⟨fun h => by simp [Dbl.le] at h, fun h => absurd h (none x)⟩⟩
    | pinf => exact ⟨[], fun x => by simp [Dbl.le, Holds]⟩
    | fin q =>
      refine ⟨[(a, q)], fun x => ?_⟩
      simp only [Holds, List.mem_singleton, forall_eq, Dbl.le_fin]

/-- The minimum of a linear function over a set described by inequalities. -/
theorem minimum {n : Nat} {F : (Nat → ℚ) → Prop} (hF : Linear n F) (c : Nat → ℚ) :
    (∀ x, ¬ F x) ∨ (∀ B, ∃ x, F x ∧ lhs n c x < B) ∨
      ∃ x, F x ∧ ∀ y, F y → lhs n c x ≤ lhs n c y := by
  obtain ⟨P, hP⟩ := hF
  -- a first coordinate for the objective
  let up : (Nat → ℚ) → Nat → ℚ := fun a i => if i = 0 then 0 else a (i - 1)
  let P' : List Ineq :=
    (fun i => if i = 0 then -1 else c (i - 1), 0) :: (fun i => if i = 0 then 1 else -c (i - 1), 0) ::
      P.map fun p => (up p.1, p.2)
  have hup : ∀ (s : ℚ) (a : Nat → ℚ) (x : Nat → ℚ),
      lhs (n + 1) (fun i => if i = 0 then s else a (i - 1)) x = s * x 0 + lhs n a fun i => x (i + 1) := by
    intro s a x
    rw [lhs, Finset.sum_range_succ']
    simp [lhs, add_comm]
  obtain ⟨Q, hQ⟩ := project n P'
  have key : ∀ z, (∀ q ∈ Q, q.1 * z ≤ q.2) ↔ ∃ x, F x ∧ lhs n c x = z := by
    intro z
    rw [← hQ z]
    constructor
    · rintro ⟨x, rfl, hx⟩
      have h1 := hx _ (List.mem_cons_self)
      have h2 := hx _ (List.mem_cons_of_mem _ List.mem_cons_self)
      have h2' : lhs (n + 1) (fun i => if i = 0 then (1 : ℚ) else (fun j => -c j) (i - 1)) x ≤ 0 := h2
      simp only [hup] at h1
      rw [hup 1 (fun j => -c j), lhs_neg] at h2'
      refine ⟨fun i => x (i + 1), (hP _).2 fun p hp => ?_, by linarith⟩
      have := hx (up p.1, p.2) (List.mem_cons_of_mem _ (List.mem_cons_of_mem _ (List.mem_map.2 ⟨p, hp, rfl⟩)))
      simp only [up, hup] at this
      linarith
    · rintro ⟨x, hx, rfl⟩
      let y : Nat → ℚ := fun i => if i = 0 then lhs n c x else x (i - 1)
      have hy : (fun i => y (i + 1)) = x := by funext i; simp [y]
      have hy0 : y 0 = lhs n c x := by simp [y]
      refine ⟨y, hy0, fun p hp => ?_⟩
      rcases List.mem_cons.1 hp with rfl | hp
      · simp only [hup, hy, hy0]; linarith
      rcases List.mem_cons.1 hp with rfl | hp
      · show lhs (n + 1) (fun i => if i = 0 then (1 : ℚ) else (fun j => -c j) (i - 1)) y ≤ 0
        rw [hup 1 (fun j => -c j), lhs_neg, hy, hy0]; linarith
      · obtain ⟨q, hq, rfl⟩ := List.mem_map.1 hp
        have := (hP x).1 hx q hq
        simp only [up, hup, hy]; linarith
  rcases one_variable Q with h | h | ⟨m, h1, h2⟩
  · left
    intro x hx
    exact h _ ((key _).2 ⟨x, hx, rfl⟩)
  · right; left
    intro B
    obtain ⟨z, hz, hlt⟩ := h B
    obtain ⟨x, hx, rfl⟩ := (key z).1 hz
    exact ⟨x, hx, hlt⟩
  · right; right
    obtain ⟨x, hx, rfl⟩ := (key m).1 h1
    exact ⟨x, hx, fun y hy => h2 _ ((key _).2 ⟨y, hy, rfl⟩)⟩

end Polyhedron

namespace Glop
open Polyhedron

/-- The feasible points of a stored LP, by inequalities. -/
theorem LinearProgram.linear (lp : LinearProgram) :
    Linear lp.cols.length fun x => lp.Feasible fun j => x j.toNat := by
  have h1 : Linear lp.cols.length fun x => ∀ c < lp.cols.length,
      Between ((lp.cols[c]?.map (·.lower)).getD .nan) (lhs lp.cols.length (fun i => if i = c then 1 else 0) x)
        ((lp.cols[c]?.map (·.upper)).getD .nan) :=
    Linear.forall_lt _ fun c _ => Linear.between _ _ _ _
  have h2 : Linear lp.cols.length fun x => ∀ r < lp.rows.length,
      Between ((lp.rows[r]?.map (·.lhs)).getD .nan) (lhs lp.cols.length (lp.coefficient r) x)
        ((lp.rows[r]?.map (·.rhs)).getD .nan) :=
    Linear.forall_lt _ fun c _ => Linear.between _ _ _ _
  obtain ⟨P, hP⟩ := h1.and h2
  refine ⟨P, fun x => ?_⟩
  rw [← hP x]
  unfold LinearProgram.Feasible
  refine and_congr ⟨fun h c hc => ?_, fun h c col hcol => ?_⟩ ⟨fun h r hr => ?_, fun h r row hrow => ?_⟩
  · have := h c _ (List.getElem?_eq_getElem hc)
    rw [List.getElem?_eq_getElem hc]
    simpa [lhs, hc] using this
  · have hc := (List.getElem?_eq_some_iff.mp hcol).1
    have := h c hc
    rw [hcol] at this
    simpa [lhs, hc] using this
  · have := h r _ (List.getElem?_eq_getElem hr)
    rw [List.getElem?_eq_getElem hr]
    simpa [lhs, LinearProgram.activity] using this
  · have hr := (List.getElem?_eq_some_iff.mp hrow).1
    have := h r hr
    rw [hrow] at this
    simpa [lhs, LinearProgram.activity] using this

/-- Every stored LP is infeasible, unbounded or has an optimum. -/
theorem LinearProgram.fundamental (lp : LinearProgram) :
    (∀ y, ¬ lp.Feasible y) ∨
    (∀ B : ℚ, ∃ y, lp.Feasible y ∧ if lp.maximize then B < lp.value y else lp.value y < B) ∨
    ∃ x : Nat → ℚ, lp.Feasible (fun j => x j.toNat) ∧ ∀ y, lp.Feasible y →
      if lp.maximize then lp.value y ≤ lp.value (fun j => x j.toNat)
      else lp.value (fun j => x j.toNat) ≤ lp.value y := by
  have hv : ∀ x : Nat → ℚ, lp.value (fun j => x j.toNat) =
      lhs lp.cols.length (fun c => (lp.cols[c]?.map (·.objective)).getD 0) x := by
    intro x; simp [lhs, LinearProgram.value]
  have hc : ∀ y : Int → ℚ, (lp.Feasible y ↔ lp.Feasible fun j => y ((j.toNat : Nat) : Int)) ∧
      lp.value y = lp.value fun j => y ((j.toNat : Nat) : Int) := by
    intro y
    have := lp.congr (x := y) (y := fun j => y ((j.toNat : Nat) : Int)) (by intro c _; simp)
    exact ⟨this.1, this.2.1⟩
  cases hm : lp.maximize with
  | false =>
    simp only [Bool.false_eq_true, if_false]
    rcases minimum lp.linear (fun c => (lp.cols[c]?.map (·.objective)).getD 0) with h | h | ⟨x, h1, h2⟩
    · left
      intro y hy
      exact h (fun n => y n) ((hc y).1.1 hy)
    · right; left
      intro B
      obtain ⟨x, hx, hlt⟩ := h B
      exact ⟨_, hx, by rw [hv]; exact hlt⟩
    · right; right
      refine ⟨x, h1, fun y hy => ?_⟩
      have := h2 (fun n => y n) ((hc y).1.1 hy)
      rw [(hc y).2, hv, hv (fun n => y n)]
      exact this
  | true =>
    simp only [if_true]
    have hn : ∀ x, lhs lp.cols.length (fun c => -((lp.cols[c]?.map (·.objective)).getD 0)) x =
        -lhs lp.cols.length (fun c => (lp.cols[c]?.map (·.objective)).getD 0) x := fun x => lhs_neg _ _ _
    rcases minimum lp.linear (fun c => -((lp.cols[c]?.map (·.objective)).getD 0)) with h | h | ⟨x, h1, h2⟩
    · left
      intro y hy
      exact h (fun n => y n) ((hc y).1.1 hy)
    · right; left
      intro B
      obtain ⟨x, hx, hlt⟩ := h (-B)
      refine ⟨_, hx, ?_⟩
      rw [hn] at hlt
      rw [hv]
      linarith
    · right; right
      refine ⟨x, h1, fun y hy => ?_⟩
      have := h2 (fun n => y n) ((hc y).1.1 hy)
      rw [hn, hn] at this
      rw [(hc y).2, hv, hv (fun n => y n)]
      linarith

end Glop
end MiniMip
