import Verif.Lemmas.Fundamental

/-!
# Rays of unbounded linear programs

If a linear function is unbounded on the points of finitely many inequalities with rational numbers, there is an integral
direction along which it decreases and that does not leave the points.
-/

namespace MiniMip
namespace Polyhedron

/-- The same inequalities with right-hand sides zero. -/
def homogeneous (P : List Ineq) : List Ineq := P.map fun p => (p.1, 0)

theorem eliminate_homogeneous (n : Nat) (P : List Ineq) :
    eliminate n (homogeneous P) = homogeneous (eliminate n P) := by
  simp only [eliminate, homogeneous, List.map_append, List.filter_map, List.map_flatMap, List.flatMap_map, List.map_map]
  congr 1
  apply List.flatMap_congr
  intro p _
  apply List.map_congr_left
  intro q _
  simp

theorem project_homogeneous (n : Nat) : ∀ P : List Ineq, ∃ Q : List (ℚ × ℚ), ∀ z : ℚ,
    ((∃ x : Nat → ℚ, x 0 = z ∧ Holds (n + 1) P x) ↔ ∀ q ∈ Q, q.1 * z ≤ q.2) ∧
    ((∃ x : Nat → ℚ, x 0 = z ∧ Holds (n + 1) (homogeneous P) x) ↔ ∀ q ∈ Q, q.1 * z ≤ 0) := by
  induction n with
  | zero =>
    intro P
    refine ⟨P.map fun p => (p.1 0, p.2), fun z => ⟨⟨?_, fun h => ⟨fun _ => z, rfl, fun p hp => ?_⟩⟩,
      ?_, fun h => ⟨fun _ => z, rfl, fun p hp => ?_⟩⟩⟩
    · rintro ⟨x, rfl, hx⟩ q hq
      obtain ⟨p, hp, rfl⟩ := List.mem_map.1 hq
      simpa [lhs] using hx p hp
    · simpa [lhs] using h _ (List.mem_map.2 ⟨p, hp, rfl⟩)
    · rintro ⟨x, rfl, hx⟩ q hq
      obtain ⟨p, hp, rfl⟩ := List.mem_map.1 hq
      simpa [lhs] using hx _ (List.mem_map.2 ⟨p, hp, rfl⟩)
    · obtain ⟨q, hq, rfl⟩ := List.mem_map.1 hp
      simpa [lhs] using h _ (List.mem_map.2 ⟨q, hq, rfl⟩)
  | succ n ih =>
    intro P
    have step : ∀ (P : List Ineq) (z : ℚ), (∃ x : Nat → ℚ, x 0 = z ∧ Holds (n + 1 + 1) P x) ↔
        ∃ x : Nat → ℚ, x 0 = z ∧ Holds (n + 1) (eliminate (n + 1) P) x := by
      intro P z
      constructor
      · rintro ⟨x, hx, hP⟩
        exact ⟨x, hx, (eliminate_spec _ _ _).1 ⟨x (n + 1), by rw [Function.update_eq_self]; exact hP⟩⟩
      · rintro ⟨x, hx, hP⟩
        obtain ⟨t, ht⟩ := (eliminate_spec _ _ _).2 hP
        exact ⟨_, by rw [Function.update_of_ne (by omega)]; exact hx, ht⟩
    obtain ⟨Q, hQ⟩ := ih (eliminate (n + 1) P)
    refine ⟨Q, fun z => ?_⟩
    rw [step, step, eliminate_homogeneous]
    exact hQ z

/-- The inequalities with the value of `c` as a first coordinate. -/
def withValue (c : Nat → ℚ) (P : List Ineq) : List Ineq :=
  (fun i => if i = 0 then -1 else c (i - 1), 0) :: (fun i => if i = 0 then 1 else -c (i - 1), 0) ::
    P.map fun p => (fun i => if i = 0 then 0 else p.1 (i - 1), p.2)

theorem withValue_homogeneous (c : Nat → ℚ) (P : List Ineq) :
    homogeneous (withValue c P) = withValue c (homogeneous P) := by
  simp [homogeneous, withValue]

theorem withValue_spec (n : Nat) (c : Nat → ℚ) (P : List Ineq) (z : ℚ) :
    (∃ x : Nat → ℚ, x 0 = z ∧ Holds (n + 1) (withValue c P) x) ↔ ∃ x, Holds n P x ∧ lhs n c x = z := by
  have hup : ∀ (s : ℚ) (a : Nat → ℚ) (x : Nat → ℚ),
      lhs (n + 1) (fun i => if i = 0 then s else a (i - 1)) x = s * x 0 + lhs n a fun i => x (i + 1) := by
    intro s a x
    rw [lhs, Finset.sum_range_succ']
    simp [lhs, add_comm]
  constructor
  · rintro ⟨x, rfl, hx⟩
    have h1 := hx _ (List.mem_cons_self)
    have h2 := hx _ (List.mem_cons_of_mem _ List.mem_cons_self)
    have h2' : lhs (n + 1) (fun i => if i = 0 then (1 : ℚ) else (fun j => -c j) (i - 1)) x ≤ 0 := h2
    simp only [hup] at h1
    rw [hup 1 (fun j => -c j), lhs_neg] at h2'
    refine ⟨fun i => x (i + 1), fun p hp => ?_, by linarith⟩
    have := hx _ (List.mem_cons_of_mem _ (List.mem_cons_of_mem _ (List.mem_map.2 ⟨p, hp, rfl⟩)))
    simp only [hup] at this
    linarith
  · rintro ⟨x, hx, rfl⟩
    let y : Nat → ℚ := fun i => if i = 0 then lhs n c x else x (i - 1)
    have hy : (fun i => y (i + 1)) = x := by funext i; simp [y]
    have hy0 : y 0 = lhs n c x := by simp [y]
    refine ⟨y, hy0, fun p hp => ?_⟩
    rcases List.mem_cons.1 hp with rfl | hp
    · simp only [hup, hy, hy0]; linarith
    rcases List.mem_cons.1 hp with rfl | hp
    · show lhs (n + 1) (fun i => if i = 0 then (1 : ℚ) else (fun j => -c j) (i - 1)) y ≤ 0
      rw [hup 1 (fun j => -c j), lhs_neg, hy, hy0]; linarith
    · obtain ⟨q, hq, rfl⟩ := List.mem_map.1 hp
      have := hx q hq
      simp only [hup, hy]; linarith

/-- A linear function that is unbounded decreases along a ray. -/
theorem exists_ray {n : Nat} {P : List Ineq} {c : Nat → ℚ} (h : ∀ B, ∃ x, Holds n P x ∧ lhs n c x < B) :
    ∃ d, Holds n (homogeneous P) d ∧ lhs n c d = -1 := by
  obtain ⟨Q, hQ⟩ := project_homogeneous n (withValue c P)
  rw [← withValue_spec, ← withValue_homogeneous, (hQ _).2]
  intro q hq
  by_contra hlt
  have hneg : q.1 < 0 := by linarith
  obtain ⟨x, hx, hv⟩ := h (q.2 / q.1)
  have := ((hQ _).1.1 ((withValue_spec n c P _).2 ⟨x, hx, rfl⟩)) q hq
  rw [lt_div_iff_of_neg hneg] at hv
  linarith

theorem lhs_smul (n : Nat) (a x : Nat → ℚ) (t : ℚ) : lhs n a (fun i => t * x i) = t * lhs n a x := by
  simp only [lhs, Finset.mul_sum]
  exact Finset.sum_congr rfl fun i _ => by ring

theorem lhs_add (n : Nat) (a x y : Nat → ℚ) : lhs n a (fun i => x i + y i) = lhs n a x + lhs n a y := by
  simp only [lhs, ← Finset.sum_add_distrib]
  exact Finset.sum_congr rfl fun i _ => by ring

/-- A common denominator. -/
theorem exists_scale (n : Nat) (d : Nat → ℚ) : ∃ D : Nat, 0 < D ∧ ∀ i < n, ∃ k : Int, (D : ℚ) * d i = k := by
  induction n with
  | zero => exact ⟨1, by norm_num, by simp⟩
  | succ n ih =>
    obtain ⟨D, hD, h⟩ := ih
    refine ⟨D * (d n).den, Nat.mul_pos hD (d n).den_pos, fun i hi => ?_⟩
    by_cases hin : i = n
    · subst hin
      refine ⟨D * (d i).num, ?_⟩
      have := Rat.den_mul_eq_num (d i)
      push_cast
      rw [mul_assoc, this]
    · obtain ⟨k, hk⟩ := h i (by omega)
      refine ⟨k * (d n).den, ?_⟩
      push_cast
      rw [← hk]; ring

/-- An integral direction along which an unbounded linear function decreases, from every point. -/
theorem exists_integral_ray {n : Nat} {F : (Nat → ℚ) → Prop} (hF : Linear n F) {c : Nat → ℚ}
    (h : ∀ B, ∃ x, F x ∧ lhs n c x < B) :
    ∃ d : Nat → ℚ, (∀ i, ∃ k : Int, d i = k) ∧ lhs n c d < 0 ∧
      ∀ x, F x → ∀ t : ℚ, 0 ≤ t → F fun i => x i + t * d i := by
  obtain ⟨P, hP⟩ := hF
  obtain ⟨d, hd, hv⟩ := exists_ray (n := n) (P := P) (c := c) fun B => by
    obtain ⟨x, hx, hlt⟩ := h B
    exact ⟨x, (hP x).1 hx, hlt⟩
  obtain ⟨D, hD, hk⟩ := exists_scale n d
  have hD' : (0 : ℚ) < D := by exact_mod_cast hD
  let d' : Nat → ℚ := fun i => if i < n then D * d i else 0
  have hd' : ∀ a, lhs n a d' = D * lhs n a d := by
    intro a
    rw [← lhs_smul]
    exact lhs_congr fun i hi => by simp [d', hi]
  refine ⟨d', fun i => ?_, ?_, fun x hx t ht => (hP _).2 fun p hp => ?_⟩
  · by_cases hi : i < n
    · simp only [d', hi, if_true]; exact hk i hi
    · exact ⟨0, by simp [d', hi]⟩
  · rw [hd', hv]; linarith
  · have h1 := (hP x).1 hx p hp
    have h2 := hd _ (List.mem_map.2 ⟨p, hp, rfl⟩)
    rw [lhs_add n p.1 x fun i => t * d' i, lhs_smul, hd']
    have : t * (D * lhs n p.1 d) ≤ 0 := mul_nonpos_of_nonneg_of_nonpos ht (mul_nonpos_of_nonneg_of_nonpos hD'.le h2)
    linarith

end Polyhedron

namespace Glop
open Polyhedron

/-- The feasible points of an LP, by inequalities. -/
theorem LpSpec.linear (s : LpSpec) : Linear s.numCols fun x => s.Feasible fun j => x j.toNat := by
  have h1 : Linear s.numCols fun x => ∀ c < s.numCols,
      Between (s.lower c) (Polyhedron.lhs s.numCols (fun i => if i = c then 1 else 0) x) (s.upper c) :=
    Linear.forall_lt _ fun c _ => Linear.between _ _ _ _
  have h2 : Linear s.numCols fun x => ∀ r < s.numRows, Between (s.lhs r) (Polyhedron.lhs s.numCols (s.coef r) x) (s.rhs r) :=
    Linear.forall_lt _ fun c _ => Linear.between _ _ _ _
  obtain ⟨P, hP⟩ := h1.and h2
  refine ⟨P, fun x => ?_⟩
  rw [← hP x]
  unfold LpSpec.Feasible
  refine and_congr (forall₂_congr fun c hc => ?_) (forall₂_congr fun r hr => ?_)
  · simp [Polyhedron.lhs, hc]
  · simp [Polyhedron.lhs]

end Glop
end MiniMip
