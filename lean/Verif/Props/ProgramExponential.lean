import Verif.Props.ProgramRange

/-!
# C107: how many iterations `Solve` needs

C78 bounds the iterations of `Solve` by twice the number of integer points within the bounds.  That is exponential in the
number of integer variables, and no bound that is not exponential holds: there are problems with one constraint on which
`Solve` needs exponentially many iterations whatever the LP code answers.
-/

namespace MiniMip
namespace Solver

variable {W : Type}

open Classical in
/-- The most iterations that a box is known to need: `2 ^ (l + 1) - 1` for the largest level `l` it has. -/
noncomputable def need (Level : Nat → Box → Prop) (top : Nat) (b : Box) : Nat :=
  (Finset.range (top + 1)).sup fun l => if Level l b then 2 ^ (l + 1) - 1 else 0

theorem need_ge {Level : Nat → Box → Prop} {top l : Nat} {b : Box} (hl : l ≤ top) (h : Level l b) :
    2 ^ (l + 1) - 1 ≤ need Level top b := by
  classical
  have := Finset.le_sup (f := fun l => if Level l b then 2 ^ (l + 1) - 1 else 0)
    (Finset.mem_range.2 (Nat.lt_succ_of_le hl))
  simp only [h, if_true] at this
  exact this

theorem need_cases (Level : Nat → Box → Prop) (top : Nat) (b : Box) :
    need Level top b ≤ 1 ∨ ∃ l, l + 1 ≤ top ∧ Level (l + 1) b ∧ need Level top b = 2 ^ (l + 2) - 1 := by
  classical
  obtain ⟨l, hl, h⟩ := Finset.exists_mem_eq_sup (Finset.range (top + 1)) ⟨0, by simp⟩
    (fun l => if Level l b then 2 ^ (l + 1) - 1 else 0)
  have h : need Level top b = if Level l b then 2 ^ (l + 1) - 1 else 0 := h
  rw [Finset.mem_range] at hl
  by_cases hb : Level l b
  · rw [if_pos hb] at h
    rcases l with _ | l
    · exact Or.inl (by simp [h])
    · exact Or.inr ⟨l, by omega, hb, h⟩
  · rw [if_neg hb] at h
    exact Or.inl (by omega)

/-- `Solve` needs `2 ^ (top + 1)` iterations at least if the root has level `top`, every LP of a box with level `l + 1` is
optimal with a point that is not accepted as integral, and branching there leaves two children of level `l`. -/
theorem needs_long {o : Oracle W} {d : MipData} {prm : Params} {Good : W → Prop}
    {bounds : W → Int → Dbl × Dbl} {Answer : W → Prop} {w : W} (hd : DataOk d)
    (hp : PrimalShape o d.lower.length) (hc : Contract o Good bounds Answer)
    (hg : Good w) (hs : StartsAt d bounds w) (Level : Nat → Box → Prop) (top : Nat)
    (hL : ∀ b : Box, (∀ j y, b j y) → Level (top + 1) b)
    (hnode : ∀ (l : Nat) (b : Box) (w : W), Answer w → Level (l + 1) b →
      (∀ x, InBounds d bounds w x ↔ InRootBounds d x ∧ InBox d b x) → o.isOptimal w = true ∧
      ∀ values, o.primal w = .ok values → d.solutionIsIntegral values prm.tol ≠ .ok true ∧
        ∀ w' (col : Nat) up v, d.solutionIsIntegral values prm.tol = .ok false →
          o.branch w = .ok (w', (col : Int), up) → values[col]? = some v →
          ∀ down, Level l (childBox b col v down)) {fuel : Nat} (hf : fuel < 2 ^ (top + 2)) :
    (∀ s, solveFuel o d prm fuel (initial w) ≠ some (.ok s)) ∧
      ∀ m, solveFuel o d prm fuel (initial w) ≠ some (.error m) := by
  have hroot : ∀ w, Answer w → (∀ x, InBounds d bounds w x ↔ InRootBounds d x) → o.isOptimal w = true ∧
      ∀ values, o.primal w = .ok values → d.solutionIsIntegral values prm.tol ≠ .ok true := by
    intro w ha hx
    obtain ⟨h1, h2⟩ := hnode top (fun _ _ => True) w ha (hL _ fun _ _ => trivial) fun x => by
      rw [hx x]; exact ⟨fun h => ⟨h, fun _ _ => trivial⟩, fun h => h.1⟩
    exact ⟨h1, fun values hv => (h2 values hv).1⟩
  have key : ∀ fuel s bs sols, Inv d Good bounds s bs sols → fuel ≤ (bs.map (need Level (top + 1))).sum →
      (∀ s', solveFuel o d prm fuel s ≠ some (.ok s')) ∧ ∀ m, solveFuel o d prm fuel s ≠ some (.error m) := by
    intro fuel
    induction fuel with
    | zero => intro s bs sols _ _; simp [solveFuel]
    | succ fuel ih =>
      intro s bs sols hi hle
      obtain ⟨hagain, hstop, herr⟩ := iterate_trans (prm := prm) hd hp hc hi
      unfold solveFuel
      cases hit : iterate o d prm s with
      | abort => simp
      | ub => simp
      | error m =>
        obtain ⟨w, ha, hopt, hx⟩ := herr _ hit
        rw [(hroot w ha hx).1] at hopt; cases hopt
      | ok res =>
        cases res with
        | stop s' =>
          obtain ⟨sols', -, hfin⟩ := hstop s' hit
          cases hfin with
          | empty => simp at hle
          | root ha hx _ hv hint => exact absurd hint ((hroot _ ha hx).2 _ hv)
        | again s' =>
          obtain ⟨bs', sols', hi', ht⟩ := hagain s' hit
          refine ih s' bs' sols' hi' ?_
          cases ht with
          | drop h1 h2 h3 h4 =>
            rename_i b w
            rw [(h1.map _).sum_eq, List.map_cons, List.sum_cons] at hle
            rcases need_cases Level (top + 1) b with h | ⟨l, -, hl, -⟩
            · omega
            · rw [(hnode _ _ _ h2 hl h3).1] at h4; cases h4
          | record h1 h2 h3 h4 h5 h6 =>
            rename_i b w values
            rw [(h1.map _).sum_eq, List.map_cons, List.sum_cons] at hle
            rcases need_cases Level (top + 1) b with h | ⟨l, -, hl, -⟩
            · omega
            · exact absurd h6 ((hnode _ _ _ h2 hl h3).2 _ h5).1
          | split h1 h2 h3 h4 h5 h6 h7 h8 =>
            rename_i b bs1 w w' values col up v
            rw [(h1.map _).sum_eq, List.map_cons, List.sum_cons] at hle
            simp only [List.cons_append, List.map_cons, List.map_append, List.map_nil, List.sum_cons, List.sum_append,
              List.sum_nil]
            rcases need_cases Level (top + 1) b with h | ⟨l, hlt, hl, h⟩
            · omega
            · have hch := ((hnode _ _ _ h2 hl h3).2 _ h5).2 _ _ _ _ h6 h7 h8
              have k1 := need_ge (top := top + 1) (by omega) (hch up)
              have k2 := need_ge (top := top + 1) (by omega) (hch (!up))
              have : 2 ^ (l + 2) = 2 * 2 ^ (l + 1) := by ring
              have : 0 < 2 ^ (l + 1) := by positivity
              omega
  obtain ⟨b, hb, hi⟩ := inv_init (d := d) hg hs
  have := need_ge (top := top + 1) le_rfl (hL b hb)
  have hf : fuel ≤ 2 ^ (top + 1 + 1) - 1 := Nat.le_sub_one_of_lt hf
  exact key fuel _ _ _ hi (by simp only [List.map_cons, List.map_nil, List.sum_cons, List.sum_nil]; exact (hf.trans this).trans (Nat.le_add_right _ _))

end Solver

namespace Program

open Glop (LinearProgram Refines Extends)
open Solver (Contract guard point InBounds InRootBounds InBox RowsHold Box childBox)

/-- `min z`, `z + 2 (x₁ + ... + xₙ) = n` with `n = 2 m + 1` and all variables in {0, 1}. -/
def oddSum (m : Nat) : Problem :=
  { vars := { name := "z", objective := 1, lower := .fin 0, upper := .fin 1, isInteger := true } ::
      List.replicate (2 * m + 1)
        ({ name := "x", objective := 0, lower := .fin 0, upper := .fin 1, isInteger := true } : Variable)
    constraints :=
      [{ name := "c", varIndices := 0 :: (List.range (2 * m + 1)).map (fun i => ((i + 1 : Nat) : Int)),
         coefficients := 1 :: List.replicate (2 * m + 1) 2, lhs := .fin (2 * m + 1), rhs := .fin (2 * m + 1) }] }

theorem oddSum_vars {m n : Nat} {v : Variable} (h : (oddSum m).vars[n]? = some v) :
    n < 2 * m + 2 ∧ v.lower = .fin 0 ∧ v.upper = .fin 1 ∧ v.isInteger = true := by
  rcases n with _ | n
  · simp [oddSum] at h; subst h; simp
  · simp [oddSum, List.getElem?_replicate] at h
    obtain ⟨h1, h2⟩ := h
    subst h2
    exact ⟨by omega, rfl, rfl, rfl⟩

theorem oddSum_var {m n : Nat} (h : n < 2 * m + 2) : ∃ v, (oddSum m).vars[n]? = some v :=
  ⟨_, List.getElem?_eq_getElem (by simp [oddSum]; omega)⟩

theorem oddSum_activity (y : Int → ℚ) (n : Nat) :
    ((((List.range n).map (fun i => ((i + 1 : Nat) : Int))).zip (List.replicate n (2 : ℚ))).map
      fun t => t.2 * y t.1).sum = 2 * ∑ i ∈ Finset.range n, y ((i + 1 : Nat) : Int) := by
  induction n with
  | zero => simp
  | succ n ih =>
    rw [List.range_succ, List.replicate_succ', List.map_append, List.zip_append (by simp), List.map_append, List.sum_append,
      ih, Finset.sum_range_succ]
    simp
    ring

theorem oddSum_relaxed (m : Nat) (y : Int → ℚ) : (oddSum m).RelaxedFeasible y ↔
    (∀ n : Nat, n < 2 * m + 2 → 0 ≤ y n ∧ y n ≤ 1) ∧
      y 0 + 2 * ∑ i ∈ Finset.range (2 * m + 1), y ((i + 1 : Nat) : Int) = 2 * m + 1 := by
  have hact : ∀ k ∈ (oddSum m).constraints, k.lhs = .fin (2 * m + 1) ∧ k.rhs = .fin (2 * m + 1) ∧
      k.activity y = y 0 + 2 * ∑ i ∈ Finset.range (2 * m + 1), y ((i + 1 : Nat) : Int) := by
    intro k hk
    obtain rfl := List.mem_singleton.1 hk
    refine ⟨rfl, rfl, ?_⟩
    rw [← oddSum_activity]
    simp [Constraint.activity]
  constructor
  · rintro ⟨h1, h2⟩
    refine ⟨fun n hn => ?_, ?_⟩
    · obtain ⟨v, hv⟩ := oddSum_var hn
      have := h1 n v hv
      obtain ⟨-, e1, e2, -⟩ := oddSum_vars hv
      rw [e1, e2] at this
      simpa [Between] using this
    · have := h2 _ (List.mem_singleton.2 rfl)
      obtain ⟨e1, e2, e3⟩ := hact _ (List.mem_singleton.2 rfl)
      rw [e1, e2, e3] at this
      simp only [Between, Dbl.le_fin, decide_eq_true_eq] at this
      exact le_antisymm this.2 this.1
  · rintro ⟨h1, h2⟩
    refine ⟨fun n v hv => ?_, fun k hk => ?_⟩
    · obtain ⟨hn, e1, e2, -⟩ := oddSum_vars hv
      rw [e1, e2]
      simpa [Between] using h1 n hn
    · obtain ⟨e1, e2, e3⟩ := hact k hk
      rw [e1, e2, e3, h2]
      simp [Between]

theorem oddSum_objective (m : Nat) (y : Int → ℚ) : (oddSum m).userObjective y = y 0 := by
  have : ∀ k n, objectiveFrom k (List.replicate n
      ({ name := "x", objective := 0, lower := .fin 0, upper := .fin 1, isInteger := true } : Variable)) y = 0 := by
    intro k n
    induction n generalizing k with
    | zero => rfl
    | succ n ih => rw [List.replicate_succ, objectiveFrom, ih]; simp
  simp only [oddSum, Problem.userObjective, objectiveFrom, this]
  simp

/-- The problem is well-formed, its integer variables have integral finite bounds, its objective is bounded, and its optimum
is 1. -/
theorem oddSum_spec (m : Nat) : (oddSum m).WellFormed ∧ FiniteIntegers (oddSum m) ∧ IntegralIntegers (oddSum m) ∧
    Bounded (oddSum m) ∧ (∃ y, (oddSum m).Feasible y ∧ (oddSum m).userObjective y = 1) ∧
    ∀ y, (oddSum m).Feasible y → 1 ≤ (oddSum m).userObjective y := by
  have hmem : ∀ v ∈ (oddSum m).vars, v.name ≠ "" ∧ v.lower = .fin 0 ∧ v.upper = .fin 1 := by
    intro v hv
    simp only [oddSum, List.mem_cons, List.mem_replicate] at hv
    rcases hv with rfl | ⟨-, rfl⟩ <;> simp
  refine ⟨⟨fun v hv => ?_, fun k hk => ?_⟩, fun v hv _ => ?_, fun v hv _ => ?_, ⟨0, fun y hy => ?_⟩, ?_, ?_⟩
  · obtain ⟨h1, h2, h3⟩ := hmem v hv
    refine ⟨h1, ?_⟩
    rw [h2, h3]
    simp [Ordered, Dbl.le]
  · obtain rfl := List.mem_singleton.1 hk
    refine ⟨by simp, by simp [Ordered, Dbl.le], by simp, ?_, ?_⟩
    · rw [List.nodup_cons]
      refine ⟨?_, List.Nodup.map (fun a b h => ?_) List.nodup_range⟩
      · simp
        omega
      · have : (a : Int) + 1 = b + 1 := by exact_mod_cast h
        omega
    · intro i hi
      simp only [List.mem_cons, List.mem_map, List.mem_range] at hi
      have hl : ((oddSum m).vars.length : Int) = 2 * m + 2 := by simp [oddSum]; ring
      rw [hl]
      rcases hi with rfl | ⟨j, hj, rfl⟩
      · omega
      · omega
  · obtain ⟨-, h2, h3⟩ := hmem v hv
    exact ⟨_, _, h2, h3⟩
  · obtain ⟨-, h2, h3⟩ := hmem v hv
    rw [h2, h3]
    exact ⟨.inr ⟨0, by simp⟩, .inr ⟨1, by simp⟩⟩
  · rw [oddSum_objective]
    exact (((oddSum_relaxed m y).1 hy).1 0 (by omega)).1
  · refine ⟨fun j => if j ≤ m then 1 else 0, ?_, ?_⟩
    · have hr : (oddSum m).RelaxedFeasible fun j => if j ≤ m then 1 else 0 := by
        refine (oddSum_relaxed m _).2 ⟨fun n _ => ?_, ?_⟩
        · by_cases h : (n : Int) ≤ m <;> simp [h]
        · have : ∀ i ∈ Finset.range (2 * m + 1), (if ((i + 1 : Nat) : Int) ≤ m then (1 : ℚ) else 0) =
              if i < m then 1 else 0 := by
            intro i _
            by_cases h : i < m
            · rw [if_pos h, if_pos (by omega)]
            · rw [if_neg h, if_neg (by omega)]
          rw [Finset.sum_congr rfl this, ← Finset.sum_filter]
          have hf : (Finset.range (2 * m + 1)).filter (· < m) = Finset.range m := by
            ext i; simp; omega
          rw [hf]
          simp
          ring
      exact ⟨fun n v hv => ⟨hr.1 n v hv, fun _ => by
        by_cases h : (n : Int) ≤ m
        · exact ⟨1, by simp [h]⟩
        · exact ⟨0, by simp [h]⟩⟩, hr.2⟩
    · rw [oddSum_objective]; simp
  · rintro y ⟨h1, h2⟩
    obtain ⟨h3, h4⟩ := (oddSum_relaxed m y).1 ⟨fun n v hv => (h1 n v hv).1, h2⟩
    have hint : ∀ n : Nat, n < 2 * m + 2 → ∃ k : Int, y n = k := by
      intro n hn
      obtain ⟨v, hv⟩ := oddSum_var hn
      exact (h1 n v hv).2 (oddSum_vars hv).2.2.2
    have hsum : ∃ k : Int, ∑ i ∈ Finset.range (2 * m + 1), y ((i + 1 : Nat) : Int) = k := by
      have : ∀ i, i ∈ Finset.range (2 * m + 1) → ∃ k : Int, y ((i + 1 : Nat) : Int) = k := fun i hi =>
        hint (i + 1) (by have := Finset.mem_range.1 hi; omega)
      choose! k hk using this
      exact ⟨∑ i ∈ Finset.range (2 * m + 1), k i, by rw [Finset.sum_congr rfl hk]; push_cast; rfl⟩
    obtain ⟨k, hk⟩ := hsum
    obtain ⟨z, hz⟩ := hint 0 (by omega)
    have hz : y 0 = z := hz
    rw [oddSum_objective]
    have h0 : (0 : ℚ) ≤ y 0 := (h3 0 (by omega)).1
    rw [hz] at h0 h4 ⊢
    rw [hk] at h4
    have h4 : z + 2 * k = 2 * m + 1 := by exact_mod_cast h4
    have h0 : 0 ≤ z := by exact_mod_cast h0
    have : 1 ≤ z := by omega
    exact_mod_cast this

/-- A box of the search in which the variables `xᵢ` with `i` in `F` are fixed to the values `a i`, and the others are free. -/
structure Fixes (m : Nat) (F : Finset Nat) (a : Nat → ℚ) (b : Box) : Prop where
  subset : F ⊆ Finset.range (2 * m + 1)
  binary : ∀ i ∈ F, a i = 0 ∨ a i = 1
  fixed : ∀ i ∈ F, ∀ y, 0 ≤ y → y ≤ 1 → (b (i + 1) y ↔ y = a i)
  zero : ∀ y, b 0 y
  free : ∀ i, i ∉ F → ∀ y, b (i + 1) y

/-- A box of the search in which `m + 1 - l` variables at most are fixed, and the others are free. -/
def FixedAtMost (m l : Nat) (b : Box) : Prop := ∃ (F : Finset Nat) (a : Nat → ℚ), Fixes m F a b ∧ F.card + l ≤ m + 1

/-- With at most `m` variables fixed to 1 and at most `m` to 0, there is still a point of the relaxation with `z = 0`. -/
theorem oddSum_point {m : Nat} {F : Finset Nat} {a : Nat → ℚ} (hF : F ⊆ Finset.range (2 * m + 1))
    (ha : ∀ i ∈ F, a i = 0 ∨ a i = 1) (h1 : ∑ i ∈ F, a i ≤ m) (h0 : F.card - ∑ i ∈ F, a i ≤ m) :
    ∃ y : Int → ℚ, (oddSum m).RelaxedFeasible y ∧ y 0 = 0 ∧ ∀ i ∈ F, y ((i + 1 : Nat) : Int) = a i := by
  set k : ℚ := 2 * m + 1 - F.card with hk
  have hkpos : 0 < k := by linarith
  set t : ℚ := (m + 1 / 2 - ∑ i ∈ F, a i) / k with ht
  have ht0 : 0 ≤ t := div_nonneg (by linarith) hkpos.le
  have ht1 : t ≤ 1 := by
    rw [ht, div_le_one hkpos]
    linarith
  have htk : t * k = m + 1 / 2 - ∑ i ∈ F, a i := div_mul_cancel₀ _ hkpos.ne'
  classical
  refine ⟨fun j => if j = 0 then 0 else if (j - 1).toNat ∈ F then a (j - 1).toNat else t,
    (oddSum_relaxed m _).2 ⟨fun n _ => ?_, ?_⟩, by simp, fun i hi => ?_⟩
  · by_cases h0 : (n : Int) = 0
    · simp [h0]
    · simp only [if_neg h0]
      by_cases h : ((n : Int) - 1).toNat ∈ F
      · rw [if_pos h]
        rcases ha _ h with h | h <;> rw [h] <;> simp
      · rw [if_neg h]
        exact ⟨ht0, ht1⟩
  · have h : ∀ i ∈ Finset.range (2 * m + 1), (if ((i + 1 : Nat) : Int) = 0 then (0 : ℚ)
        else if (((i + 1 : Nat) : Int) - 1).toNat ∈ F then a (((i + 1 : Nat) : Int) - 1).toNat else t) =
        if i ∈ F then a i else t := by
      intro i _
      rw [if_neg (by omega), show (((i + 1 : Nat) : Int) - 1).toNat = i by omega]
    rw [Finset.sum_congr rfl h, Finset.sum_ite]
    have e1 : (Finset.range (2 * m + 1)).filter (· ∈ F) = F := by
      ext i; simp only [Finset.mem_filter]; exact ⟨fun h => h.2, fun h => ⟨hF h, h⟩⟩
    have e2 : (((Finset.range (2 * m + 1)).filter (· ∉ F)).card : ℚ) = k := by
      have := Finset.card_filter_add_card_filter_not (s := Finset.range (2 * m + 1)) (· ∈ F)
      rw [e1, Finset.card_range] at this
      have : (F.card : ℚ) + ((Finset.range (2 * m + 1)).filter (· ∉ F)).card = 2 * m + 1 := by exact_mod_cast this
      rw [hk]; linarith
    rw [e1, Finset.sum_const, nsmul_eq_mul, e2, mul_comm k t, htk]
    simp
    ring
  · simp only
    rw [if_neg (by omega), show (((i + 1 : Nat) : Int) - 1).toNat = i by omega, if_pos hi]

/-- The LP of a box that fixes some of the variables and still has a point with `z = 0` is optimal, its solution is not
accepted as integral, and branching fixes one more variable. -/
theorem oddSum_node {e : Engine} {x : Setup.External} {m : Nat} {user : Setup.ParamsMsg}
    {c : Setup.Created} (h : Setup.create x (oddSum m) user = .ok c)
    (htol : 0 ≤ user.integralityTolerance.getD (1 / 10 ^ 6))
    (hsmall : (2 * m + 1) * user.integralityTolerance.getD (1 / 10 ^ 6) < 1 / 2)
    (hrule : ∃ dir, c.rule = .maxFractional dir) {F : Finset Nat} {a : Nat → ℚ} {b : Box} (hb : Fixes m F a b)
    (hpt : ∃ y : Int → ℚ, (oddSum m).RelaxedFeasible y ∧ y 0 = 0 ∧ ∀ i ∈ F, y ((i + 1 : Nat) : Int) = a i)
    {r : Runner World} (hr : Plain (start c.lpi).program r)
    (hans : RightAnswer r.world.lp.program (r.world.lp.isOptimal = true) r.world.report)
    (hx : ∀ x, InBounds c.data bounds r x ↔ InRootBounds c.data x ∧ InBox c.data b x) :
    (guard (oracle e c) (Plain (start c.lpi).program)).isOptimal r = true ∧
    ∀ values, (guard (oracle e c) (Plain (start c.lpi).program)).primal r = .ok values →
      c.data.solutionIsIntegral values (params c).tol ≠ .ok true ∧
      ∀ r' (col : Nat) up v, c.data.solutionIsIntegral values (params c).tol = .ok false →
        (guard (oracle e c) (Plain (start c.lpi).program)).branch r = .ok (r', (col : Int), up) →
        values[col]? = some v → ∃ i, i ∉ F ∧
          ∀ down : Bool, Fixes m (insert i F) (Function.update a i (if down then 0 else 1)) (childBox b col v down) := by
  obtain ⟨hp, -, -, hB, -, -⟩ := oddSum_spec m
  obtain ⟨hd, h₀⟩ := created_refines hp h
  obtain ⟨-, -, -, -, -, h6, -⟩ := Setup.create_ok h
  obtain ⟨dir, hrule⟩ := hrule
  obtain ⟨hF, ha, hfix, hz, hfree⟩ := hb
  rw [← h6] at htol hsmall
  have hdk := Solver.dataOk_of_represents hd
  have hlen : c.data.lower.length = 2 * m + 2 := by
    rw [hd.lower, List.length_map]; simp [oddSum]
  have hlen₀ : (start c.lpi).program.cols.length = c.data.lower.length := by
    rw [h₀.numCols, hd.lower, List.length_map]; rfl
  have hs := primalShape (e := e) (c := c) (Good' := Plain (start c.lpi).program)
    (lp₀ := (start c.lpi).program) (fun _ h => h.good)
  rw [hlen₀] at hs
  have hbr := Solver.branchesOnFractional_of_max hdk hs
    (usesMaxFractional (e := e) (Good' := Plain (start c.lpi).program) hrule) htol
  obtain ⟨y, hy, hy0, hya⟩ := hpt
  have hyb : InBox c.data b y := by
    intro n hn
    have hn : n < 2 * m + 2 := by rw [← hlen]; exact_mod_cast (hdk.ints n hn).2
    rcases n with _ | n
    · exact hz _
    · by_cases hnF : n ∈ F
      · exact (hfix n hnF _ (((oddSum_relaxed m y).1 hy).1 (n + 1) hn).1
          (((oddSum_relaxed m y).1 hy).1 (n + 1) hn).2).2 (hya n hnF)
      · exact hfree n hnF _
  obtain ⟨h1, h2⟩ := node_optimal (e := e) hp hB hd ⟨y, hy, hyb⟩ h₀ hr hans hx
  refine ⟨h1, fun values hv => ?_⟩
  obtain ⟨hlv, h3, hin, h4⟩ := h2 values hv
  have hle := h4 y hy hyb
  rw [if_neg (by simp [oddSum]), oddSum_objective, oddSum_objective, hy0] at hle
  obtain ⟨h5, h7⟩ := (oddSum_relaxed m _).1 h3
  have h00 : point values 0 = 0 := le_antisymm hle (h5 0 (by omega)).1
  rw [h00] at h7
  refine ⟨fun hint => ?_, fun r' col up v hno hbranch hval => ?_⟩
  · obtain ⟨b, h4, h8⟩ := MipData.allIntegral_iff values (params c).tol c.data.integerVariables
      (fun j hj => by rw [hlv]; exact hdk.ints j hj)
    have hb : b = true := Outcome.ok.inj (h4.symm.trans hint)
    have near : ∀ i, i ∈ Finset.range (2 * m + 1) → ∃ k : Int, |point values ((i + 1 : Nat) : Int) - k| ≤ (params c).tol := by
      intro i hi
      have hi := Finset.mem_range.1 hi
      have hlt : i + 1 < values.length := by rw [hlv, hlen]; omega
      have hx : values[i + 1]? = some values[i + 1] := by simp [hlt]
      obtain ⟨var, hvar⟩ := oddSum_var (m := m) (n := i + 1) (by omega)
      obtain ⟨k, hk⟩ := h8.1 hb (i + 1) _ ((hd.integers _).2 ⟨i + 1, var, hvar, (oddSum_vars hvar).2.2.2, rfl⟩) hx
      exact ⟨k, by rw [Solver.point_eq hx]; exact hk⟩
    choose! k hk using near
    have hdiff : |∑ i ∈ Finset.range (2 * m + 1), point values ((i + 1 : Nat) : Int) -
        ((∑ i ∈ Finset.range (2 * m + 1), k i : Int) : ℚ)| < 1 / 2 := by
      push_cast
      rw [← Finset.sum_sub_distrib]
      calc |∑ i ∈ Finset.range (2 * m + 1), (point values ((i + 1 : Nat) : Int) - k i)|
          ≤ ∑ i ∈ Finset.range (2 * m + 1), |point values ((i + 1 : Nat) : Int) - k i| := Finset.abs_sum_le_sum_abs _ _
        _ ≤ ∑ i ∈ Finset.range (2 * m + 1), (params c).tol := Finset.sum_le_sum hk
        _ = (2 * m + 1) * (params c).tol := by simp
        _ < 1 / 2 := hsmall
    rw [abs_lt] at hdiff
    have e : ∑ i ∈ Finset.range (2 * m + 1), point values ((i + 1 : Nat) : Int) = m + 1 / 2 := by linarith
    rw [e] at hdiff
    set K := ∑ i ∈ Finset.range (2 * m + 1), k i
    have k1 : ((m : Int) : ℚ) < K := by push_cast; linarith [hdiff.2]
    have k2 : (K : ℚ) < ((m + 1 : Int) : ℚ) := by push_cast; linarith [hdiff.1]
    have k1 : (m : Int) < K := by exact_mod_cast k1
    have k2 : K < (m + 1 : Int) := by exact_mod_cast k2
    omega
  · obtain ⟨hcol, hfr⟩ := hbr r values r' col up v hv hno hbranch hval
    have hlt : col < 2 * m + 2 := by rw [← hlen, ← hlv]; exact (List.getElem?_eq_some_iff.1 hval).1
    rcases col with _ | col
    · rw [← Solver.point_eq hval] at hfr
      exact absurd (by rw [show ((0 : Nat) : Int) = 0 from rfl, h00]; simp) (hfr 0)
    obtain ⟨hv0, hv1⟩ := h5 (col + 1) hlt
    have hvb : b (col + 1) (point values ((col + 1 : Nat) : Int)) := hin (col + 1) hcol
    rw [Solver.point_eq hval] at hv0 hv1 hvb
    have hnF : col ∉ F := by
      intro hcF
      have := (hfix col hcF v hv0 hv1).1 hvb
      rcases ha col hcF with h | h
      · exact hfr 0 (by rw [this, h]; simp)
      · exact hfr 1 (by rw [this, h]; simp)
    have hv0 : 0 < v := lt_of_le_of_ne hv0 fun h => hfr 0 (by rw [← h]; simp)
    have hv1 : v < 1 := lt_of_le_of_ne hv1 fun h => hfr 1 (by rw [h]; simp)
    have hfl : ⌊v⌋ = 0 := Int.floor_eq_iff.2 ⟨by simpa using hv0.le, by simpa using hv1⟩
    have hce : ⌈v⌉ = 1 := Int.ceil_eq_iff.2 ⟨by simpa using hv0, by simpa using hv1.le⟩
    refine ⟨col, hnF, fun down => ⟨?_, ?_, ?_, ?_, ?_⟩⟩
    · intro i hi
      rcases Finset.mem_insert.1 hi with rfl | hi
      · exact Finset.mem_range.2 (by omega)
      · exact hF hi
    · intro i hi
      rcases Finset.mem_insert.1 hi with rfl | hi
      · cases down <;> simp
      · have hne : i ≠ col := fun h => hnF (h ▸ hi)
        rw [Function.update_of_ne hne]; exact ha i hi
    · intro i hi y hy0 hy1
      rcases Finset.mem_insert.1 hi with rfl | hi
      · simp only [childBox, hfl, hce, Function.update_self]
        have := hfree i hnF y
        cases down
        · simp only [this, true_and, forall_const, Bool.false_eq_true, if_false, Int.cast_one]
          exact ⟨fun h => le_antisymm hy1 h, fun h => h.ge⟩
        · simp only [this, true_and, forall_const, if_true, Int.cast_zero]
          exact ⟨fun h => le_antisymm h hy0, fun h => h.le⟩
      · have hne : i ≠ col := fun h => hnF (h ▸ hi)
        simp only [childBox, Function.update_of_ne hne]
        rw [← hfix i hi y hy0 hy1]
        exact ⟨fun h => h.1, fun h => ⟨h, fun h' => absurd (by omega) hne⟩⟩
    · exact fun y => ⟨hz y, fun h => by omega⟩
    · intro i hi y
      simp only [Finset.mem_insert, not_or] at hi
      exact ⟨hfree i hi.2 y, fun h => absurd (by omega) hi.1⟩

/-- For every `m`: with the max-fractional rule, without cuts and with a tolerance below `1 / (4 m + 2)`, `Solve` returns neither
OK nor an error in fewer than `2 ^ (m + 2)` iterations, whatever LP code that answers rightly. -/
theorem oddSum_long {e : Engine} (he : e.Right) {x : Setup.External} {m : Nat} {user : Setup.ParamsMsg}
    {c : Setup.Created} (h : Setup.create x (oddSum m) user = .ok c) (hn : NoCuts c.runner.params)
    (htol : 0 ≤ user.integralityTolerance.getD (1 / 10 ^ 6))
    (hsmall : (2 * m + 1) * user.integralityTolerance.getD (1 / 10 ^ 6) < 1 / 2)
    (hrule : ∃ dir, c.rule = .maxFractional dir) {fuel : Nat} (hf : fuel < 2 ^ (m + 2)) :
    (∀ s, solve e c fuel ≠ some (.ok s)) ∧ ∀ m, solve e c fuel ≠ some (.error m) := by
  obtain ⟨hp, -⟩ := oddSum_spec m
  obtain ⟨hd, h₀⟩ := created_refines hp h
  have hdk := Solver.dataOk_of_represents hd
  have hlen : c.data.lower.length = 2 * m + 2 := by
    rw [hd.lower, List.length_map]; simp [oddSum]
  have hlen₀ : (start c.lpi).program.cols.length = c.data.lower.length := by
    rw [h₀.numCols, hd.lower, List.length_map]; rfl
  have hs := primalShape (e := e) (c := c) (Good' := Plain (start c.lpi).program)
    (lp₀ := (start c.lpi).program) (fun _ h => h.good)
  rw [hlen₀] at hs
  have hg := plain_start c
  have heq : solve e c fuel = Solver.solveFuel (guard (oracle e c) (Plain (start c.lpi).program)) c.data
      (params c) fuel (Solver.initial { world := { lp := start c.lpi } }) :=
    (Solver.guard_solveFuel (keeps_plain hn) _ _ (by exact hg)).symm
  rw [heq]
  refine Solver.needs_long hdk hs (contract_plain he hn) (by exact hg) (startsAt hd h₀) (FixedAtMost m) m
    (fun b hb => ⟨∅, fun _ => 0, ⟨by simp, by simp, by simp, fun y => hb _ y, fun i _ y => hb _ y⟩, by simp⟩) ?_ hf
  rintro l b r ⟨hr, hans⟩ ⟨F, a, hfx, hc⟩ hx
  have hs0 : 0 ≤ ∑ i ∈ F, a i := Finset.sum_nonneg fun i hi => by rcases hfx.binary i hi with h | h <;> simp [h]
  have hs1 : ∑ i ∈ F, a i ≤ F.card := by
    calc ∑ i ∈ F, a i ≤ ∑ i ∈ F, (1 : ℚ) :=
          Finset.sum_le_sum fun i hi => by rcases hfx.binary i hi with h | h <;> simp [h]
      _ = F.card := by simp
  have hcq : (F.card : ℚ) ≤ m := by exact_mod_cast (show F.card ≤ m by omega)
  obtain ⟨h1, h2⟩ := oddSum_node (e := e) h htol hsmall hrule hfx
    (oddSum_point hfx.subset hfx.binary (by linarith) (by linarith)) hr hans hx
  refine ⟨h1, fun values hv => ?_⟩
  obtain ⟨h3, h4⟩ := h2 values hv
  refine ⟨h3, fun r' col up v hno hbranch hval down => ?_⟩
  obtain ⟨i, hi, hch⟩ := h4 r' col up v hno hbranch hval
  exact ⟨_, _, hch down, by rw [Finset.card_insert_of_notMem hi]; omega⟩

theorem oddSum_bound (m : Nat) : iterationBound (oddSum m) = 2 ^ (2 * m + 3) := by
  have : Solver.span (some (.fin 0)) (some (.fin 1)) = 2 := by simp [Solver.span]
  simp [iterationBound, oddSum, this]
  ring

/-- **C107.**  For every `m` there is a problem with `2 m + 2` binary variables, one constraint and optimum 1 (`oddSum m`), on
which `Solve` needs between `2 ^ (m + 2)` and `2 ^ (2 m + 3)` iterations: for every choice of parameters with the
max-fractional rule, without cuts and with a tolerance below `1 / (4 m + 2)`, both interfaces, and whatever LP code that
answers rightly and returns. -/
theorem C107_exponential (m : Nat) :
    ((oddSum m).WellFormed ∧ (oddSum m).vars.length = 2 * m + 2 ∧ (oddSum m).constraints.length = 1 ∧
      (∃ y, (oddSum m).Feasible y ∧ (oddSum m).userObjective y = 1) ∧
      ∀ y, (oddSum m).Feasible y → 1 ≤ (oddSum m).userObjective y) ∧
    ∀ (x : Setup.External) (user : Setup.ParamsMsg) (c : Setup.Created), Setup.create x (oddSum m) user = .ok c →
      NoCuts c.runner.params → (∃ dir, c.rule = .maxFractional dir) →
      0 ≤ user.integralityTolerance.getD (1 / 10 ^ 6) →
      (2 * m + 1) * user.integralityTolerance.getD (1 / 10 ^ 6) < 1 / 2 →
      ∀ e : Engine, e.Right → ((∃ s g, c.lpi = .glop s g) ∧ e.GlopReturns) ∨ ((∃ g, c.lpi = .soplex g) ∧ e.SoplexReturns) →
        (∀ fuel, fuel < 2 ^ (m + 2) → solve e c fuel = none) ∧
        Solves (oddSum m) (user.integralityTolerance.getD (1 / 10 ^ 6)) (solve e c (2 ^ (2 * m + 3))) := by
  obtain ⟨hp, hfin, hI, hB, hopt⟩ := oddSum_spec m
  refine ⟨⟨hp, by simp [oddSum], rfl, hopt⟩, ?_⟩
  intro x user c hc hn hrule htol hsmall e he hl
  have hno : ∀ fuel, solve e c fuel = none ∨ (∃ s, solve e c fuel = some (.ok s)) ∨
      solve e c fuel = some (.error "The problem is infeasible or unbounded") := by
    intro fuel
    rcases hl with ⟨hl, hret⟩ | ⟨hl, hret⟩
    · exact C77_glop_never_aborts_partial hret hp hc hl hn htol fuel
    · exact C77_soplex_never_aborts_partial hret he.feasible hp hI hc hl hn hrule.choose_spec htol fuel
  refine ⟨fun fuel hf => never_of (oddSum_long he hc hn htol hsmall hrule hf) (hno fuel), ?_⟩
  obtain ⟨dir, hrule⟩ := hrule
  have := solves_of hp hB hc hn he (C76_ends_partial (oddSum m) hp hfin e x user c dir he.feasible hc hrule htol) (hno _)
  rwa [oddSum_bound] at this

/-- The hypotheses are met with the parameters at their defaults except for the cut runner: 202 variables, and at least
`2 ^ 102` iterations. -/
example : perfect.Right ∧ perfect.GlopReturns ∧ ∀ x, ∃ c, Setup.create x (oddSum 100) exUser = .ok c ∧
    ∀ fuel, fuel < 2 ^ 102 → solve perfect c fuel = none := by
  obtain ⟨hp, hB⟩ := oddSum_spec 100
  refine ⟨perfect_spec.1, perfect_spec.2, fun x => ?_⟩
  obtain ⟨c, hc⟩ := (Setup.C73_glop_partial x (oddSum 100) hp exUser _ (Setup.lpWins _) rfl).1
    (by refine ⟨⟨?_, ?_, ?_, ?_, ?_, ?_, ?_, ?_⟩, rfl, ?_, ?_, rfl, rfl⟩ <;>
      simp [exUser, Setup.LpMsg.read, ToleranceOk])
  obtain ⟨hn, dir, hrule⟩ := rule_of hp hc ⟨0, le_rfl, rfl⟩ (by simp [exUser])
  exact ⟨c, hc, ((C107_exponential 100).2 x exUser c hc hn ⟨dir, hrule⟩ (by norm_num [exUser]) (by norm_num [exUser]) perfect
    perfect_spec.1 (.inl ⟨created_glop hc rfl, perfect_spec.2⟩)).1⟩

end Program
end MiniMip
