import Verif.Props.SolverSearch
import Mathlib.Data.Set.Card
import Mathlib.Algebra.Order.BigOperators.Group.Finset
import Mathlib.Algebra.Order.BigOperators.Ring.Finset
import Mathlib.Data.Int.Interval
import Mathlib.Tactic.Linarith

/-!
# C37: the search ends
-/

namespace MiniMip
namespace Solver

variable {W : Type}

/-- The integer variables have finite bounds. -/
def FiniteIntegerBounds (d : MipData) : Prop :=
  ∀ n : Nat, (n : Int) ∈ d.integerVariables →
    ∃ l u : ℚ, d.lower[n]? = some (.fin l) ∧ d.upper[n]? = some (.fin u)

/-- The LP solver's optimal solutions satisfy the LP's bounds. -/
def BoundedAnswer (o : Oracle W) (d : MipData) (bounds : W → Int → Dbl × Dbl) (w : W) : Prop :=
  o.isOptimal w = true → ∀ values, o.primal w = .ok values → InBounds d bounds w (point values)

/-- The branching rule chooses integer variables whose LP value is not an integer. -/
def BranchesOnFractional (o : Oracle W) (d : MipData) (prm : Params) : Prop :=
  ∀ w values w' (col : Nat) up v, o.primal w = .ok values →
    d.solutionIsIntegral values prm.tol = .ok false → o.branch w = .ok (w', (col : Int), up) →
    values[col]? = some v → (col : Int) ∈ d.integerVariables ∧ ∀ k : Int, v ≠ k

/-- The integers next to values of column `n` within its bounds and the box. -/
def cells (d : MipData) (b : Box) (n : Nat) : Set Int :=
  {k | ∃ (l u : Dbl) (y : ℚ), d.lower[n]? = some l ∧ d.upper[n]? = some u ∧ Between l y u ∧ b n y ∧
    (⌊y⌋ = k ∨ ⌈y⌉ = k)}

/-- The number of combinations of cells of the integer variables. -/
noncomputable def count (d : MipData) (b : Box) : Nat :=
  ∏ j ∈ d.integerVariables.toFinset, (cells d b j.toNat).ncard

/-- An upper bound of the number of nodes at and below a box. -/
noncomputable def weight (d : MipData) (b : Box) : Nat := max 1 (2 * count d b - 1)

/-- The potential of the open boxes. -/
noncomputable def potential (d : MipData) (bs : List Box) : Nat := (bs.map (weight d)).sum

theorem cells_finite {d : MipData} (hf : FiniteIntegerBounds d) (b : Box) {n : Nat}
    (hn : (n : Int) ∈ d.integerVariables) : (cells d b n).Finite := by
  obtain ⟨l, u, hl, hu⟩ := hf n hn
  apply (Set.finite_Icc ⌊l⌋ ⌈u⌉).subset
  rintro k ⟨l', u', y, hl', hu', hb, -, hk⟩
  rw [hl] at hl'; rw [hu] at hu'
  simp only [Option.some.injEq] at hl' hu'
  subst hl' hu'
  unfold Between at hb
  simp only [Dbl.le_fin] at hb
  have h1 := Int.floor_le_floor hb.1
  have h2 := Int.ceil_le_ceil hb.2
  have h3 := Int.floor_le_ceil y
  rcases hk with rfl | rfl <;> constructor <;> omega

theorem cells_child (d : MipData) (b : Box) (col : Nat) (v : ℚ) (down : Bool) (n : Nat) :
    cells d (childBox b col v down) n ⊆ cells d b n := by
  rintro k ⟨l, u, y, h1, h2, h3, h4, h5⟩
  exact ⟨l, u, y, h1, h2, h3, h4.1, h5⟩

/-- The children together weigh less than the box: the cells of the branching variable are divided among them. -/
theorem weight_children {d : MipData} (hd : DataOk d) (hf : FiniteIntegerBounds d) {b : Box} {col : Nat}
    {x : Int → ℚ} (hcol : (col : Int) ∈ d.integerVariables) (hv : ∀ k : Int, x col ≠ k)
    (hroot : InRootBounds d x) (hbox : InBox d b x) :
    weight d (childBox b col (x col) true) + weight d (childBox b col (x col) false) < weight d b := by
  have hnat : ∀ j ∈ d.integerVariables, ((j.toNat : Nat) : Int) = j := fun j hj => by
    have := hd.ints j hj; omega
  have hpos : ∀ j ∈ d.integerVariables, 0 < (cells d b j.toNat).ncard := by
    intro j hj
    have hj' := hnat j hj
    have hm : ((j.toNat : Nat) : Int) ∈ d.integerVariables := by rw [hj']; exact hj
    obtain ⟨l, u, hl, hu⟩ := hf j.toNat hm
    rw [Set.ncard_pos (cells_finite hf b hm)]
    exact ⟨⌊x j.toNat⌋, _, _, x j.toNat, hl, hu, hroot _ _ _ hl hu, hbox _ hm, Or.inl rfl⟩
  set v := x col with hvdef
  have hlt : ⌊v⌋ < ⌈v⌉ := by
    rcases lt_or_ge ⌊v⌋ ⌈v⌉ with h | h
    · exact h
    · exfalso
      apply hv ⌊v⌋
      have h1 : (⌈v⌉ : ℚ) ≤ ⌊v⌋ := by exact_mod_cast h
      exact le_antisymm ((Int.le_ceil v).trans h1) (Int.floor_le v)
  obtain ⟨l, u, hl, hu⟩ := hf col hcol
  have hb := hroot _ _ _ hl hu
  have hfin := cells_finite hf b hcol
  set A : Set Int := {k ∈ cells d b col | k ≤ ⌊v⌋} with hA
  set B : Set Int := {k ∈ cells d b col | ⌈v⌉ ≤ k} with hB
  have hAf : A.Finite := hfin.subset fun k hk => hk.1
  have hBf : B.Finite := hfin.subset fun k hk => hk.1
  have hA1 : 0 < A.ncard := by
    rw [Set.ncard_pos hAf]
    exact ⟨⌊v⌋, ⟨_, _, v, hl, hu, hb, hbox _ hcol, Or.inl rfl⟩, le_rfl⟩
  have hB1 : 0 < B.ncard := by
    rw [Set.ncard_pos hBf]
    exact ⟨⌈v⌉, ⟨_, _, v, hl, hu, hb, hbox _ hcol, Or.inr rfl⟩, le_rfl⟩
  have hAB : A.ncard + B.ncard ≤ (cells d b col).ncard := by
    rw [← Set.ncard_union_eq (Set.disjoint_left.2 fun k hk hk' => by
      have := hk.2; have := hk'.2; omega) hAf hBf]
    exact Set.ncard_le_ncard (Set.union_subset (fun k hk => hk.1) fun k hk => hk.1) hfin
  have hdown : cells d (childBox b col v true) col ⊆ A := by
    rintro k ⟨l', u', y, h1, h2, h3, hy, hk⟩
    refine ⟨⟨l', u', y, h1, h2, h3, hy.1, hk⟩, ?_⟩
    have hy' : y ≤ ⌊v⌋ := by simpa using hy.2 rfl
    have h1 : ⌈y⌉ ≤ ⌊v⌋ := Int.ceil_le.2 hy'
    have h2 := Int.floor_le_ceil y
    omega
  have hup : cells d (childBox b col v false) col ⊆ B := by
    rintro k ⟨l', u', y, h1, h2, h3, hy, hk⟩
    refine ⟨⟨l', u', y, h1, h2, h3, hy.1, hk⟩, ?_⟩
    have hy' : (⌈v⌉ : ℚ) ≤ y := by simpa using hy.2 rfl
    have h1 : ⌈v⌉ ≤ ⌊y⌋ := Int.le_floor.2 hy'
    have h2 := Int.floor_le_ceil y
    omega
  have hmem : (col : Int) ∈ d.integerVariables.toFinset := List.mem_toFinset.2 hcol
  set Q := ∏ j ∈ d.integerVariables.toFinset.erase (col : Int), (cells d b j.toNat).ncard with hQ
  have hQ1 : 0 < Q := Finset.prod_pos fun j hj => hpos j (by simpa using (Finset.mem_erase.1 hj).2)
  have hcount : count d b = (cells d b col).ncard * Q := by
    rw [count, ← Finset.mul_prod_erase _ _ hmem, Int.toNat_natCast]
  have hchild : ∀ dn, count d (childBox b col v dn) ≤ (cells d (childBox b col v dn) col).ncard * Q := by
    intro dn
    rw [count, ← Finset.mul_prod_erase _ _ hmem, Int.toNat_natCast]
    refine Nat.mul_le_mul_left _ (Finset.prod_le_prod' fun j hj => ?_)
    have hj : j ∈ d.integerVariables := by simpa using (Finset.mem_erase.1 hj).2
    exact Set.ncard_le_ncard (cells_child d b col v dn _) (cells_finite hf b (by rw [hnat j hj]; exact hj))
  have c1 := (hchild true).trans (Nat.mul_le_mul_right Q (Set.ncard_le_ncard hdown hAf))
  have c2 := (hchild false).trans (Nat.mul_le_mul_right Q (Set.ncard_le_ncard hup hBf))
  have c3 : A.ncard * Q + B.ncard * Q ≤ count d b := by
    rw [hcount, ← Nat.add_mul]; exact Nat.mul_le_mul_right Q hAB
  have c4 : 0 < A.ncard * Q := Nat.mul_pos hA1 hQ1
  have c5 : 0 < B.ncard * Q := Nat.mul_pos hB1 hQ1
  unfold weight
  omega

theorem weight_pos (d : MipData) (b : Box) : 0 < weight d b := lt_of_lt_of_le one_pos (le_max_left _ _)

/-- Each transition lowers the potential. -/
theorem trans_potential {o : Oracle W} {d : MipData} {prm : Params} (hd : DataOk d)
    (hf : FiniteIntegerBounds d) {bounds : W → Int → Dbl × Dbl} (hbr : BranchesOnFractional o d prm)
    {bs bs' : List Box} {sols sols' : List Solution}
    (h : Trans o d prm bounds (BoundedAnswer o d bounds) bs sols bs' sols') :
    potential d bs' < potential d bs := by
  have hperm : ∀ {b : Box} {bs' : List Box}, bs.Perm (b :: bs') →
      potential d bs = weight d b + potential d bs' := by
    intro b bs' hp
    unfold potential
    rw [(hp.map _).sum_eq]; simp
  cases h with
  | drop h1 h2 h3 h4 =>
    rw [hperm h1]
    exact Nat.lt_add_of_pos_left (weight_pos d _)
  | record h1 h2 h3 h4 h5 h6 =>
    rw [hperm h1]
    exact Nat.lt_add_of_pos_left (weight_pos d _)
  | split h1 h2 h3 h4 h5 h6 h7 h8 =>
    rename_i b bs1 w w' values col up v
    rw [hperm h1]
    obtain ⟨hcol, hv⟩ := hbr w values w' col up v h5 h6 h7 h8
    obtain ⟨hroot, hbox⟩ := (h3 _).1 (h2 h4 values h5)
    have hpt := point_eq h8
    have hlt := weight_children (b := b) hd hf hcol (by rw [hpt]; exact hv) hroot hbox
    rw [hpt] at hlt
    have e : potential d (childBox b col v (!up) :: bs1 ++ [childBox b col v up]) =
        weight d (childBox b col v (!up)) + potential d bs1 + weight d (childBox b col v up) := by
      simp [potential, add_assoc]
    rw [e]
    cases up <;> simp only [Bool.not_true, Bool.not_false] <;> omega

/-- The number of integers from the lower bound of a variable, rounded down, to its upper bound, rounded up. -/
def span : Option Dbl → Option Dbl → Nat
  | some (.fin l), some (.fin u) => (⌈u⌉ - ⌊l⌋).toNat + 1
  | _, _ => 1

/-- The number of iterations after which the search has ended: twice the number of integer points of the box of the
integer variables. -/
def iterationBound (d : MipData) : Nat :=
  2 * ∏ j ∈ d.integerVariables.toFinset, span d.lower[j.toNat]? d.upper[j.toNat]?

theorem count_le {d : MipData} (hd : DataOk d) (hf : FiniteIntegerBounds d) (b : Box) :
    2 * count d b ≤ iterationBound d := by
  refine Nat.mul_le_mul_left _ (Finset.prod_le_prod' fun j hj => ?_)
  have hj : j ∈ d.integerVariables := by simpa using hj
  obtain ⟨l, u, hl, hu⟩ := hf j.toNat (by have := hd.ints j hj; rwa [Int.toNat_of_nonneg this.1])
  rw [hl, hu]
  have hsub : cells d b j.toNat ⊆ (Finset.Icc ⌊l⌋ ⌈u⌉ : Finset Int) := by
    rintro k ⟨l', u', y, hl', hu', hb, -, hk⟩
    rw [hl] at hl'; rw [hu] at hu'
    simp only [Option.some.injEq] at hl' hu'
    subst hl' hu'
    unfold Between at hb
    simp only [Dbl.le_fin] at hb
    have h1 := Int.floor_le_floor hb.1
    have h2 := Int.ceil_le_ceil hb.2
    have h3 := Int.floor_le_ceil y
    rw [Finset.coe_Icc, Set.mem_Icc]
    rcases hk with rfl | rfl <;> constructor <;> omega
  refine (Set.ncard_le_ncard hsub (Finset.finite_toSet _)).trans ?_
  rw [Set.ncard_coe_finset, Int.card_Icc]
  simp only [span]
  omega

theorem potential_lt {d : MipData} (hd : DataOk d) (hf : FiniteIntegerBounds d) (b : Box) :
    potential d [b] < iterationBound d := by
  have h1 := count_le hd hf b
  have h2 : 0 < ∏ j ∈ d.integerVariables.toFinset, span d.lower[j.toNat]? d.upper[j.toNat]? :=
    Finset.prod_pos fun j _ => by unfold span; split <;> omega
  have h3 : iterationBound d = 2 * ∏ j ∈ d.integerVariables.toFinset, span d.lower[j.toNat]? d.upper[j.toNat]? := rfl
  simp only [potential, List.map_cons, List.map_nil, List.sum_cons, List.sum_nil, weight]
  omega

theorem solveFuel_ends {o : Oracle W} {d : MipData} {prm : Params} (hd : DataOk d)
    (hf : FiniteIntegerBounds d) (hp : PrimalShape o d.lower.length) {Good : W → Prop}
    {bounds : W → Int → Dbl × Dbl} (hc : Contract o Good bounds (BoundedAnswer o d bounds))
    (hbr : BranchesOnFractional o d prm) :
    ∀ fuel s bs sols, Inv d Good bounds s bs sols → potential d bs < fuel →
      solveFuel o d prm fuel s ≠ none := by
  intro fuel
  induction fuel with
  | zero => intro s bs sols _ h; omega
  | succ n ih =>
    intro s bs sols hi hlt
    unfold solveFuel
    split
    · rename_i s' hs'
      obtain ⟨bs', sols', hi', ht⟩ := (iterate_trans hd hp hc hi).1 s' hs'
      exact ih s' bs' sols' hi' (by have := trans_potential hd hf hbr ht; omega)
    all_goals simp

/-- **C37, what holds.**  For every data whose integer variables have finite bounds, `Solve` ends within twice as many
iterations as the box of the integer variables has integer points, for every LP solver whose optimal solutions
respect the LP's bounds (whatever its answers and its choice among optimal solutions, and
whatever the cut runner does) and every branching rule that chooses integer variables
with a non-integral value.

Missing for C37: the rule `RandomBranching` may choose other variables; see
`C37_random_violated`. -/
theorem C37_ends_partial (d : MipData) (hd : DataOk d) (hf : FiniteIntegerBounds d) (W : Type) (o : Oracle W)
    (prm : Params) (Good : W → Prop) (bounds : W → Int → Dbl × Dbl) (w : W) (hp : PrimalShape o d.lower.length)
    (hc : Contract o Good bounds (BoundedAnswer o d bounds)) (hbr : BranchesOnFractional o d prm) (hg : Good w)
    (hs : StartsAt d bounds w) : solveFuel o d prm (iterationBound d) (initial w) ≠ none := by
  obtain ⟨b, hb, hi⟩ := inv_init (d := d) hg hs
  exact solveFuel_ends hd hf hp hc hbr _ _ _ _ hi (potential_lt hd hf b)

/-- The max-fractional rule branches on variables with a non-integral value. -/
theorem branchesOnFractional_of_max {o : Oracle W} {d : MipData} {prm : Params} (hd : DataOk d)
    (hp : PrimalShape o d.lower.length) (hm : UsesMaxFractional o d prm) (htol : 0 ≤ prm.tol) :
    BranchesOnFractional o d prm := by
  intro w values w' col up v hv hi hb hx
  obtain ⟨c, u, v', h1, h2, h3, h4⟩ := maxFractional_fractional hd hp hm htol hv hi
  rw [hb] at h1
  simp only [Outcome.ok.injEq, Prod.mk.injEq] at h1
  obtain ⟨-, h1, -⟩ := h1
  obtain rfl : col = c := by omega
  rw [hx] at h3
  simp only [Option.some.injEq] at h3
  subst h3
  exact ⟨h2, fun k hk => h4.not_int htol ⟨k, hk⟩⟩

/-- **C37 for the max-fractional rule** (the default).  If the integer variables have finite
bounds and the LP solver's optimal solutions respect the LP's bounds, `Solve` ends within twice as many iterations as
the box of the integer variables has integer points. -/
theorem C37_max_fractional_ends (d : MipData) (hd : DataOk d) (hf : FiniteIntegerBounds d) (W : Type) (o : Oracle W)
    (prm : Params) (Good : W → Prop) (bounds : W → Int → Dbl × Dbl) (w : W) (hp : PrimalShape o d.lower.length)
    (hc : Contract o Good bounds (BoundedAnswer o d bounds)) (hm : UsesMaxFractional o d prm) (htol : 0 ≤ prm.tol)
    (hg : Good w) (hs : StartsAt d bounds w) : solveFuel o d prm (iterationBound d) (initial w) ≠ none :=
  C37_ends_partial d hd hf W o prm Good bounds w hp hc (branchesOnFractional_of_max hd hp hm htol) hg hs

end Solver
end MiniMip
