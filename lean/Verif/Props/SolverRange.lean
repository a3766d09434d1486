import Verif.Props.SolverEnds

/-!
# C104: the search ends when the LP keeps the integer variables in a finite range

The bounds of the integer variables may be infinite; what counts is where the optimal solutions of the LPs lie.
-/

namespace MiniMip
namespace Solver

variable {W : Type}

/-- The LP solver's optimal solutions satisfy the LP's bounds, and if they satisfy the original bounds, their integer
variables are within `range`. -/
def RangedAnswer (o : Oracle W) (d : MipData) (range : Nat → ℚ × ℚ) (bounds : W → Int → Dbl × Dbl) (w : W) : Prop :=
  o.isOptimal w = true → ∀ values, o.primal w = .ok values → InBounds d bounds w (point values) ∧
    (InRootBounds d (point values) → ∀ n : Nat, (n : Int) ∈ d.integerVariables →
      (range n).1 ≤ point values n ∧ point values n ≤ (range n).2)

namespace Ranged

/-- The integers next to values of column `n` within its range and the box. -/
def cells (range : Nat → ℚ × ℚ) (b : Box) (n : Nat) : Set Int :=
  {k | ∃ y : ℚ, (range n).1 ≤ y ∧ y ≤ (range n).2 ∧ b n y ∧ (⌊y⌋ = k ∨ ⌈y⌉ = k)}

/-- The number of combinations of cells of the integer variables. -/
noncomputable def count (d : MipData) (range : Nat → ℚ × ℚ) (b : Box) : Nat :=
  ∏ j ∈ d.integerVariables.toFinset, (cells range b j.toNat).ncard

/-- An upper bound of the number of nodes at and below a box. -/
noncomputable def weight (d : MipData) (range : Nat → ℚ × ℚ) (b : Box) : Nat := max 1 (2 * count d range b - 1)

/-- The potential of the open boxes. -/
noncomputable def potential (d : MipData) (range : Nat → ℚ × ℚ) (bs : List Box) : Nat := (bs.map (weight d range)).sum

theorem cells_subset (range : Nat → ℚ × ℚ) (b : Box) (n : Nat) :
    cells range b n ⊆ (Finset.Icc ⌊(range n).1⌋ ⌈(range n).2⌉ : Finset Int) := by
  rintro k ⟨y, h1, h2, -, hk⟩
  have h1 := Int.floor_le_floor h1
  have h2 := Int.ceil_le_ceil h2
  have h3 := Int.floor_le_ceil y
  rw [Finset.coe_Icc, Set.mem_Icc]
  rcases hk with rfl | rfl <;> constructor <;> omega

theorem cells_finite (range : Nat → ℚ × ℚ) (b : Box) (n : Nat) : (cells range b n).Finite :=
  (Finset.finite_toSet _).subset (cells_subset range b n)

theorem cells_child (range : Nat → ℚ × ℚ) (b : Box) (col : Nat) (v : ℚ) (down : Bool) (n : Nat) :
    cells range (childBox b col v down) n ⊆ cells range b n := by
  rintro k ⟨y, h1, h2, h4, h5⟩
  exact ⟨y, h1, h2, h4.1, h5⟩

/-- The children together weigh less than the box: the cells of the branching variable are divided among them. -/
theorem weight_children {d : MipData} {range : Nat → ℚ × ℚ} (hd : DataOk d) {b : Box} {col : Nat} {x : Int → ℚ} (hcol : (col : Int) ∈ d.integerVariables) (hv : ∀ k : Int, x col ≠ k)
    (hroot : ∀ n : Nat, (n : Int) ∈ d.integerVariables → (range n).1 ≤ x n ∧ x n ≤ (range n).2)
    (hbox : InBox d b x) :
    weight d range (childBox b col (x col) true) + weight d range (childBox b col (x col) false) < weight d range b := by
  have hnat : ∀ j ∈ d.integerVariables, ((j.toNat : Nat) : Int) = j := fun j hj => by
    have := hd.ints j hj; omega
  have hpos : ∀ j ∈ d.integerVariables, 0 < (cells range b j.toNat).ncard := by
    intro j hj
    have hj' := hnat j hj
    have hm : ((j.toNat : Nat) : Int) ∈ d.integerVariables := by rw [hj']; exact hj
    rw [Set.ncard_pos (cells_finite range b _)]
    exact ⟨⌊x j.toNat⌋, x j.toNat, (hroot _ hm).1, (hroot _ hm).2, hbox _ hm, Or.inl rfl⟩
  set v := x col with hvdef
  have hlt : ⌊v⌋ < ⌈v⌉ := by
    rcases lt_or_ge ⌊v⌋ ⌈v⌉ with h | h
    · exact h
    · exfalso
      apply hv ⌊v⌋
      have h1 : (⌈v⌉ : ℚ) ≤ ⌊v⌋ := by exact_mod_cast h
      exact le_antisymm ((Int.le_ceil v).trans h1) (Int.floor_le v)
  obtain ⟨hl, hu⟩ := hroot col hcol
  have hfin := cells_finite range b col
  set A : Set Int := {k ∈ cells range b col | k ≤ ⌊v⌋} with hA
  set B : Set Int := {k ∈ cells range b col | ⌈v⌉ ≤ k} with hB
  have hAf : A.Finite := hfin.subset fun k hk => hk.1
  have hBf : B.Finite := hfin.subset fun k hk => hk.1
  have hA1 : 0 < A.ncard := by
    rw [Set.ncard_pos hAf]
    exact ⟨⌊v⌋, ⟨v, hl, hu, hbox _ hcol, Or.inl rfl⟩, le_rfl⟩
  have hB1 : 0 < B.ncard := by
    rw [Set.ncard_pos hBf]
    exact ⟨⌈v⌉, ⟨v, hl, hu, hbox _ hcol, Or.inr rfl⟩, le_rfl⟩
  have hAB : A.ncard + B.ncard ≤ (cells range b col).ncard := by
    rw [← Set.ncard_union_eq (Set.disjoint_left.2 fun k hk hk' => by
      have := hk.2; have := hk'.2; omega) hAf hBf]
    exact Set.ncard_le_ncard (Set.union_subset (fun k hk => hk.1) fun k hk => hk.1) hfin
  have hdown : cells range (childBox b col v true) col ⊆ A := by
    rintro k ⟨y, h1, h2, hy, hk⟩
    refine ⟨⟨y, h1, h2, hy.1, hk⟩, ?_⟩
    have hy' : y ≤ ⌊v⌋ := by simpa using hy.2 rfl
    have h1 : ⌈y⌉ ≤ ⌊v⌋ := Int.ceil_le.2 hy'
    have h2 := Int.floor_le_ceil y
    omega
  have hup : cells range (childBox b col v false) col ⊆ B := by
    rintro k ⟨y, h1, h2, hy, hk⟩
    refine ⟨⟨y, h1, h2, hy.1, hk⟩, ?_⟩
    have hy' : (⌈v⌉ : ℚ) ≤ y := by simpa using hy.2 rfl
    have h1 : ⌈v⌉ ≤ ⌊y⌋ := Int.le_floor.2 hy'
    have h2 := Int.floor_le_ceil y
    omega
  have hmem : (col : Int) ∈ d.integerVariables.toFinset := List.mem_toFinset.2 hcol
  set Q := ∏ j ∈ d.integerVariables.toFinset.erase (col : Int), (cells range b j.toNat).ncard with hQ
  have hQ1 : 0 < Q := Finset.prod_pos fun j hj => hpos j (by simpa using (Finset.mem_erase.1 hj).2)
  have hcount : count d range b = (cells range b col).ncard * Q := by
    rw [count, ← Finset.mul_prod_erase _ _ hmem, Int.toNat_natCast]
  have hchild : ∀ dn, count d range (childBox b col v dn) ≤ (cells range (childBox b col v dn) col).ncard * Q := by
    intro dn
    rw [count, ← Finset.mul_prod_erase _ _ hmem, Int.toNat_natCast]
    refine Nat.mul_le_mul_left _ (Finset.prod_le_prod' fun j hj => ?_)
    exact Set.ncard_le_ncard (cells_child range b col v dn _) (cells_finite range b _)
  have c1 := (hchild true).trans (Nat.mul_le_mul_right Q (Set.ncard_le_ncard hdown hAf))
  have c2 := (hchild false).trans (Nat.mul_le_mul_right Q (Set.ncard_le_ncard hup hBf))
  have c3 : A.ncard * Q + B.ncard * Q ≤ count d range b := by
    rw [hcount, ← Nat.add_mul]; exact Nat.mul_le_mul_right Q hAB
  have c4 : 0 < A.ncard * Q := Nat.mul_pos hA1 hQ1
  have c5 : 0 < B.ncard * Q := Nat.mul_pos hB1 hQ1
  unfold weight
  omega

theorem weight_pos (d : MipData) (range : Nat → ℚ × ℚ) (b : Box) : 0 < weight d range b := lt_of_lt_of_le one_pos (le_max_left _ _)

/-- Each transition lowers the potential. -/
theorem trans_potential {o : Oracle W} {d : MipData} {prm : Params} (hd : DataOk d)
    {range : Nat → ℚ × ℚ} {bounds : W → Int → Dbl × Dbl} (hbr : BranchesOnFractional o d prm)
    {bs bs' : List Box} {sols sols' : List Solution}
    (h : Trans o d prm bounds (RangedAnswer o d range bounds) bs sols bs' sols') :
    potential d range bs' < potential d range bs := by
  have hperm : ∀ {b : Box} {bs' : List Box}, bs.Perm (b :: bs') →
      potential d range bs = weight d range b + potential d range bs' := by
    intro b bs' hp
    unfold potential
    rw [(hp.map _).sum_eq]; simp
  cases h with
  | drop h1 h2 h3 h4 =>
    rw [hperm h1]
    exact Nat.lt_add_of_pos_left (weight_pos d range _)
  | record h1 h2 h3 h4 h5 h6 =>
    rw [hperm h1]
    exact Nat.lt_add_of_pos_left (weight_pos d range _)
  | split h1 h2 h3 h4 h5 h6 h7 h8 =>
    rename_i b bs1 w w' values col up v
    rw [hperm h1]
    obtain ⟨hcol, hv⟩ := hbr w values w' col up v h5 h6 h7 h8
    obtain ⟨hin, hroot⟩ := h2 h4 values h5
    obtain ⟨hin, hbox⟩ := (h3 _).1 hin
    have hroot := hroot hin
    have hpt := point_eq h8
    have hlt := weight_children (b := b) hd hcol (by rw [hpt]; exact hv) hroot hbox
    rw [hpt] at hlt
    have e : potential d range (childBox b col v (!up) :: bs1 ++ [childBox b col v up]) =
        weight d range (childBox b col v (!up)) + potential d range bs1 + weight d range (childBox b col v up) := by
      simp [potential, add_assoc]
    rw [e]
    cases up <;> simp only [Bool.not_true, Bool.not_false] <;> omega

/-- Twice the number of integer points of the range of the integer variables. -/
def iterationBound (d : MipData) (range : Nat → ℚ × ℚ) : Nat :=
  2 * ∏ j ∈ d.integerVariables.toFinset, ((⌈(range j.toNat).2⌉ - ⌊(range j.toNat).1⌋).toNat + 1)

theorem potential_lt (d : MipData) (range : Nat → ℚ × ℚ) (b : Box) :
    potential d range [b] < iterationBound d range := by
  have h1 : 2 * count d range b ≤ iterationBound d range := by
    refine Nat.mul_le_mul_left _ (Finset.prod_le_prod' fun j _ => ?_)
    refine (Set.ncard_le_ncard (cells_subset range b _) (Finset.finite_toSet _)).trans ?_
    rw [Set.ncard_coe_finset, Int.card_Icc]
    omega
  have h2 : 0 < ∏ j ∈ d.integerVariables.toFinset, ((⌈(range j.toNat).2⌉ - ⌊(range j.toNat).1⌋).toNat + 1) :=
    Finset.prod_pos fun j _ => Nat.succ_pos _
  have h3 : iterationBound d range =
      2 * ∏ j ∈ d.integerVariables.toFinset, ((⌈(range j.toNat).2⌉ - ⌊(range j.toNat).1⌋).toNat + 1) := rfl
  simp only [potential, List.map_cons, List.map_nil, List.sum_cons, List.sum_nil, weight]
  omega

theorem solveFuel_ends {o : Oracle W} {d : MipData} {prm : Params} (hd : DataOk d) {range : Nat → ℚ × ℚ}
    (hp : PrimalShape o d.lower.length) {Good : W → Prop}
    {bounds : W → Int → Dbl × Dbl} (hc : Contract o Good bounds (RangedAnswer o d range bounds))
    (hbr : BranchesOnFractional o d prm) :
    ∀ fuel s bs sols, Inv d Good bounds s bs sols → potential d range bs < fuel →
      solveFuel o d prm fuel s ≠ none := by
  intro fuel
  induction fuel with
  | zero => intro s bs sols _ h; omega
  | succ n ih =>
    intro s bs sols hi hlt
    unfold solveFuel
    split
    · rename_i s' hs'
      obtain ⟨bs', sols', hi', ht⟩ := (iterate_trans hd hp hc hi).1 s' hs'
      exact ih s' bs' sols' hi' (by have := trans_potential hd hbr ht; omega)
    all_goals simp

end Ranged

/-- **C104 for the loop.**  For every data, with finite bounds or not: if the optimal solutions of the LPs have their
integer variables in a finite range, and the branching rule chooses integer variables with a non-integral value, `Solve`
ends within twice as many iterations as the range has integer points. -/
theorem C104_ranged_ends (d : MipData) (hd : DataOk d) (range : Nat → ℚ × ℚ) (W : Type) (o : Oracle W)
    (prm : Params) (Good : W → Prop) (bounds : W → Int → Dbl × Dbl) (w : W) (hp : PrimalShape o d.lower.length)
    (hc : Contract o Good bounds (RangedAnswer o d range bounds)) (hbr : BranchesOnFractional o d prm) (hg : Good w)
    (hs : StartsAt d bounds w) : solveFuel o d prm (Ranged.iterationBound d range) (initial w) ≠ none := by
  obtain ⟨b, hb, hi⟩ := inv_init (d := d) hg hs
  exact Ranged.solveFuel_ends hd hp hc hbr _ _ _ _ hi (Ranged.potential_lt d range b)

end Solver
end MiniMip
