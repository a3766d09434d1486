import Verif.Props.SolverEnds
import Verif.Lemmas.SolverGuard
import Mathlib.Data.Nat.Choose.Central
import Mathlib.Order.Interval.Finset.Nat

/-!
# C112: how many open nodes the search keeps

The other files look at the open nodes as a bag.  Here their order matters: the preferred child goes to the front of the
queue, the other one to its end, and the next node is taken from the end after a back-jump, else from the front.
-/

namespace MiniMip
namespace Solver

variable {W : Type}

/-- The reachable states of the guarded search are reachable. -/
theorem guard_reach_back {o : Oracle W} {d : MipData} {Good : W → Prop} (h : Keeps o d Good) (prm : Params)
    {s₀ : State W} (hg : Good s₀.world) {s : State W} (hr : Reach (guard o Good) d prm s₀ s) :
    Reach o d prm s₀ s ∧ Good s.world := by
  induction hr with
  | refl => exact ⟨.refl, hg⟩
  | step _ hi ih =>
    obtain ⟨h1, h2, -⟩ := guard_iterate h prm ih.2
    rw [h1] at hi
    exact ⟨ih.1.step hi, h2 _ hi⟩

/-- The flags after an iteration that goes on.  A node is added to the queue exactly when the iteration branches. -/
theorem iterate_flags {o : Oracle W} {d : MipData} {prm : Params} {s s' : State W}
    (h : iterate o d prm s = .ok (.again s')) :
    (s'.queue.length = s.queue.length + 1 ∧ s'.backjump = false ∧ s'.infeasible = 0) ∨
    (s'.queue.length + 1 = s.queue.length ∧ o.isOptimal s'.world = true ∧ s'.backjump = true ∧ s'.infeasible = 0) ∨
    (s'.queue.length + 1 = s.queue.length ∧ o.isOptimal s'.world = false ∧
      s'.backjump = decide (s.infeasible + 1 > prm.backtrackLimit) ∧
      s'.infeasible = if s.infeasible + 1 > prm.backtrackLimit then 0 else s.infeasible + 1) := by
  have hpop : ∀ node queue, pop s.backjump s.queue = some (node, queue) → queue.length + 1 = s.queue.length := by
    intro node queue hp
    unfold pop at hp
    split at hp
    · split at hp
      · cases hp
      · rename_i n hn
        simp only [Option.some.injEq, Prod.mk.injEq] at hp
        rw [← hp.2, List.length_dropLast]
        have : s.queue ≠ [] := by rintro h0; simp [h0] at hn
        have := List.length_pos_iff.2 this
        omega
    · split at hp
      · cases hp
      · rename_i n r hq
        simp only [Option.some.injEq, Prod.mk.injEq] at hp
        simp [hq, hp.2]
  unfold iterate at h
  split at h
  · cases h
  · rename_i node queue hp
    have hlen := hpop _ _ hp
    obtain ⟨lb, -, h⟩ := Outcome.bind_eq_ok.1 h
    obtain ⟨ub, -, h⟩ := Outcome.bind_eq_ok.1 h
    obtain ⟨w, -, h⟩ := Outcome.bind_eq_ok.1 h
    split at h
    · rename_i hopt
      unfold optimalNode at h
      obtain ⟨tree, -, h⟩ := Outcome.bind_eq_ok.1 h
      obtain ⟨values, -, h⟩ := Outcome.bind_eq_ok.1 h
      obtain ⟨integral, -, h⟩ := Outcome.bind_eq_ok.1 h
      split at h
      · dsimp only at h
        split at h
        · simp [Outcome.pure_eq] at h
        · simp only [Outcome.pure_eq, Outcome.ok.injEq, Step.again.injEq] at h
          subst h
          exact .inr (.inl ⟨hlen, hopt, rfl, rfl⟩)
      · unfold branchNode at h
        obtain ⟨⟨w', col, up⟩, -, h⟩ := Outcome.bind_eq_ok.1 h
        obtain ⟨v, -, h⟩ := Outcome.bind_eq_ok.1 h
        obtain ⟨⟨t1, n1⟩, -, h⟩ := Outcome.bind_eq_ok.1 h
        obtain ⟨⟨t2, n2⟩, -, h⟩ := Outcome.bind_eq_ok.1 h
        simp only [Outcome.pure_eq, Outcome.ok.injEq, Step.again.injEq] at h
        subst h
        refine .inl ⟨?_, rfl, rfl⟩
        cases up <;> simp <;> omega
    · rename_i hopt
      unfold infeasibleNode at h
      split at h
      · cases h
      · obtain ⟨tree, -, h⟩ := Outcome.bind_eq_ok.1 h
        dsimp only at h
        split at h <;> rename_i hk <;>
          simp only [Outcome.pure_eq, Outcome.ok.injEq, Step.again.injEq] at h <;> subst h
        · exact .inr (.inr ⟨hlen, by simpa using hopt, by simp [hk], by simp [hk]⟩)
        · exact .inr (.inr ⟨hlen, by simpa using hopt, by simp [hk], by simp [hk]⟩)

/-- What an iteration that goes on does to the queue of open boxes, in order, and to the flags. -/
inductive Moves (o : Oracle W) (d : MipData) (prm : Params) (bounds : W → Int → Dbl × Dbl) (Answer : W → Prop)
    (s : State W) (bs : List Box) (s' : State W) : List Box → Prop
  | drop {b bs' w} : PopSpec s.backjump bs b bs' → Answer w →
      (∀ x, InBounds d bounds w x ↔ InRootBounds d x ∧ InBox d b x) → o.isOptimal w = false →
      s'.backjump = decide (s.infeasible + 1 > prm.backtrackLimit) →
      s'.infeasible = (if s.infeasible + 1 > prm.backtrackLimit then 0 else s.infeasible + 1) →
      Moves o d prm bounds Answer s bs s' bs'
  | record {b bs' w values} : PopSpec s.backjump bs b bs' → Answer w →
      (∀ x, InBounds d bounds w x ↔ InRootBounds d x ∧ InBox d b x) → o.isOptimal w = true →
      o.primal w = .ok values → d.solutionIsIntegral values prm.tol = .ok true →
      s'.backjump = true → s'.infeasible = 0 → Moves o d prm bounds Answer s bs s' bs'
  | split {b bs' w w' values col up v} : PopSpec s.backjump bs b bs' → Answer w →
      (∀ x, InBounds d bounds w x ↔ InRootBounds d x ∧ InBox d b x) → o.isOptimal w = true →
      o.primal w = .ok values → d.solutionIsIntegral values prm.tol = .ok false →
      o.branch w = .ok (w', ((col : Nat) : Int), up) → values[col]? = some v →
      s'.backjump = false → s'.infeasible = 0 →
      Moves o d prm bounds Answer s bs s' (childBox b col v (!up) :: bs' ++ [childBox b col v up])

theorem sim_length {nc : Nat} {queue : List Int} {tree : MipTree} {bs : List Box} (h : Sim nc queue tree bs) :
    queue.length = bs.length := by
  obtain ⟨t, q, h1, rfl⟩ := h
  rw [h1.queue]; simp

/-- `iterate_trans` with the order of the queue and the flags. -/
theorem iterate_moves {o : Oracle W} {d : MipData} {prm : Params} {Good : W → Prop}
    {bounds : W → Int → Dbl × Dbl} {Answer : W → Prop} (hd : DataOk d)
    (hp : PrimalShape o d.lower.length) (hc : Contract o Good bounds Answer) {s s' : State W}
    {bs : List Box} {sols : List Solution} (h : Inv d Good bounds s bs sols)
    (hi : iterate o d prm s = .ok (.again s')) :
    ∃ bs' sols', Inv d Good bounds s' bs' sols' ∧ Moves o d prm bounds Answer s bs s' bs' := by
  have hlen := sim_length h.sim
  cases iterate_spec hd hp h.sim hi with
  | @infeasible b bs' lb ub w _ h1 h2 h3 h4 h5 h6 h7 =>
    obtain ⟨g, k⟩ := world_step hc h.good h.kept h3
    have e1 := sim_length h5
    have e2 := h1.perm.length_eq
    simp only [List.length_cons] at e2
    refine ⟨bs', sols, ⟨h5, by rw [h6]; exact g, by rw [h6]; exact k, by rw [h7, h.result]⟩, ?_⟩
    rcases iterate_flags hi with f | f | f
    · omega
    · rw [h6, h4] at f; exact absurd f.2.1 (by simp)
    · exact .drop h1 (solveNode_spec hc h.good h3).2.1 (inBounds_iff hd hc h2 h.good h.kept h3) h4 f.2.2.1 f.2.2.2
  | @integral b bs' lb ub w values s2 _ h1 h2 h3 h4 h5 h6 h7 h8 h9 h10 =>
    obtain ⟨g, k⟩ := world_step hc h.good h.kept h3
    rcases h10 with h10 | ⟨h10, -⟩
    · cases h10
      have e1 := sim_length h7
      have e2 := h1.perm.length_eq
      simp only [List.length_cons] at e2
      refine ⟨bs', _, ⟨h7, by rw [h8]; exact g, by rw [h8]; exact k, by rw [h9, h.result, addAll_snoc]⟩, ?_⟩
      rcases iterate_flags hi with f | f | f
      · omega
      · exact .record h1 (solveNode_spec hc h.good h3).2.1 (inBounds_iff hd hc h2 h.good h.kept h3) h4 h5 h6
          f.2.2.1 f.2.2.2
      · rw [h8, h4] at f; exact absurd f.2.1 (by simp)
    · cases h10
  | @branch b bs' lb ub w w' values col up v _ h1 h2 h3 h4 h5 h6 h7 h8 h9 h10 h11 =>
    obtain ⟨g, k⟩ := world_step hc h.good h.kept h3
    obtain ⟨g', k'⟩ := hc.branch w w' _ _ g h7
    have e1 := sim_length h9
    have e2 := h1.perm.length_eq
    simp only [List.length_cons, List.length_append, List.length_nil] at e1 e2
    refine ⟨_, sols, ⟨h9, by rw [h10]; exact g', ?_, by rw [h11, h.result]⟩, ?_⟩
    · rw [h10]
      intro n l u hn hl hu
      rw [k']; exact k n l u hn hl hu
    · rcases iterate_flags hi with f | f | f
      · exact .split h1 (solveNode_spec hc h.good h3).2.1 (inBounds_iff hd hc h2 h.good h.kept h3) h4 h5 h6 h7 h8
          f.2.1 f.2.2
      · omega
      · omega

/-! ### Few open nodes -/

/-- How often a box can be split: the cells of the integer variables that are left, less one each. -/
noncomputable def slack (d : MipData) (b : Box) : Nat :=
  ∑ j ∈ d.integerVariables.toFinset, ((cells d b j.toNat).ncard - 1)

/-- How often the root box can be split along a path: the widths of the ranges of the integer variables. -/
def depthBound (d : MipData) : Nat :=
  ∑ j ∈ d.integerVariables.toFinset, (span d.lower[j.toNat]? d.upper[j.toNat]? - 1)

theorem slack_le {d : MipData} (hd : DataOk d) (hf : FiniteIntegerBounds d) (b : Box) : slack d b ≤ depthBound d := by
  refine Finset.sum_le_sum fun j hj => ?_
  have hj : j ∈ d.integerVariables := by simpa using hj
  obtain ⟨l, u, hl, hu⟩ := hf j.toNat (by have := hd.ints j hj; rwa [Int.toNat_of_nonneg this.1])
  rw [hl, hu]
  have hsub : cells d b j.toNat ⊆ (Finset.Icc ⌊l⌋ ⌈u⌉ : Finset Int) := by
    rintro k ⟨l', u', y, hl', hu', hb, -, hk⟩
    rw [hl] at hl'; rw [hu] at hu'
    simp only [Option.some.injEq] at hl' hu'
    subst hl' hu'
    unfold Between at hb
    simp only [Dbl.le_fin] at hb
    have h1 := Int.floor_le_floor hb.1
    have h2 := Int.ceil_le_ceil hb.2
    have h3 := Int.floor_le_ceil y
    rw [Finset.coe_Icc, Set.mem_Icc]
    rcases hk with rfl | rfl <;> constructor <;> omega
  have := Set.ncard_le_ncard hsub (Finset.finite_toSet _)
  rw [Set.ncard_coe_finset, Int.card_Icc] at this
  simp only [span]
  omega

/-- A child can be split less often than its parent. -/
theorem slack_child {d : MipData} (hd : DataOk d) (hf : FiniteIntegerBounds d) {b : Box} {col : Nat}
    {x : Int → ℚ} (hcol : (col : Int) ∈ d.integerVariables) (hv : ∀ k : Int, x col ≠ k)
    (hroot : InRootBounds d x) (hbox : InBox d b x) (down : Bool) :
    slack d (childBox b col (x col) down) + 1 ≤ slack d b := by
  have hnat : ∀ j ∈ d.integerVariables, ((j.toNat : Nat) : Int) = j := fun j hj => by
    have := hd.ints j hj; omega
  set v := x col with hvdef
  have hlt : ⌊v⌋ < ⌈v⌉ := by
    rcases lt_or_ge ⌊v⌋ ⌈v⌉ with h | h
    · exact h
    · exfalso
      apply hv ⌊v⌋
      have h1 : (⌈v⌉ : ℚ) ≤ ⌊v⌋ := by exact_mod_cast h
      exact le_antisymm ((Int.le_ceil v).trans h1) (Int.floor_le v)
  obtain ⟨l, u, hl, hu⟩ := hf col hcol
  have hb := hroot _ _ _ hl hu
  have hfin := cells_finite hf b hcol
  have hm1 : ⌊v⌋ ∈ cells d b col := ⟨_, _, v, hl, hu, hb, hbox _ hcol, Or.inl rfl⟩
  have hm2 : ⌈v⌉ ∈ cells d b col := ⟨_, _, v, hl, hu, hb, hbox _ hcol, Or.inr rfl⟩
  have hmiss : ∃ k ∈ cells d b col, k ∉ cells d (childBox b col v down) col := by
    cases down with
    | true =>
      refine ⟨_, hm2, ?_⟩
      rintro ⟨l', u', y, -, -, -, hy, hk⟩
      have hy' : y ≤ ⌊v⌋ := by simpa using hy.2 rfl
      have h1 : ⌈y⌉ ≤ ⌊v⌋ := Int.ceil_le.2 hy'
      have h2 := Int.floor_le_ceil y
      omega
    | false =>
      refine ⟨_, hm1, ?_⟩
      rintro ⟨l', u', y, -, -, -, hy, hk⟩
      have hy' : (⌈v⌉ : ℚ) ≤ y := by simpa using hy.2 rfl
      have h1 : ⌈v⌉ ≤ ⌊y⌋ := Int.le_floor.2 hy'
      have h2 := Int.floor_le_ceil y
      omega
  have hlt2 : (cells d (childBox b col v down) col).ncard < (cells d b col).ncard := by
    obtain ⟨k, hk1, hk2⟩ := hmiss
    exact Set.ncard_lt_ncard ⟨cells_child d b col v down col, fun h => hk2 (h hk1)⟩ hfin
  have htwo : 2 ≤ (cells d b col).ncard := by
    have : ({⌊v⌋, ⌈v⌉} : Set Int).ncard ≤ (cells d b col).ncard :=
      Set.ncard_le_ncard (by rintro k (rfl | rfl); exacts [hm1, hm2]) hfin
    rwa [Set.ncard_pair (by omega)] at this
  have hmem : (col : Int) ∈ d.integerVariables.toFinset := List.mem_toFinset.2 hcol
  unfold slack
  rw [← Finset.add_sum_erase _ _ hmem, ← Finset.add_sum_erase _ _ hmem, Int.toNat_natCast]
  have hrest : ∑ j ∈ d.integerVariables.toFinset.erase (col : Int), ((cells d (childBox b col v down) j.toNat).ncard - 1) ≤
      ∑ j ∈ d.integerVariables.toFinset.erase (col : Int), ((cells d b j.toNat).ncard - 1) := by
    refine Finset.sum_le_sum fun j hj => ?_
    have hj : j ∈ d.integerVariables := by simpa using (Finset.mem_erase.1 hj).2
    exact Nat.sub_le_sub_right
      (Set.ncard_le_ncard (cells_child d b col v down _) (cells_finite hf b (by rw [hnat j hj]; exact hj))) 1
  omega

/-- The depths of the open boxes when every node without children makes the search jump back: in strictly increasing order,
with, after branching, a box as deep as the last one in front. -/
def Stacked (backjump : Bool) (ds : List Nat) : Prop :=
  if backjump then ds.Pairwise (· < ·) ∧ (ds = [0] ∨ ∀ k ∈ ds, 1 ≤ k)
  else ∃ k t, ds = k :: (t ++ [k]) ∧ (t ++ [k]).Pairwise (· < ·) ∧ ∀ i ∈ t ++ [k], 1 ≤ i

theorem length_le_of_pairwise {ds : List Nat} {a R : Nat} (h : ds.Pairwise (· < ·)) (hR : ∀ k ∈ ds, a ≤ k ∧ k ≤ R) :
    ds.length ≤ R + 1 - a := by
  have hn : ds.Nodup := h.imp fun h => Nat.ne_of_lt h
  rw [← List.toFinset_card_of_nodup hn, ← Nat.card_Icc]
  exact Finset.card_le_card fun k hk => Finset.mem_Icc.2 (hR k (List.mem_toFinset.1 hk))

theorem Stacked.length_le {bj : Bool} {ds : List Nat} {R : Nat} (h : Stacked bj ds) (hR : ∀ k ∈ ds, k ≤ R) :
    ds.length ≤ R + 1 := by
  unfold Stacked at h
  split at h
  · simpa using length_le_of_pairwise (a := 0) h.1 fun k hk => ⟨Nat.zero_le _, hR k hk⟩
  · obtain ⟨k, t, rfl, h1, h2⟩ := h
    have := length_le_of_pairwise (a := 1) h1 fun i hi => ⟨h2 i hi, hR i (List.mem_cons_of_mem _ hi)⟩
    simpa using this

/-- Taking a box and dropping it leaves increasing depths; taking it and putting its children in front and at the end leaves a
stack. -/
theorem Stacked.pop {bj : Bool} {ds ds' : List Nat} {k : Nat} (h : Stacked bj ds) (hp : PopSpec bj ds k ds') :
    Stacked true ds' ∧ Stacked false ((k + 1) :: (ds' ++ [k + 1])) := by
  unfold Stacked PopSpec at *
  cases bj with
  | true =>
    simp only [if_true] at h hp
    subst hp
    obtain ⟨h1, h2⟩ := h
    have hlt : ∀ i ∈ ds', i < k := fun i hi => (List.pairwise_append.1 h1).2.2 i hi k (by simp)
    have hpos : ∀ i ∈ ds', 1 ≤ i := by
      rcases h2 with h2 | h2
      · have : ds' = [] := by
          have := congrArg List.length h2
          simp at this; exact this
        simp [this]
      · exact fun i hi => h2 i (by simp [hi])
    have hinc := (List.pairwise_append.1 h1).1
    refine ⟨by simp only [if_true]; exact ⟨hinc, .inr hpos⟩, ?_⟩
    simp only [Bool.false_eq_true, if_false]
    refine ⟨k + 1, ds', rfl, List.pairwise_append.2 ⟨hinc, by simp, fun i hi j hj => ?_⟩, fun i hi => ?_⟩
    · obtain rfl := List.mem_singleton.1 hj
      have := hlt i hi; omega
    · rcases List.mem_append.1 hi with hi | hi
      · exact hpos i hi
      · obtain rfl := List.mem_singleton.1 hi; omega
  | false =>
    simp only [Bool.false_eq_true, if_false] at h hp
    subst hp
    obtain ⟨k', t, h1, h2, h3⟩ := h
    simp only [List.cons.injEq] at h1
    obtain ⟨rfl, rfl⟩ := h1
    refine ⟨by simp only [if_true]; exact ⟨h2, .inr h3⟩, ?_⟩
    simp only [Bool.false_eq_true, if_false]
    refine ⟨k + 1, t ++ [k], rfl, List.pairwise_append.2 ⟨h2, by simp, fun i hi j hj => ?_⟩, fun i hi => ?_⟩
    · obtain rfl := List.mem_singleton.1 hj
      rcases List.mem_append.1 hi with hi | hi
      · have := (List.pairwise_append.1 h2).2.2 i hi k (by simp); omega
      · obtain rfl := List.mem_singleton.1 hi; omega
    · rcases List.mem_append.1 hi with hi | hi
      · exact h3 i hi
      · obtain rfl := List.mem_singleton.1 hi; omega

theorem popSpec_forall₂ {α β : Type} {R : α → β → Prop} {bj : Bool} {l l' : List α} {x : α} {m : List β}
    (h : List.Forall₂ R l m) (hp : PopSpec bj l x l') :
    ∃ y m', PopSpec bj m y m' ∧ R x y ∧ List.Forall₂ R l' m' := by
  unfold PopSpec at *
  cases bj with
  | true =>
    simp only [if_true] at *
    subst hp
    have hr : List.Forall₂ R (x :: l'.reverse) m.reverse := by simpa using List.rel_reverse h
    obtain ⟨y, m', h1, h2, h3⟩ := List.forall₂_cons_left_iff.1 hr
    refine ⟨y, m'.reverse, ?_, h1, by simpa using List.rel_reverse h2⟩
    rw [← List.reverse_reverse m, h3]; simp
  | false =>
    simp only [Bool.false_eq_true, if_false] at *
    subst hp
    cases h with
    | cons h3 h4 => exact ⟨_, _, rfl, h3, h4⟩

/-- With a backtrack limit of 0 or less, the open nodes are at most one more than the integer variables can be split along a
path. -/
theorem few_open {o : Oracle W} {d : MipData} {prm : Params} {Good : W → Prop} {bounds : W → Int → Dbl × Dbl} {w : W}
    (hd : DataOk d) (hf : FiniteIntegerBounds d) (hp : PrimalShape o d.lower.length)
    (hc : Contract o Good bounds (BoundedAnswer o d bounds)) (hbr : BranchesOnFractional o d prm)
    (hlim : prm.backtrackLimit ≤ 0) (hg : Good w) (hs : StartsAt d bounds w) {s : State W}
    (h : Reach o d prm (initial w) s) : s.queue.length ≤ depthBound d + 1 := by
  have key : ∃ bs sols ds, Inv d Good bounds s bs sols ∧ s.infeasible = 0 ∧ Stacked s.backjump ds ∧
      List.Forall₂ (fun b k => slack d b + k ≤ depthBound d) bs ds := by
    induction h with
    | refl =>
      obtain ⟨b, -, hi⟩ := inv_init (d := d) hg hs
      exact ⟨_, _, [0], hi, rfl, by simp [Stacked, initial], .cons (by simpa using slack_le hd hf b) .nil⟩
    | step _ hit ih =>
      obtain ⟨bs, sols, ds, hi, hz, hst, hfa⟩ := ih
      obtain ⟨bs', sols', hi', hm⟩ := iterate_moves hd hp hc hi hit
      cases hm with
      | drop h1 _ _ _ h5 h6 =>
        rw [if_pos (by omega)] at h6
        obtain ⟨k, ds', k1, -, k3⟩ := popSpec_forall₂ hfa h1
        rw [decide_eq_true (by omega)] at h5
        exact ⟨_, _, ds', hi', h6, by rw [h5]; exact (hst.pop k1).1, k3⟩
      | record h1 _ _ _ _ _ h7 h8 =>
        obtain ⟨k, ds', k1, -, k3⟩ := popSpec_forall₂ hfa h1
        exact ⟨_, _, ds', hi', h8, by rw [h7]; exact (hst.pop k1).1, k3⟩
      | split h1 h2 h3 h4 h5 h6 h7 h8 h9 h10 =>
        rename_i b bs1 w1 w2 values col up v
        obtain ⟨k, ds', k1, k2, k3⟩ := popSpec_forall₂ hfa h1
        obtain ⟨hcol, hv⟩ := hbr w1 values w2 col up v h5 h6 h7 h8
        obtain ⟨hroot, hbox⟩ := (h3 _).1 (h2 h4 values h5)
        have hpt := point_eq h8
        have hch : ∀ down, slack d (childBox b col v down) + (k + 1) ≤ depthBound d := by
          intro down
          have := slack_child (b := b) hd hf hcol (by rw [hpt]; exact hv) hroot hbox down
          rw [hpt] at this
          omega
        exact ⟨_, _, (k + 1) :: (ds' ++ [k + 1]), hi', h10, by rw [h9]; exact (hst.pop k1).2,
          .cons (hch _) (List.rel_append k3 (.cons (hch _) .nil))⟩
  obtain ⟨bs, sols, ds, hi, -, hst, hfa⟩ := key
  rw [sim_length hi.sim, hfa.length_eq]
  refine hst.length_le fun k hk => ?_
  obtain ⟨i, hi⟩ := List.getElem?_of_mem hk
  have hlt := (List.getElem?_eq_some_iff.1 hi).1
  have := List.Forall₂.get hfa (i := i) (by rw [hfa.length_eq]; exact hlt) hlt
  have e : ds.get ⟨i, hlt⟩ = k := by simpa using (List.getElem?_eq_some_iff.1 hi).2
  rw [e] at this
  omega

/-! ### Many open nodes -/

/-- How many boxes a box with `a` ones has below it that are the last but `k` with their zeros. -/
def below (m a k : Nat) : Nat := if a ≤ m then (m - a + k).choose k else if k = 0 then 1 else 0

theorem below_split {m a k : Nat} (h : a ≤ m) : below m a (k + 1) = below m (a + 1) (k + 1) + below m a k := by
  unfold below
  rw [if_pos h, if_pos h]
  split
  · rename_i h'
    obtain ⟨n, rfl⟩ : ∃ n, m = a + 1 + n := ⟨m - (a + 1), by omega⟩
    rw [show a + 1 + n - a + (k + 1) = (n + k + 1) + 1 by omega, show a + 1 + n - (a + 1) + (k + 1) = n + k + 1 by omega,
      show a + 1 + n - a + k = n + k + 1 by omega, Nat.choose_succ_succ]
    ring
  · obtain rfl : a = m := by omega
    simp

/-- The queue of a search that follows the ones first and comes back to the oldest boxes: boxes with `z` zeros, then boxes
with `z + 1`.  The first of them may have `m + 1` ones, the others have at most `m`. -/
structure Wave (Label : Nat → Nat → Box → Prop) (m z : Nat) (A B : List Nat) (bs : List Box) : Prop where
  boxes : List.Forall₂ (fun b l => Label l.1 l.2 b) bs (A.map (·, z) ++ B.map (·, z + 1))
  first : ∀ a ∈ A.head?, a ≤ m + 1
  later : ∀ a ∈ A.tail, a ≤ m
  last : ∀ a ∈ B, a ≤ m

/-- The search has as many open nodes at some point as the root has boxes below it with `m` zeros. -/
theorem many_open {o : Oracle W} {d : MipData} {prm : Params} {Good : W → Prop}
    {bounds : W → Int → Dbl × Dbl} {Answer : W → Prop} {w : W} (hd : DataOk d)
    (hp : PrimalShape o d.lower.length) (hc : Contract o Good bounds Answer)
    (hg : Good w) (hs : StartsAt d bounds w) (hlim : 1 ≤ prm.backtrackLimit) (Label : Nat → Nat → Box → Prop) (m : Nat)
    (hL : ∀ b : Box, (∀ j y, b j y) → Label 0 0 b)
    (hdead : ∀ (z : Nat) (b : Box) (w : W), Answer w → Label (m + 1) z b → z < m →
      (∀ x, InBounds d bounds w x ↔ InRootBounds d x ∧ InBox d b x) → o.isOptimal w = false)
    (hnode : ∀ (a z : Nat) (b : Box) (w : W), Answer w → Label a z b → a ≤ m → z < m →
      (∀ x, InBounds d bounds w x ↔ InRootBounds d x ∧ InBox d b x) → o.isOptimal w = true ∧
      ∀ values, o.primal w = .ok values → d.solutionIsIntegral values prm.tol ≠ .ok true ∧
        ∀ w' (col : Nat) up v, d.solutionIsIntegral values prm.tol = .ok false →
          o.branch w = .ok (w', (col : Int), up) → values[col]? = some v →
          Label (a + 1) z (childBox b col v (!up)) ∧ Label a (z + 1) (childBox b col v up)) {fuel : Nat}
    (hok : (∃ s, solveFuel o d prm fuel (initial w) = some (.ok s)) ∨
      ∃ e, solveFuel o d prm fuel (initial w) = some (.error e)) :
    ∃ s, Reach o d prm (initial w) s ∧ s.queue.length = m.centralBinom := by
  have key : ∀ fuel s bs sols z A B, Reach o d prm (initial w) s → Inv d Good bounds s bs sols → z ≤ m →
      Wave Label m z A B bs → (z = m → B = []) → A ≠ [] →
      (s.backjump = false ∨ bs.length = 1) → (∀ a ∈ A.head?, a = m + 1 → s.infeasible = 0) →
      (A.map (below m · (m - z))).sum + (B.map (below m · (m - (z + 1)))).sum = m.centralBinom →
      ((∃ s', solveFuel o d prm fuel s = some (.ok s')) ∨ ∃ e, solveFuel o d prm fuel s = some (.error e)) →
      ∃ s, Reach o d prm (initial w) s ∧ s.queue.length = m.centralBinom := by
    intro fuel
    induction fuel with
    | zero => intro s bs sols z A B _ _ _ _ _ _ _ _ _ h; simp [solveFuel] at h
    | succ fuel ih =>
      intro s bs sols z A B hr hi hz hw hend hA hbj hinf hsum hout
      rcases Nat.lt_or_ge z m with hlt | hge
      swap
      · obtain rfl : z = m := by omega
        refine ⟨s, hr, ?_⟩
        rw [hend rfl] at hsum hw
        have e : ∀ l : List Nat, (l.map (below z · 0)).sum = l.length := by
          intro l
          have : ∀ a, below z a 0 = 1 := fun a => by unfold below; split <;> simp
          simp [this]
        rw [sim_length hi.sim, hw.boxes.length_eq, ← hsum, Nat.sub_self, e]
        simp
      obtain ⟨a, A', rfl⟩ := List.exists_cons_of_ne_nil hA
      have ha : a ≤ m + 1 := hw.first a rfl
      obtain ⟨b, bs', hla, hrest, rfl⟩ : ∃ b bs', Label a z b ∧
          List.Forall₂ (fun b l => Label l.1 l.2 b) bs' (A'.map (·, z) ++ B.map (·, z + 1)) ∧ bs = b :: bs' := by
        have := hw.boxes
        rw [List.map_cons, List.cons_append] at this
        obtain ⟨b, bs', h1, h2, h3⟩ := List.forall₂_cons_right_iff.1 this
        exact ⟨b, bs', h1, h2, h3⟩
      have hpop : ∀ b1 bs1, PopSpec s.backjump (b :: bs') b1 bs1 → b1 = b ∧ bs1 = bs' := by
        intro b1 bs1 h
        unfold PopSpec at h
        rcases hbj with hbj | hbj
        · rw [hbj] at h
          simp only [Bool.false_eq_true, if_false, List.cons.injEq] at h
          exact ⟨h.1.symm, h.2.symm⟩
        · simp only [List.length_cons, Nat.add_eq_right, List.length_eq_zero_iff] at hbj
          subst hbj
          split at h
          swap
          · simp only [List.cons.injEq] at h; exact ⟨h.1.symm, h.2.symm⟩
          · have : bs1 = [] := by
              have := congrArg List.length h
              simpa using this
            subst this
            simp only [List.nil_append, List.cons.injEq, and_true] at h
            exact ⟨h.symm, rfl⟩
      unfold solveFuel at hout
      cases hit : iterate o d prm s with
      | abort => rw [hit] at hout; simp at hout
      | ub => rw [hit] at hout; simp at hout
      | error e =>
        obtain ⟨w, hans, hopt, hx⟩ := (iterate_trans (prm := prm) hd hp hc hi).2.2 _ hit
        have := (hnode 0 0 (fun _ _ => True) w hans (hL _ fun _ _ => trivial) (by omega) (by omega) fun x => by
          rw [hx x]; exact ⟨fun h => ⟨h, fun _ _ => trivial⟩, fun h => h.1⟩).1
        rw [hopt] at this; cases this
      | ok res =>
        cases res with
        | stop s' =>
          obtain ⟨sols', -, hfin⟩ := (iterate_trans (prm := prm) hd hp hc hi).2.1 s' hit
          cases hfin with
          | root hans hx _ hv hint =>
            have := ((hnode 0 0 (fun _ _ => True) _ hans (hL _ fun _ _ => trivial) (by omega) (by omega) fun x => by
              rw [hx x]; exact ⟨fun h => ⟨h, fun _ _ => trivial⟩, fun h => h.1⟩).2 _ hv).1
            exact absurd hint this
        | again s' =>
          rw [hit] at hout
          obtain ⟨bs2, sols2, hi', hm⟩ := iterate_moves hd hp hc hi hit
          cases hm with
          | drop h1 h2 h3 h4 h5 h6 =>
            obtain ⟨rfl, rfl⟩ := hpop _ _ h1
            have ham : a = m + 1 := by
              by_contra hne
              rw [(hnode a z _ _ h2 hla (by omega) hlt h3).1] at h4; cases h4
            have h0 := hinf a rfl ham
            rw [decide_eq_false (by omega)] at h5
            have hb0 : below m a (m - z) = 0 := by
              unfold below; rw [if_neg (by omega), if_neg (by omega)]
            rw [List.map_cons, List.sum_cons, hb0, Nat.zero_add] at hsum
            rcases A' with _ | ⟨a', A'⟩
            · have hB : B ≠ [] := by
                rintro rfl
                have := m.centralBinom_pos
                simp at hsum; omega
              refine ih s' _ sols2 (z + 1) B [] (hr.step hit) hi' hlt ⟨by simpa using hrest, ?_, ?_, by simp⟩
                (fun _ => rfl) hB (.inl h5) ?_ ?_ hout
              · intro a ha; exact (hw.last a (List.mem_of_mem_head? ha)).trans (Nat.le_succ m)
              · intro a ha; exact hw.last a (List.mem_of_mem_tail ha)
              · intro a ha hne; have := hw.last a (List.mem_of_mem_head? ha); omega
              · simpa using hsum
            · refine ih s' _ sols2 z (a' :: A') B (hr.step hit) hi' hz ⟨hrest, ?_, ?_, hw.last⟩ (fun h => by omega)
                (by simp) (.inl h5) ?_ hsum hout
              · intro a ha
                exact (hw.later a (List.mem_of_mem_head? ha)).trans (Nat.le_succ m)
              · intro a ha; exact hw.later a (List.mem_of_mem_tail ha)
              · intro a ha hne; have := hw.later a (List.mem_of_mem_head? ha); omega
          | record h1 h2 h3 h4 h5 h6 h7 h8 =>
            obtain ⟨rfl, rfl⟩ := hpop _ _ h1
            rcases Nat.lt_or_ge m a with ham | ham
            · obtain rfl : a = m + 1 := by omega
              rw [hdead _ _ _ h2 hla hlt h3] at h4; cases h4
            · exact absurd h6 ((hnode a z _ _ h2 hla ham hlt h3).2 _ h5).1
          | split h1 h2 h3 h4 h5 h6 h7 h8 h9 h10 =>
            obtain ⟨rfl, rfl⟩ := hpop _ _ h1
            rcases Nat.lt_or_ge m a with ham | ham
            · obtain rfl : a = m + 1 := by omega
              rw [hdead _ _ _ h2 hla hlt h3] at h4; cases h4
            · obtain ⟨c1, c2⟩ := ((hnode a z _ _ h2 hla ham hlt h3).2 _ h5).2 _ _ _ _ h6 h7 h8
              refine ih s' _ sols2 z ((a + 1) :: A') (B ++ [a]) (hr.step hit) hi' hz ⟨?_, ?_, hw.later, ?_⟩
                (fun h => by omega) (by simp) (.inl h9) (fun _ _ _ => h10) ?_ hout
              · have := List.rel_append hrest (List.Forall₂.cons (R := fun (b : Box) (l : Nat × Nat) => Label l.1 l.2 b)
                  (b := (a, z + 1)) c2 .nil)
                simpa using this.cons (a := _) (b := ((a + 1, z) : Nat × Nat)) c1
              · intro a' ha'
                simp only [List.head?_cons, Option.mem_def, Option.some.injEq] at ha'
                omega
              · intro a' ha'
                rcases List.mem_append.1 ha' with h | h
                · exact hw.last a' h
                · obtain rfl := List.mem_singleton.1 h; exact ham
              · obtain ⟨k, hk⟩ : ∃ k, m - z = k + 1 := ⟨m - z - 1, by omega⟩
                have hk' : m - (z + 1) = k := by omega
                rw [hk, hk'] at hsum
                rw [hk, hk']
                simp only [List.map_cons, List.sum_cons, List.map_append, List.map_nil, List.sum_append, List.sum_nil]
                rw [List.map_cons, List.sum_cons, below_split ham] at hsum
                omega
  obtain ⟨b, hb, hi⟩ := inv_init (d := d) hg hs
  refine key fuel _ _ _ 0 [0] [] .refl hi (Nat.zero_le m) ⟨.cons (hL b hb) .nil, by simp, by simp, by simp⟩
    (fun _ => rfl) (by simp) (.inr rfl) (by simp [initial]) ?_ hok
  simp only [List.map_cons, List.map_nil, List.sum_cons, List.sum_nil, Nat.sub_zero, Nat.add_zero, below, Nat.zero_le, if_true]
  rw [Nat.centralBinom, Nat.two_mul]

end Solver
end MiniMip
