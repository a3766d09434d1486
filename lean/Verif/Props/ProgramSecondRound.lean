import Verif.Props.ProgramCutoff

/-!
# The second round of cuts

With the default parameters the program accesses `is_integral_constraint` out of range in the second round of cuts
(`C34_cut_row_violated`), on a problem with integral data, two variables and one constraint.
-/

namespace MiniMip
namespace Program

variable {hash : MipData.HashOrder}

open Glop (LinearProgram)
open Solver (point)

/-- `max x + 3 y`, `2 x + 4 y ≤ 7`, `0 ≤ x, y ≤ 5`, both integer. -/
def twice : Problem :=
  { vars := [{ name := "x", objective := 1, lower := .fin 0, upper := .fin 5, isInteger := true },
      { name := "y", objective := 3, lower := .fin 0, upper := .fin 5, isInteger := true }]
    constraints := [{ name := "c", varIndices := [0, 1], coefficients := [2, 4], rhs := .fin 7 }]
    isMaximization := true }

/-- Its LP. -/
def twiceLp : LinearProgram :=
  { cols := [⟨.fin 0, .fin 5, -1, "x", [⟨0, 2⟩]⟩, ⟨.fin 0, .fin 5, -3, "y", [⟨0, 4⟩]⟩]
    rows := [⟨.ninf, .fin 7, "c"⟩] }

/-- Its LP with the cut `y ≤ 1`. -/
def twiceCutLp (name : String) : LinearProgram :=
  { cols := [⟨.fin 0, .fin 5, -1, "x", [⟨0, 2⟩]⟩, ⟨.fin 0, .fin 5, -3, "y", [⟨0, 4⟩, ⟨1, 1⟩]⟩]
    rows := [⟨.ninf, .fin 7, "c"⟩, ⟨.ninf, .fin 1, name⟩] }

theorem two_orders (hash : MipData.HashOrder) : hash.apply [0, 1] = [0, 1] ∨ hash.apply [0, 1] = [1, 0] := by
  have h := hash.perm [0, 1]
  obtain ⟨a, b, hab⟩ := List.length_eq_two.mp (h.length_eq.trans rfl)
  rw [hab] at h ⊢
  have ha : a = 0 ∨ a = 1 := by simpa using h.subset (List.mem_cons_self ..)
  rcases ha with rfl | rfl
  · have := h.cons_inv
    simp only [List.singleton_perm_singleton] at this
    exact .inl (by rw [this])
  · have := (h.trans (List.Perm.swap 1 0 [])).cons_inv
    simp only [List.singleton_perm_singleton] at this
    exact .inr (by rw [this])

theorem twice_created {d : MipData} (hd : MipData.ofProblem hash twice = .ok d) :
    d.lower = [.fin 0, .fin 0] ∧ d.upper = [.fin 5, .fin 5] ∧ (d.integerVariables = [0, 1] ∨ d.integerVariables = [1, 0]) ∧
    d.isIntegralConstraint = [true] ∧ d.objective = ⟨[⟨0, -1⟩, ⟨1, -3⟩], false⟩ ∧
    ∀ b g, Glop.populateFromMipData { useScaling := b } d = .ok g → g.lp = twiceLp := by
  obtain ⟨d₀, hd₀, rfl⟩ := MipData.ofProblem_order hd
  have h : (match MipData.ofProblem .id twice with
    | .ok d => decide (d.lower = [.fin 0, .fin 0]) && decide (d.upper = [.fin 5, .fin 5]) &&
        decide (d.integerVariables = [0, 1]) &&
        decide (d.isIntegralConstraint = [true]) && decide (d.objective = ⟨[⟨0, -1⟩, ⟨1, -3⟩], false⟩) &&
        [true, false].all fun b => (match Glop.populateFromMipData { useScaling := b } d with
          | .ok g => decide (g.lp = twiceLp)
          | _ => true)
    | _ => false) = true := by decide +kernel
  rw [hd₀] at h
  simp only [Bool.and_eq_true, decide_eq_true_eq, List.all_eq_true] at h
  obtain ⟨⟨⟨⟨⟨h1, h2⟩, h3⟩, h4⟩, h6⟩, h5⟩ := h
  refine ⟨h1, h2, h3 ▸ two_orders hash, h4, h6, fun b g hg => ?_⟩
  have := h5 b (by cases b <;> simp)
  rw [Glop.populateFromMipData_order] at hg
  rw [hg] at this
  simpa using this

/-- The feasible points and the objective of the LPs. -/
theorem twice_feasible (y : Int → ℚ) : (twiceLp.Feasible y ↔
    (0 ≤ y 0 ∧ y 0 ≤ 5) ∧ (0 ≤ y 1 ∧ y 1 ≤ 5) ∧ 2 * y 0 + 4 * y 1 ≤ 7) ∧ twiceLp.value y = -y 0 - 3 * y 1 := by
  have hact : twiceLp.activity 0 y = 2 * y 0 + 4 * y 1 := by
    simp [LinearProgram.activity, LinearProgram.coefficient, twiceLp, SparseVector.sumAt, Finset.sum_range_succ]
  refine ⟨⟨fun ⟨h1, h2⟩ => ?_, fun ⟨h1, h2, h3⟩ => ⟨?_, ?_⟩⟩, ?_⟩
  · have h0 := h1 0 _ rfl
    have h1 := h1 1 _ rfl
    have h2 := h2 0 _ rfl
    rw [hact] at h2
    simp only [Between, Dbl.le_fin] at h0 h1 h2
    exact ⟨h0, h1, h2.2⟩
  · intro n col hn
    match n with
    | 0 => cases hn; simp only [Between, Dbl.le_fin]; exact h1
    | 1 => cases hn; simp only [Between, Dbl.le_fin]; exact h2
    | n + 2 => simp [twiceLp] at hn
  · intro n row hn
    match n with
    | 0 =>
      cases hn
      rw [hact]
      simp only [Between, Dbl.le_fin]
      exact ⟨rfl, h3⟩
    | n + 1 => simp [twiceLp] at hn
  · simp [LinearProgram.value, twiceLp, Finset.sum_range_succ]
    ring

theorem twiceCut_feasible (name : String) (y : Int → ℚ) : ((twiceCutLp name).Feasible y ↔
    (0 ≤ y 0 ∧ y 0 ≤ 5) ∧ (0 ≤ y 1 ∧ y 1 ≤ 5) ∧ 2 * y 0 + 4 * y 1 ≤ 7 ∧ y 1 ≤ 1) ∧
    (twiceCutLp name).value y = -y 0 - 3 * y 1 := by
  have hact : (twiceCutLp name).activity 0 y = 2 * y 0 + 4 * y 1 := by
    simp [LinearProgram.activity, LinearProgram.coefficient, twiceCutLp, SparseVector.sumAt, Finset.sum_range_succ]
  have hact1 : (twiceCutLp name).activity 1 y = y 1 := by
    simp [LinearProgram.activity, LinearProgram.coefficient, twiceCutLp, SparseVector.sumAt, Finset.sum_range_succ]
  refine ⟨⟨fun ⟨h1, h2⟩ => ?_, fun ⟨h1, h2, h3, h4⟩ => ⟨?_, ?_⟩⟩, ?_⟩
  · have h0 := h1 0 _ rfl
    have h1 := h1 1 _ rfl
    have h3 := h2 0 _ rfl
    have h4 := h2 1 _ rfl
    rw [hact] at h3
    rw [hact1] at h4
    simp only [Between, Dbl.le_fin] at h0 h1 h3 h4
    exact ⟨h0, h1, h3.2, h4.2⟩
  · intro n col hn
    match n with
    | 0 => cases hn; simp only [Between, Dbl.le_fin]; exact h1
    | 1 => cases hn; simp only [Between, Dbl.le_fin]; exact h2
    | n + 2 => simp [twiceCutLp] at hn
  · intro n row hn
    match n with
    | 0 =>
      cases hn
      rw [hact]
      simp only [Between, Dbl.le_fin]
      exact ⟨rfl, h3⟩
    | 1 =>
      cases hn
      rw [hact1]
      simp only [Between, Dbl.le_fin]
      exact ⟨rfl, h4⟩
    | n + 2 => simp [twiceCutLp] at hn
  · simp [LinearProgram.value, twiceCutLp, Finset.sum_range_succ]
    ring

/-- Right answers. -/
theorem twice_optimum {opt : Prop} {r : Report} (h : RightAnswer twiceLp opt r) :
    opt ∧ r.point 0 = 0 ∧ r.point 1 = 7 / 4 := by
  obtain ⟨h1, h2⟩ := h
  let z : Int → ℚ := fun j => if j = 1 then 7 / 4 else 0
  have hz : twiceLp.Feasible z := (twice_feasible z).1.2 (by norm_num [z])
  have hzv : twiceLp.value z = -(21 / 4) := by rw [(twice_feasible z).2]; norm_num [z]
  have ho : opt := by
    by_contra hn
    rcases h2 hn with h2 | h2
    · exact h2 _ hz
    · obtain ⟨y, hy, hv⟩ := h2 (-(21 / 4))
      rw [(twice_feasible y).1] at hy
      rw [if_neg (by simp [twiceLp]), (twice_feasible y).2] at hv
      linarith [hy.2.2, hy.1.1]
  obtain ⟨h3, -, h5⟩ := h1 ho
  have h6 := h5 z hz
  rw [if_neg (by simp [twiceLp]), hzv, (twice_feasible _).2] at h6
  rw [(twice_feasible _).1] at h3
  have h0 : r.point 0 = 0 := by linarith [h3.1.1, h3.2.2]
  exact ⟨ho, h0, by linarith [h3.2.2]⟩

theorem twiceCut_optimum {name : String} {opt : Prop} {r : Report} (h : RightAnswer (twiceCutLp name) opt r) :
    opt ∧ r.point 0 = 3 / 2 ∧ r.point 1 = 1 := by
  obtain ⟨h1, h2⟩ := h
  let z : Int → ℚ := fun j => if j = 1 then 1 else 3 / 2
  have hz : (twiceCutLp name).Feasible z := (twiceCut_feasible name z).1.2 (by norm_num [z])
  have hzv : (twiceCutLp name).value z = -(9 / 2) := by rw [(twiceCut_feasible name z).2]; norm_num [z]
  have ho : opt := by
    by_contra hn
    rcases h2 hn with h2 | h2
    · exact h2 _ hz
    · obtain ⟨y, hy, hv⟩ := h2 (-(9 / 2))
      rw [(twiceCut_feasible name y).1] at hy
      rw [if_neg (by simp [twiceCutLp]), (twiceCut_feasible name y).2] at hv
      linarith [hy.2.2.1, hy.2.2.2]
  obtain ⟨h3, -, h5⟩ := h1 ho
  have h6 := h5 z hz
  rw [if_neg (by simp [twiceCutLp]), hzv, (twiceCut_feasible name _).2] at h6
  rw [(twiceCut_feasible name _).1] at h3
  have h0 : r.point 1 = 1 := by linarith [h3.2.2.1, h3.2.2.2]
  exact ⟨ho, by linarith [h3.2.2.1, h3.2.2.2], h0⟩

/-! ### The bases -/

/-- The positions of the non-zeros, if known, are all of `0, …, n-1` when no value is 0 and they are sorted. -/
theorem nonZeros_full {n : Nat} {a : Glop.Scattered} (h : Glop.ScatteredOk n a) (hs : a.nonZeros.Pairwise (· < ·))
    (hv : ∀ i < n, a.values.getD i 0 ≠ 0) :
    a.nonZeros = [] ∨ a.nonZeros = (List.range n).map Int.ofNat := by
  rcases h.nonZeros with h1 | ⟨h1, h2, h3⟩
  · exact Or.inl h1
  right
  have hr : ((List.range n).map Int.ofNat).Pairwise (· < ·) := by
    rw [List.pairwise_map]
    exact List.pairwise_lt_range.imp fun h => Int.ofNat_lt.2 h
  refine List.Perm.eq_of_pairwise (fun a b _ _ h1 h2 => absurd h1 (lt_asymm h2)) hs hr
    ((List.perm_ext_iff_of_nodup h1 (hr.imp fun h => h.ne)).2 fun i => ⟨fun hi => ?_, fun hi => ?_⟩)
  · obtain ⟨h4, h5⟩ := h2 i hi
    exact List.mem_map.2 ⟨i.toNat, List.mem_range.2 (by omega), by simp [h4]⟩
  · obtain ⟨m, hm, rfl⟩ := List.mem_map.1 hi
    by_contra hn
    exact hv m (List.mem_range.1 hm) (h3 m hn)

theorem twice_basis {r : Report} (h : r.GlopBasic twiceLp) (hs : r.Sorted) (hx : r.point 1 = 7 / 4) :
    r.basis.map (glopElement twiceLp) = [.col 1] ∧
    (r.glopInverse 0).values = [1 / 4] ∧ ((r.glopInverse 0).nonZeros = [] ∨ (r.glopInverse 0).nonZeros = [0]) := by
  have hlen := h.basic.length
  have hin : Glop.ColOrRow.col (1 : Nat) ∈ r.basis.map (glopElement twiceLp) := by
    by_contra hn
    have := h.basic.cols 1 _ rfl hn
    simp only [Basic.AtBound, Nat.cast_one, hx] at this
    norm_num at this
  have hb : r.basis.map (glopElement twiceLp) = [.col 1] := by
    obtain ⟨b, hb⟩ := List.length_eq_one_iff.1 (hlen.trans rfl)
    rw [hb] at hin ⊢
    simpa [eq_comm] using hin
  have hok := h.shape 0 (by decide)
  obtain ⟨v, hv⟩ := List.length_eq_one_iff.1 (hok.length.trans (rfl : twiceLp.rows.length = 1))
  have hinv := h.basic.inverse 0 (by decide) 0 (.col 1) (by rw [hb]; rfl)
  rw [show twiceLp.rows.length = 1 from rfl, Finset.sum_range_one, hv] at hinv
  have hent : twiceLp.basisEntry 0 (.col 1) = 4 := by
    simp [LinearProgram.basisEntry, LinearProgram.coefficient, twiceLp, SparseVector.sumAt]
  rw [hent] at hinv
  simp at hinv
  have hinv : v = 1 / 4 := by linarith
  subst hinv
  refine ⟨hb, hv, nonZeros_full hok (hs 0) ?_⟩
  intro i hi
  rw [show twiceLp.rows.length = 1 from rfl] at hi
  obtain rfl : i = 0 := by omega
  rw [hv]
  simp

theorem twiceCut_basis {name : String} {r : Report} (h : r.GlopBasic (twiceCutLp name)) (hs : r.Sorted)
    (hx : r.point 0 = 3 / 2) (hy : r.point 1 = 1) :
    (r.basis.map (glopElement (twiceCutLp name)) = [.col 0, .col 1] ∨
      r.basis.map (glopElement (twiceCutLp name)) = [.col 1, .col 0]) ∧
    ∀ k, (r.basis.map (glopElement (twiceCutLp name)))[k]? = some (.col 0) → (r.glopInverse k).values = [1 / 2, -2] ∧
      ((r.glopInverse k).nonZeros = [] ∨ (r.glopInverse k).nonZeros = [0, 1]) := by
  have hlen := h.basic.length
  have hin0 : Glop.ColOrRow.col (0 : Nat) ∈ r.basis.map (glopElement (twiceCutLp name)) := by
    by_contra hn
    have := h.basic.cols 0 _ rfl hn
    simp only [Basic.AtBound, Nat.cast_zero, hx] at this
    norm_num at this
  have hin1 : Glop.ColOrRow.col (1 : Nat) ∈ r.basis.map (glopElement (twiceCutLp name)) := by
    by_contra hn
    have := h.basic.cols 1 _ rfl hn
    simp only [Basic.AtBound, Nat.cast_one, hy] at this
    norm_num at this
  have hb : r.basis.map (glopElement (twiceCutLp name)) = [.col 0, .col 1] ∨
      r.basis.map (glopElement (twiceCutLp name)) = [.col 1, .col 0] := by
    obtain ⟨a, b, hb⟩ := List.length_eq_two.1 (hlen.trans rfl)
    rw [hb] at hin0 hin1 ⊢
    simp at hin0 hin1 ⊢
    rcases hin0 with rfl | rfl <;> rcases hin1 with h | h <;> simp_all
  refine ⟨hb, fun k hk => ?_⟩
  have hk2 : k < 2 := by
    have := (List.getElem?_eq_some_iff.1 hk).1
    rw [hlen] at this
    exact this
  have hok := h.shape k hk2
  obtain ⟨v, w, hv⟩ := List.length_eq_two.1 (hok.length.trans (rfl : (twiceCutLp name).rows.length = 2))
  have hent : (twiceCutLp name).basisEntry 0 (.col 0) = 2 ∧ (twiceCutLp name).basisEntry 1 (.col 0) = 0 ∧
      (twiceCutLp name).basisEntry 0 (.col 1) = 4 ∧ (twiceCutLp name).basisEntry 1 (.col 1) = 1 := by
    simp [LinearProgram.basisEntry, LinearProgram.coefficient, twiceCutLp, SparseVector.sumAt]
  have hinv0 := h.basic.inverse k hk2 k (.col 0) hk
  have hinv1 : ∃ j, j ≠ k ∧ (r.basis.map (glopElement (twiceCutLp name)))[j]? = some (.col 1) := by
    rcases hb with hb | hb <;> rw [hb] at hk ⊢ <;> (match k, hk with | 0, hk => ?_ | 1, hk => ?_) <;> simp at hk
    · exact ⟨1, by simp⟩
    · exact ⟨0, by simp⟩
  obtain ⟨j, hj, hj1⟩ := hinv1
  have hinv1 := h.basic.inverse k hk2 j (.col 1) hj1
  rw [if_neg (Ne.symm hj), show (twiceCutLp name).rows.length = 2 from rfl, Finset.sum_range_succ, Finset.sum_range_one, hv, hent.2.2.1, hent.2.2.2] at hinv1
  rw [if_pos rfl, show (twiceCutLp name).rows.length = 2 from rfl, Finset.sum_range_succ, Finset.sum_range_one, hv, hent.1, hent.2.1] at hinv0
  simp at hinv0 hinv1
  have e1 : v = 1 / 2 := by linarith
  have e2 : w = -2 := by rw [e1] at hinv1; linarith
  subst e1 e2
  refine ⟨hv, nonZeros_full hok (hs k) ?_⟩
  intro i hi
  rw [show (twiceCutLp name).rows.length = 2 from rfl] at hi
  rw [hv]
  match i, hi with
  | 0, _ => simp
  | 1, _ => simp

/-! ### The first round -/

/-- What the generator reads in the root node. -/
def twiceContext (t : ℚ) : GenContext where
  lp := { rows := [⟨[⟨0, 2⟩, ⟨1, 4⟩], false⟩], lhs := [.ninf], rhs := [.fin 7], lower := [.fin 0, .fin 0],
          upper := [.fin 5, .fin 5] }
  isInteger := fun j => decide (j ∈ [(0 : Int), 1])
  integralRow := [true]
  objective := ⟨[⟨0, -1⟩, ⟨1, -3⟩], false⟩
  tol := t

/-- The integrality tolerances looked at: 0 and the default. -/
def Usual (t : ℚ) : Prop := t = 0 ∨ t = 1 / 10 ^ 6

open Generator in
/-- MIR rounding and strong CG rounding yield `y ≤ 1`. -/
theorem twice_round {t : ℚ} (ht : Usual t) : aggregateByWeight (twiceContext t).lp ⟨[⟨0, 1 / 4⟩], false⟩ [true] = .ok ex6Agg ∧
    toNonNegative (twiceContext t).lp ex6Agg = .ok (ex6Agg, true) ∧
    roundOne (twiceContext t) ex6Agg .mir = .ok (some (⟨[⟨1, 1⟩], false⟩, 1)) ∧
    roundOne (twiceContext t) ex6Agg .strongCG = .ok (some (⟨[⟨1, 1⟩], false⟩, 1)) := by
  rcases ht with rfl | rfl <;> refine ⟨?_, ?_, ?_, ?_⟩ <;> gen_eval [twiceContext, ex6Agg]

/-- The cut as the generator creates it. -/
noncomputable def twiceCut (name : String) : CutData :=
  createCut (twiceContext 0).objective (twiceContext 0).isInteger (SparseVector.ofDense [0, 7 / 4]) ⟨[⟨1, 1⟩], false⟩ 1 name false

open Generator in
/-- The generator produces it twice. -/
theorem twice_cuts {t : ℚ} (ht : Usual t) {s : SolverView} (h1 : s.isSolved = true) (h2 : s.isOptimal = true)
    {y : ℚ} (h3 : s.activities = .ok [y]) (h4 : s.primal = .ok [0, 7 / 4]) (h5 : s.basis = [some 1])
    (h6 : s.bInverted 0 = .ok ⟨[⟨0, 1 / 4⟩], false⟩) :
    ∃ n1 n2, generateCuttingPlanes (twiceContext t) s [.mir, .strongCG] 100 = .ok [twiceCut n1, twiceCut n2] := by
  obtain ⟨ha, ha', hm, hx⟩ := twice_round ht
  have hw : rowWeights ⟨[⟨0, 1 / 4⟩], false⟩ = ⟨[⟨0, 1 / 4⟩], false⟩ := by gen_eval []
  rw [generate_single (c := twiceContext t) (u := [true]) (col := 1) (by norm_num) h1 h2 h3 rfl h4 rfl (by rw [h5]; rfl) rfl
    (by rcases ht with rfl | rfl <;> gen_eval [twiceContext]) h6 (by rw [hw]; exact ha) ha']
  have hr1 : removesLPOptimum ⟨[⟨1, 1⟩], false⟩ 1 (SparseVector.ofDense [0, 7 / 4]) = true := by gen_eval []
  simp only [roundAll, hm, hx, hr1, Outcome.bind_ok, Outcome.pure_eq, if_true]
  exact ⟨_, _, rfl⟩

/-- The score of both. -/
theorem twice_score (name : String) : ∃ q, 3 / 4 ≤ q ∧
    HybridSelector.computeCutScore ({} : Setup.HybridMsg).read (twiceCut name) = .ok (.fin q) := by
  have hopt : SparseVector.ofDense [0, 7 / 4] = ⟨[⟨1, 7 / 4⟩], false⟩ := by gen_eval []
  have h1 : SparseVector.dotProduct ⟨[⟨1, 1⟩], false⟩ ⟨[⟨1, 7 / 4⟩], false⟩ = 7 / 4 := by
    simp [SparseVector.dotProduct, SparseVector.dotWalk]
  have h2 : SparseVector.dotProduct ⟨[⟨1, 1⟩], false⟩ ⟨[⟨1, 1⟩], false⟩ = 1 := by
    simp [SparseVector.dotProduct, SparseVector.dotWalk]
  have heff : (twiceCut name).efficacy = .fin (3 / 4) := by
    simp only [twiceCut, createCut, computeEfficacy, hopt, h1, h2]
    rw [RDbl.div_pos (by norm_num)]
    norm_num
  have hpar : ∃ r, 0 ≤ r ∧ (twiceCut name).objectiveParallelism = .fin r := by
    refine ⟨_, ?_, RDbl.div_pos (Real.sqrt_pos.2 ?_) _⟩
    · positivity
    · simp [twiceContext, SparseVector.dotProduct, SparseVector.dotWalk]
      norm_num
  obtain ⟨r, hr, hpar⟩ := hpar
  have hn : (twiceCut name).numNonZeros = 1 ∧ (twiceCut name).numIntegers = 1 := ⟨rfl, rfl⟩
  refine ⟨3 / 4 + (1 / 10) * r + 1 / 10, by linarith, ?_⟩
  simp [HybridSelector.computeCutScore, Setup.HybridMsg.read, heff, hn, hpar, RDbl.scale, RDbl.add]
  ring

/-- The selector takes one of them, whichever `std::sort` puts first. -/
theorem twice_select (sorter : HybridSelector.Sorter) (n1 n2 : String) :
    ∃ cut, HybridSelector.selectCuttingPlanes sorter ({} : Setup.HybridMsg).read [twiceCut n1, twiceCut n2] = .ok [cut] ∧
      cut.row = ⟨[⟨1, 1⟩], false⟩ ∧ cut.rhs = 1 := by
  obtain ⟨q1, hq1, h1⟩ := twice_score n1
  obtain ⟨q2, hq2, h2⟩ := twice_score n2
  have hdot : SparseVector.dotProduct ⟨[⟨1, 1⟩], false⟩ ⟨[⟨1, 1⟩], false⟩ = 1 := by
    simp [SparseVector.dotProduct, SparseVector.dotWalk]
  have hcos : ∀ n m p q, HybridSelector.cosAngle ((twiceCut n).setScore p) ((twiceCut m).setScore q) = some 1 := by
    intro n m p q
    simp [HybridSelector.cosAngle, HybridSelector.squaredNorm, CutData.setScore, twiceCut, createCut, hdot]
  have hkeep : ∀ n m p q, HybridSelector.keep ({} : Setup.HybridMsg).read ((twiceCut n).setScore p)
      [(twiceCut m).setScore q] = [] := by
    intro n m p q
    have hf : ((twiceCut m).setScore q).forced = false := rfl
    simp only [HybridSelector.keep, List.filter_cons, List.filter_nil, HybridSelector.twoCutsAreOrthogonal, hf, hcos,
      Setup.HybridMsg.read]
    norm_num
  have hnil : sorter.sort [] = [] := List.perm_nil.1 (sorter.perm [])
  have hmax : (({} : Setup.HybridMsg).read).maxNumCuts = -1 := rfl
  have hweak : HybridSelector.StrictWeak [(twiceCut n1).setScore (.fin q1), (twiceCut n2).setScore (.fin q2)] := by
    left
    intro c hc
    rcases List.mem_pair.1 hc with rfl | rfl <;> simp [HybridSelector.scoreOf, CutData.setScore]
  have hsome : ∃ n m p q, 3 / 4 ≤ p ∧ sorter.sort [(twiceCut n1).setScore (.fin q1), (twiceCut n2).setScore (.fin q2)] =
      [(twiceCut n).setScore (.fin p), (twiceCut m).setScore (.fin q)] := by
    have h := sorter.perm [(twiceCut n1).setScore (.fin q1), (twiceCut n2).setScore (.fin q2)]
    rcases pair_perm h with h | h
    · exact ⟨_, _, _, _, hq1, h⟩
    · exact ⟨_, _, _, _, hq2, h⟩
  obtain ⟨n, m, p, q, hp, hsort⟩ := hsome
  have hthr : ¬ (HybridSelector.scoreOf ((twiceCut n).setScore (.fin p))).lt
      (.fin (({} : Setup.HybridMsg).read).scoreThreshold) := by
    simp only [HybridSelector.scoreOf, CutData.setScore, Option.getD_some, Setup.HybridMsg.read, RDbl.lt]
    norm_num
    linarith
  refine ⟨(twiceCut n).setScore (.fin p), ?_, rfl, rfl⟩
  simp only [HybridSelector.selectCuttingPlanes, HybridSelector.scoreAll, h1, h2, Outcome.bind_ok, Outcome.pure_eq]
  rw [HybridSelector.selectLoop, if_pos hweak]
  split
  · rename_i h; rw [hsort] at h; cases h
  · rename_i c rest h
    rw [hsort] at h
    simp only [List.cons.injEq] at h
    obtain ⟨rfl, rfl⟩ := h
    rw [if_neg hthr, hmax, if_neg (by simp), hkeep]
    rw [HybridSelector.selectLoop, if_pos (show HybridSelector.StrictWeak [] from Or.inl (by simp))]
    split
    · rfl
    · rename_i h; rw [hnil] at h; cases h

/-! ### The second round -/

/-- What the generator reads in the second round. -/
def twiceContext2 (t : ℚ) : GenContext :=
  { twiceContext t with
    lp := { rows := [⟨[⟨0, 2⟩, ⟨1, 4⟩], false⟩, ⟨[⟨1, 1⟩], false⟩], lhs := [.ninf, .ninf], rhs := [.fin 7, .fin 1],
            lower := [.fin 0, .fin 0], upper := [.fin 5, .fin 5] } }

open Generator in
theorem twice_row {t : ℚ} (ht : Usual t) {s : SolverView} {k : Nat} (h1 : listAt s.basis k = .ok (some 0))
    (h2 : s.bInverted k = .ok ⟨[⟨0, 1 / 2⟩, ⟨1, -2⟩], false⟩) :
    tableauRow (twiceContext2 t) s [.mir, .strongCG] [true, true] (SparseVector.ofDense [3 / 2, 1]) k = .ub := by
  rw [tableauRow_eq (a := ex6Agg2) (a' := ex6Agg2) h1 rfl ?_ h2 ?_ ?_]
  · have h3 : roundOne (twiceContext2 t) ex6Agg2 .mir = .ub := by
      rcases ht with rfl | rfl <;> gen_eval [ex6Agg2, twiceContext2, twiceContext]
    simp [roundAll, h3]
  · rcases ht with rfl | rfl <;> gen_eval [twiceContext2, twiceContext]
  · gen_eval [twiceContext2, ex6Agg2]
  · gen_eval [twiceContext2, ex6Agg2]

open Generator in
theorem twice_row_integral {t : ℚ} (ht : Usual t) {s : SolverView} {k : Nat} (h1 : listAt s.basis k = .ok (some 1)) :
    tableauRow (twiceContext2 t) s [.mir, .strongCG] [true, true] (SparseVector.ofDense [3 / 2, 1]) k = .ok [] := by
  have h2 : isIntegerWithinTolerance (twiceContext2 t).tol ((SparseVector.ofDense [3 / 2, 1]).value 1) = true := by
    rcases ht with rfl | rfl <;> gen_eval [twiceContext2, twiceContext]
  simp only [tableauRow, h1, Outcome.bind_ok, h2]
  rfl

open Generator in
theorem twice_ub {t : ℚ} (ht : Usual t) {s : SolverView} (h1 : s.isSolved = true) (h2 : s.isOptimal = true)
    {y z : ℚ} (h3 : s.activities = .ok [y, z]) (h4 : s.primal = .ok [3 / 2, 1])
    (h5 : s.basis = [some 0, some 1] ∨ s.basis = [some 1, some 0])
    (h6 : ∀ k : Nat, listAt s.basis k = .ok (some 0) → s.bInverted k = .ok ⟨[⟨0, 1 / 2⟩, ⟨1, -2⟩], false⟩) :
    generateCuttingPlanes (twiceContext2 t) s [.mir, .strongCG] 100 = .ub := by
  have hc : chooseSides (twiceContext2 t).lp 0 [y, z] = .ok [true, true] := rfl
  simp only [generateCuttingPlanes, h1, h2, h3, h4, hc, Outcome.bind_ok, Bool.not_true, Bool.false_eq_true, if_false,
    show (twiceContext2 t).lp.rows.length = 2 from rfl, tableauLoop]
  rcases h5 with h5 | h5
  · have e : listAt s.basis 0 = .ok (some 0) := by rw [h5]; rfl
    rw [twice_row ht e (h6 0 e)]
    rfl
  · have e0 : listAt s.basis 0 = .ok (some 1) := by rw [h5]; rfl
    have e : listAt s.basis 1 = .ok (some 0) := by rw [h5]; rfl
    rw [twice_row_integral ht e0]
    simp only [Outcome.bind_ok, Nat.zero_add]
    rw [twice_row ht e (h6 1 e)]
    rfl

/-! ### The run -/

/-- The LP code holds the answer of Glop for this LP. -/
structure Answered (lp : LinearProgram) (w : World) where
  session : Glop.Session
  glop : w.lp = .glop session
  program : session.iface.lp = lp
  tolerance : session.settings.primalTolerance = .fin (1 / 10 ^ 8)
  limit : session.settings.maxIterations = -1
  solved : session.isSolved = true
  optimal : session.status = .optimal
  go : Lp.stop (.glop session) = false
  basic : w.report.GlopBasic lp
  sorted : w.report.Sorted

/-- What the generator sees of it. -/
theorem Answered.view {lp : LinearProgram} {w : World} (h : Answered lp w) :
    (World.view w).isSolved = true ∧ (World.view w).isOptimal = true ∧
    (World.view w).activities = .ok ((List.range lp.rows.length).map (w.report.activities.getD fun _ => 0)) ∧
    (World.view w).primal = .ok ((List.range lp.cols.length).map fun n : Nat => w.report.point n) ∧
    (World.view w).basis = (w.report.basis.map (glopElement lp)).map (fun | .col i => some i | .row _ => none) ∧
    ∀ k, (World.view w).bInverted k =
      if (w.report.glopInverse k).nonZeros ≠ [] then
        Soplex.addIndexed (w.report.glopInverse k).values {} (w.report.glopInverse k).nonZeros
      else collect (Glop.atLeast (1 / 10 ^ 8)) (fun i => Soplex.denseAt (w.report.glopInverse k).values i)
        lp.rows.length 0 {} := by
  refine ⟨?_, ?_, ?_, ?_, ?_, fun k => ?_⟩
  · simp [World.view, h.glop, Lp.isSolved, h.solved]
  · simp [World.view, h.glop, Lp.isOptimal, Glop.Session.isOptimal, h.optimal]
  · simp [World.view, World.activities, Glop.getRowActivities, h.glop, h.program]
  · simp [World.view, World.primal, Glop.getPrimalValues, h.glop, h.program, Report.point]
  · simp only [World.view, World.basis, Glop.getColumnsAndRowsInBasis, h.glop, h.program]
    have hlen : w.report.basis.length = lp.rows.length := by simpa using h.basic.basic.length
    rw [List.take_of_length_le (by rw [hlen])]
    rfl
  · simp only [World.view, World.inverseRow, h.glop, h.tolerance, Glop.getSparseRowOfBInverted, h.program]

/-- Solving with Glop. -/
theorem glop_answers {e : Engine} (hret : e.GlopReturns) (hin : e.GlopInTime) (he : e.Right) (hbas : e.GlopBasic)
    (hsort : e.Sorted) {w : World} {s : Glop.Session} (hw : w.lp = .glop s)
    (hlim : s.settings.maxIterations = -1) (htol : s.settings.primalTolerance = .fin (1 / 10 ^ 8))
    (hfeas : ∀ {opt : Prop} {r : Report}, RightAnswer s.iface.lp opt r → opt) :
    ∃ w', w.solve e = .ok w' ∧ Nonempty (Answered s.iface.lp w') ∧ RightAnswer s.iface.lp True w'.report := by
  obtain ⟨s2, hsol, hp, hset, hsolved, hst, hgo, hans⟩ := glop_solve hret hin he hw hlim
  rw [hp] at hans
  have ho := hfeas hans
  refine ⟨_, hsol, ⟨⟨s2, rfl, hp, by rw [hset]; exact htol, by rw [hset]; exact hlim, hsolved, ho, hgo ho,
    hbas _ _ (hst.symm.trans ho), hsort _ _⟩⟩, ?_⟩
  exact ⟨fun _ => hans.1 ho, fun h => absurd trivial h⟩

theorem twice_spec : twice.WellFormed ∧ FiniteIntegers twice ∧ Bounded twice ∧ NonnegativeIntegers twice ∧
    IntegralSides twice ∧ twice.Feasible (fun _ => 1) := by
  refine ⟨?_, ?_, ⟨21 / 4, ?_⟩, ?_, ?_, ?_, ?_⟩
  · simp [Problem.WellFormed, twice, Variable.WellFormed, Constraint.WellFormed, Ordered, Dbl.le]
  · intro v hv _
    simp [twice] at hv
    rcases hv with rfl | rfl <;> exact ⟨_, _, rfl, rfl⟩
  · rintro y ⟨h1, h2⟩
    have hx := h2 _ (List.mem_singleton.2 rfl)
    have h0 := (h1 0 _ rfl).1
    simp [Between, Dbl.le, Constraint.activity] at hx h0
    simp [twice, Problem.userObjective, objectiveFrom]
    linarith
  · intro v hv _
    simp [twice] at hv
    rcases hv with rfl | rfl <;> rfl
  · intro k hk q hq
    simp [twice] at hk
    subst hk
    simp at hq
    exact ⟨7, by rw [← hq]; norm_num⟩
  · intro n v hv
    match n with
    | 0 => simp [twice] at hv; subst hv; exact ⟨by norm_num [Between], fun _ => ⟨1, by simp⟩⟩
    | 1 => simp [twice] at hv; subst hv; exact ⟨by norm_num [Between], fun _ => ⟨1, by simp⟩⟩
    | n + 2 => simp [twice] at hv
  · intro k hk
    simp [twice] at hk
    subst hk
    norm_num [Between, Constraint.activity, Dbl.le]

/-- The default parameters but for the integrality tolerance. -/
def tolUser (t : Option ℚ) : Setup.ParamsMsg := { integralityTolerance := t }

/-- The run ends in the first iteration. -/
theorem twice_run {t : Option ℚ} (ht : t = none ∨ t = some 0) {x : Setup.External} {c : Setup.Created}
    (hc : Setup.create x twice (tolUser t) = .ok c) {e : Engine} (he : e.Right) (hret : e.GlopReturns)
    (hbas : e.GlopBasic) (hin : e.GlopInTime) (hsort : e.Sorted) (n : Nat) : solve e c (n + 1) = some .ub := by
  obtain ⟨-, hd, -, hrun, -, htol, -⟩ := Setup.create_ok hc
  have htu : Usual c.integralityTolerance := by
    rw [htol]
    rcases ht with rfl | rfl
    · exact Or.inr rfl
    · exact Or.inl rfl
  obtain ⟨hlo, hup, hint, hintc, hobj, hlp⟩ := twice_created hd
  obtain ⟨set, g, hl, hg, htol', hmax⟩ := default_glop hc rfl
  have hg := hlp _ _ hg
  have hmem : (fun j => decide (j ∈ c.data.integerVariables)) = fun j => decide (j ∈ ([0, 1] : List Int)) := by
    funext j
    rcases hint with hint | hint <;> simp [hint, or_comm]
  -- the first solve
  have hbounds : ∃ s1, Solver.applyBounds (oracle e c) [.fin 0, .fin 0] [.fin 5, .fin 5]
      { world := { lp := start c.lpi } } c.data.integerVariables = .ok { world := { lp := .glop s1 } } ∧
      s1.iface.lp = twiceLp ∧ s1.settings = set := by
    have h1 : ∀ g : Glop.Interface, g.lp = twiceLp →
        ∃ g1, Glop.setColumnBounds g 0 (.fin 0) (.fin 5) = .ok g1 ∧ g1.lp = twiceLp := fun g hg =>
      ⟨_, if_pos ⟨le_rfl, by rw [hg]; decide⟩, by simp only [hg]; rfl⟩
    have h2 : ∀ g : Glop.Interface, g.lp = twiceLp →
        ∃ g1, Glop.setColumnBounds g 1 (.fin 0) (.fin 5) = .ok g1 ∧ g1.lp = twiceLp := fun g hg =>
      ⟨_, if_pos ⟨by decide, by rw [hg]; decide⟩, by simp only [hg]; rfl⟩
    rcases hint with hint | hint
    · obtain ⟨g1, hg1, e1⟩ := h1 g hg
      obtain ⟨g2, hg2, e2⟩ := h2 g1 e1
      refine ⟨{ iface := g2, settings := set }, ?_, e2, rfl⟩
      simp [hint, Solver.applyBounds, vecGet, oracle, hl, start, Lp.setColumnBounds, hg1, hg2, Outcome.orAbort]
    · obtain ⟨g1, hg1, e1⟩ := h2 g hg
      obtain ⟨g2, hg2, e2⟩ := h1 g1 e1
      refine ⟨{ iface := g2, settings := set }, ?_, e2, rfl⟩
      simp [hint, Solver.applyBounds, vecGet, oracle, hl, start, Lp.setColumnBounds, hg1, hg2, Outcome.orAbort]
  obtain ⟨s1, hb, hs1, hset1⟩ := hbounds
  obtain ⟨w1, hw1, ⟨a1⟩, hr1⟩ := glop_answers hret hin he hbas hsort (w := { lp := .glop s1 }) rfl
    (by rw [hset1]; exact hmax) (by rw [hset1]; exact htol') (by rw [hs1]; exact fun h => (twice_optimum h).1)
  rw [hs1] at hr1 a1
  obtain ⟨-, hp0, hp1⟩ := twice_optimum hr1
  obtain ⟨hb1, hb2, hb3⟩ := twice_basis a1.basic a1.sorted hp1
  have hctx : context e c w1 = twiceContext c.integralityTolerance := by
    have hrow : Lp.sparseRow e w1.lp = fun r : Nat => Glop.copyToSparse (Glop.transposedRow r 0 twiceLp.cols) := by
      funext r
      simp only [Lp.sparseRow, a1.glop, a1.program]
    simp only [context, hmem, hintc, hobj, Lp.view, hrow]
    simp only [Lp.program, a1.glop, a1.program]
    rfl
  obtain ⟨v1, v2, v3, v4, v5, v6⟩ := a1.view
  obtain ⟨n1, n2, hcuts⟩ := twice_cuts htu (y := w1.report.activities.getD (fun _ => 0) 0) v1 v2 v3
    (by rw [v4]; simp [twiceLp, List.range_succ, hp0, hp1]) (by rw [v5, hb1]; rfl)
    (by
      rw [v6, hb2]
      rcases hb3 with h | h
      · rw [h, if_neg (by simp)]
        have h : Glop.atLeast (1 / 10 ^ 8) (1 / 4) = true := by norm_num [Glop.atLeast]
        simp only [collect, twiceLp, List.length_singleton]
        rw [show Soplex.denseAt [1 / 4] ((0 : Nat) : Int) = .ok (1 / 4) from rfl]
        simp only [Outcome.bind_ok, h, if_true]
        gen_eval []
      · rw [h, if_pos (by simp)]
        simp only [Soplex.addIndexed, show Soplex.denseAt [1 / 4] (0 : Int) = .ok (1 / 4) from rfl, Outcome.bind_ok]
        gen_eval [])
  rw [← hctx] at hcuts
  obtain ⟨cut, hsel, hrow, hrhs⟩ := twice_select e.sorter n1 n2
  -- the row
  have hadd : ∃ s', Lp.addRow w1.lp ⟨cut.row, .ninf, .fin cut.rhs, cut.name⟩ = .ok (.glop s') ∧
      s'.iface.lp = twiceCutLp cut.name ∧ s'.settings = a1.session.settings := by
    have h1 := a1.program
    have h2 : ∃ g, Glop.addRow a1.session.iface cut.row .ninf (.fin cut.rhs) cut.name = .ok g ∧
        g.lp = twiceCutLp cut.name := by
      simp only [Glop.addRow, h1, hrow, hrhs]
      exact ⟨_, rfl, rfl⟩
    obtain ⟨g, hg, hlp⟩ := h2
    refine ⟨{ a1.session with iface := g }, ?_, hlp, rfl⟩
    simp only [Lp.addRow, a1.glop, hg, Outcome.bind_ok, Outcome.pure_eq]
  obtain ⟨s', hadd, hs1', hs2'⟩ := hadd
  obtain ⟨w2, hw2, ⟨a2⟩, hr2⟩ := glop_answers hret hin he hbas hsort (w := { w1 with lp := .glop s' }) rfl
    (by rw [hs2']; exact a1.limit) (by rw [hs2']; exact a1.tolerance)
    (by rw [hs1']; exact fun h => (twiceCut_optimum h).1)
  rw [hs1'] at hr2 a2
  obtain ⟨-, hq0, hq1⟩ := twiceCut_optimum hr2
  obtain ⟨hc1, hc2⟩ := twiceCut_basis a2.basic a2.sorted hq0 hq1
  have hctx2 : context e c w2 = twiceContext2 c.integralityTolerance := by
    have hrow : Lp.sparseRow e w2.lp =
        fun r : Nat => Glop.copyToSparse (Glop.transposedRow r 0 (twiceCutLp cut.name).cols) := by
      funext r
      simp only [Lp.sparseRow, a2.glop, a2.program]
    simp only [context, hmem, hintc, hobj, Lp.view, hrow]
    simp only [Lp.program, a2.glop, a2.program]
    rfl
  obtain ⟨u1, u2, u3, u4, u5, u6⟩ := a2.view
  have hub : Generator.generateCuttingPlanes (context e c w2) w2.view [.mir, .strongCG] 100 = .ub := by
    rw [hctx2]
    refine twice_ub htu (y := w2.report.activities.getD (fun _ => 0) 0) (z := w2.report.activities.getD (fun _ => 0) 1) u1 u2 u3
      (by rw [u4]; simp [twiceCutLp, List.range_succ, hq0, hq1])
      (by rcases hc1 with h | h <;> rw [u5, h] <;> simp) fun k hk => ?_
    have hk' : (w2.report.basis.map (glopElement (twiceCutLp cut.name)))[k]? = some (.col 0) := by
      rcases hc1 with h | h <;> rw [u5, h] at hk <;> rw [h] <;>
        (match k, hk with
          | 0, hk => first | rfl | cases hk
          | 1, hk => first | rfl | cases hk
          | k + 2, hk => cases hk)
    obtain ⟨h1, h2⟩ := hc2 k hk'
    rw [u6, h1]
    have e0 : Soplex.denseAt [1 / 2, -2] (0 : Int) = .ok (1 / 2) := rfl
    have e1 : Soplex.denseAt [1 / 2, -2] (1 : Int) = .ok (-2) := rfl
    rcases h2 with h | h
    · rw [h, if_neg (by simp)]
      have h0 : Glop.atLeast (1 / 10 ^ 8) (1 / 2) = true := by norm_num [Glop.atLeast]
      have h1 : Glop.atLeast (1 / 10 ^ 8) (-2) = true := by norm_num [Glop.atLeast]
      simp only [collect, twiceCutLp, List.length_cons, List.length_nil, Nat.cast_zero, e0, Outcome.bind_ok, h0, if_true,
        Nat.zero_add, Nat.cast_one, e1, h1]
      gen_eval []
    · rw [h, if_pos (by simp)]
      simp only [Soplex.addIndexed, e0, e1, Outcome.bind_ok]
      gen_eval []
  -- the rounds
  have hgen : (plugins e c).generators = [fun w _ => do
      let cuts ← Generator.generateCuttingPlanes (context e c w) w.view [.mir, .strongCG] 100
      return (w, cuts)] := by
    simp only [plugins, hrun]
    rfl
  have hround1 : ∃ r, Runner.round (plugins e c) { world := w1 } = .ok (r, true) ∧ r.numCutrounds = 1 ∧
      r.numCutsAdded = 0 ∧ r.registry.activeIndices = [] ∧ r.world = w2 := by
    have hsel : (plugins e c).select w1 {} [twiceCut n1, twiceCut n2] = .ok (w1, [cut]) := by
      simp only [plugins, hrun, hsel, Outcome.bind_ok, Outcome.pure_eq]
    have hrow : (plugins e c).addRow w1 ⟨cut.row, (plugins e c).infinity.neg, .fin cut.rhs, cut.name⟩ = .ok { w1 with lp := .glop s' } := by
      simp only [plugins, readLhs_neg, hadd, Outcome.bind_ok, Outcome.pure_eq]
    simp only [Runner.round, hgen, Runner.generate, hcuts, Outcome.bind_ok, Outcome.pure_eq, List.isEmpty_cons,
      Bool.false_eq_true, if_false, hsel, Runner.addAll, CutRegistry.addCut, CutData.setIndex, CutData.getIndex,
      List.append_nil, Runner.addRows, CutRegistry.getCut, List.nil_append, List.length_nil, Nat.cast_zero, lt_irrefl,
      Int.toNat_zero, List.getElem?_cons_zero, hrow]
    rw [show (plugins e c).solve = World.solve e from rfl, hw2]
    exact ⟨_, rfl, rfl, rfl, rfl, rfl⟩
  obtain ⟨r2, hround1, hn2, hm2, hk2, hr2⟩ := hround1
  have hround2 : Runner.round (plugins e c) r2 = .ub := by
    simp only [Runner.round, hgen, Runner.generate, hr2, hub]
    rfl
  have hmay : ∀ (r : Runner World) lp, Answered lp r.world → r.numCutrounds ≤ 1 → r.numCutsAdded = 0 →
      r.registry.activeIndices = [] → Runner.mayRun c.runner.params (plugins e c) r = true := by
    intro r lp a h1 h2 h3
    have h4 : Lp.stop r.world.lp = false := by rw [a.glop]; exact a.go
    have h5 : Lp.isSolved r.world.lp = true := by rw [a.glop]; exact a.solved
    have h6 : c.runner.params.maxIterations = 100 := by rw [hrun]; rfl
    have h7 : ¬ (0 : Int) ≥ c.runner.params.maxNumCutsPerNode := by
      rw [hrun]; rcases ht with rfl | rfl <;> decide
    have h8 : ¬ (0 : Nat) ≥ Runner.toSizeT c.runner.params.maxNumCutsTotal := by
      rw [hrun]; rcases ht with rfl | rfl <;> decide +kernel
    simp only [Runner.mayRun, plugins, h4, h5, h6, h2, h3, List.length_nil]
    rw [if_neg (by simp), if_neg (by simp), if_neg (by omega), if_neg h7, if_neg h8]
  have hsep : separate e c { world := w1 } = .ub := by
    have h6 : c.runner.params.maxIterations = 100 := by rw [hrun]; rfl
    unfold separate
    rw [h6]
    rw [show (100 - ({ world := w1 } : Runner World).numCutrounds).toNat + 1 = 99 + 2 from rfl]
    have m1 := hmay { world := w1 } _ a1 (by simp) rfl rfl
    have m2 := hmay r2 _ (by rw [hr2]; exact a2) (by rw [hn2]) hm2 hk2
    simp only [Runner.separateFuel, m1, m2, if_true, hround1, hround2]
  have hit : Solver.iterate (oracle e c) c.data (params c)
      (Solver.initial { world := { lp := start c.lpi } }) = .ub := by
    have hopt' : (oracle e c).isOptimal { world := w1 } = true := v2
    have hs : (oracle e c).solve { world := { lp := .glop s1 } } = .ok { world := w1 } := by
      simp only [oracle, hw1, Outcome.bind_ok, Outcome.pure_eq]
    have e1 : MipTree.init.retrieveLower 0 [.fin 0, .fin 0] = .ok [.fin 0, .fin 0] := by decide +kernel
    have e2 : MipTree.init.retrieveUpper 0 [.fin 5, .fin 5] = .ok [.fin 5, .fin 5] := by decide +kernel
    have hnode : Solver.solveNode (oracle e c) c.data [.fin 0, .fin 0] [.fin 5, .fin 5] { world := { lp := start c.lpi } } =
        .ub := by
      simp only [Solver.solveNode, hb, Outcome.bind_ok, hs, Outcome.orAbort, hopt', if_true]
      rw [show (oracle e c).separate = separate e c from rfl, hsep]
    simp [Solver.iterate, Solver.initial, Solver.pop, hlo, hup, e1, e2, hnode]
  simp only [solve, Solver.solveFuel, hit]

/-- **C77 fails** with the default parameters on a problem with integral data.  `max x + 3 y`, `2 x + 4 y ≤ 7`,
`0 ≤ x, y ≤ 5`, both integer, satisfies every hypothesis that `C83_one_round_total_correctness_partial` makes about the
problem.  Whatever Glop that answers rightly, returns, keeps a basis and stops at no limit, and whatever `std::sort`:
the first round of cuts adds `y ≤ 1`, the LP optimum is then `(3/2, 1)`, and the second round reads
`is_integral_constraint` of that cut (aggregating_generator.cc), which `MipData` does not have. -/
theorem C77_second_round_violated :
    (twice.WellFormed ∧ FiniteIntegers twice ∧ Bounded twice ∧ NonnegativeIntegers twice ∧
      IntegralSides twice ∧ twice.Feasible (fun _ => 1)) ∧
    (∃ x c, Setup.create x twice {} = .ok c) ∧
    ∀ x c, Setup.create x twice {} = .ok c →
      ∀ e : Engine, e.Right → e.GlopReturns → e.GlopBasic → e.GlopInTime → e.Sorted →
        ∀ n, solve e c (n + 1) = some .ub := by
  refine ⟨twice_spec, ?_, ?_⟩
  · obtain ⟨c, hc⟩ := Setup.C73_default_parameters Setup.exExternal twice twice_spec.1
    exact ⟨_, c, hc⟩
  exact fun x c hc e he hret hbas hin hsort n => twice_run (Or.inl rfl) hc he hret hbas hin hsort n

/-- **C83 fails** for more than one round of cuts, with integrality tolerance 0 and the default parameters otherwise:
no number of iterations brings about a right outcome. -/
theorem C83_second_round_violated :
    (twice.WellFormed ∧ FiniteIntegers twice ∧ Bounded twice ∧ NonnegativeIntegers twice ∧
      IntegralSides twice ∧ twice.Feasible (fun _ => 1)) ∧
    (∃ x c, Setup.create x twice (tolUser (some 0)) = .ok c) ∧
    ∀ x c, Setup.create x twice (tolUser (some 0)) = .ok c →
      ∀ e : Engine, e.Right → e.GlopReturns → e.GlopBasic → e.GlopInTime → e.Sorted →
        ∀ N, ¬ Solves twice 0 (solve e c N) := by
  refine ⟨twice_spec, ⟨Setup.exExternal, ?_⟩, ?_⟩
  · have htakes : Setup.GlopTakes ((tolUser (some 0)).lp.getD {}).read := by
      refine ⟨⟨?_, ?_, ?_, ?_, ?_, ?_, ?_, ?_⟩, rfl, ?_, ?_, rfl, rfl⟩ <;>
        simp [tolUser, Setup.LpMsg.read, ToleranceOk]
    exact (Setup.C73_glop_partial _ twice twice_spec.1 (tolUser (some 0)) _ (Setup.lpWins _) rfl).1 htakes
  intro x c hc e he hret hbas hin hsort N h
  have hrun := fun n => twice_run (Or.inr rfl) hc he hret hbas hin hsort n
  obtain ⟨v, hv, hne⟩ : ∃ v, solve e c N = some v ∧ v ≠ .ub := by
    rcases h with ⟨h, -⟩ | ⟨s, h, -⟩
    · exact ⟨_, h, by simp⟩
    · exact ⟨_, h, by simp⟩
  have hmore := Solver.solveFuel_more hv (N + 1) (by omega)
  have hub := hrun N
  unfold solve at hub
  rw [hub] at hmore
  exact hne (Option.some.inj hmore).symm

/-- Such LP code exists. -/
example : perfect.Right ∧ perfect.GlopReturns ∧ perfect.GlopBasic ∧ perfect.GlopInTime ∧ perfect.Sorted :=
  ⟨perfect_spec.1, perfect_spec.2, perfect_basic.1, perfect_inTime, fun _ _ _ => List.Pairwise.nil⟩

end Program
end MiniMip
