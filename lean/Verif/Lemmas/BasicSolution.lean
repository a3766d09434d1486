import Mathlib.LinearAlgebra.LinearIndependent.Lemmas
import Mathlib.LinearAlgebra.Basis.VectorSpace
import Mathlib.LinearAlgebra.FiniteDimensional.Basic
import Mathlib.LinearAlgebra.Matrix.NonsingularInverse
import Mathlib.LinearAlgebra.Matrix.ToLin
import Verif.Lemmas.Fundamental

/-!
# Basic solutions

If an LP has an optimal solution, it has one with a basis.
-/

namespace MiniMip
namespace Basic

open Finset

variable {V E : Type} [Fintype V] [DecidableEq V] [AddCommGroup E] [Module ℚ E]

/-- The value is at a bound, or 0 if there are none. -/
def AtBound (l : Dbl) (x : ℚ) (u : Dbl) : Prop :=
  l = .fin x ∨ u = .fin x ∨ (l = .ninf ∧ u = .pinf ∧ x = 0)

/-- The constraints `∑ z_v • col_v = 0`, `l ≤ z ≤ u`. -/
def Ok (col : V → E) (l u : V → Dbl) (z : V → ℚ) : Prop :=
  ∑ v, z v • col v = 0 ∧ ∀ v, Between (l v) (z v) (u v)

/-- The steps along a direction at which a variable reaches a bound (or 0 if it has none). -/
def targets (l u : Dbl) (z d : ℚ) : List ℚ :=
  (match l with | .fin a => [(a - z) / d] | _ => []) ++ (match u with | .fin a => [(a - z) / d] | _ => []) ++
    (match l, u with | .ninf, .pinf => [-z / d] | _, _ => [])

theorem targets_ne {l u : Dbl} {z d : ℚ} (h : Between l z u) : targets l u z d ≠ [] := by
  unfold targets
  cases l <;> cases u <;> simp_all [Between, Dbl.le]

theorem targets_at {l u : Dbl} {z d t : ℚ} (hd : d ≠ 0) (ht : t ∈ targets l u z d) : AtBound l (z + t * d) u := by
  unfold targets at ht
  simp only [List.mem_append] at ht
  have e : ∀ a : ℚ, z + (a - z) / d * d = a := by intro a; field_simp; ring
  rcases ht with (ht | ht) | ht
  · cases l <;> simp at ht
    subst ht
    exact Or.inl (by rw [e])
  · cases u <;> simp at ht
    subst ht
    exact Or.inr (Or.inl (by rw [e]))
  · cases l <;> cases u <;> simp at ht
    subst ht
    exact Or.inr (Or.inr ⟨rfl, rfl, by field_simp; ring⟩)

theorem targets_nonzero {l u : Dbl} {z d t : ℚ} (hd : d ≠ 0) (hz : ¬ AtBound l z u)
    (ht : t ∈ targets l u z d) : t ≠ 0 := by
  rintro rfl
  have := targets_at hd ht
  simp at this
  exact hz this

theorem between_step {l u : Dbl} {z d s : ℚ} (hd : d ≠ 0) (hz : Between l z u)
    (hs : ∀ t ∈ targets l u z d, |s| ≤ |t|) : Between l (z + s * d) u := by
  have key : ∀ a, |s| ≤ |(a - z) / d| → |s * d| ≤ |a - z| := by
    intro a h
    rw [abs_div, le_div_iff₀ (abs_pos.2 hd)] at h
    rwa [abs_mul]
  constructor
  · cases l with
    | fin a =>
      have h1 := key a (hs _ (by simp [targets]))
      have h2 : a ≤ z := (Dbl.le_fin _ _).1 hz.1
      rw [abs_of_nonpos (show a - z ≤ 0 by linarith)] at h1
      have := (abs_le.1 h1).1
      exact (Dbl.le_fin _ _).2 (by linarith)
    | ninf => rfl
    | nan => exact absurd hz.1 (by simp [Dbl.le])
    | pinf => exact absurd hz.1 (by simp [Dbl.le])
  · cases u with
    | fin a =>
      have h1 := key a (hs _ (by simp [targets]))
      have h2 : z ≤ a := (Dbl.le_fin _ _).1 hz.2
      rw [abs_of_nonneg (show 0 ≤ a - z by linarith)] at h1
      have := (abs_le.1 h1).2
      exact (Dbl.le_fin _ _).2 (by linarith)
    | pinf => rfl
    | nan => exact absurd hz.2 (by simp [Dbl.le])
    | ninf => exact absurd hz.2 (by simp [Dbl.le])

open Classical in
/-- An optimal solution with the fewest variables off their bounds has independent columns for those. -/
theorem exists_independent (col : V → E) (l u : V → Dbl) (cost : V → ℚ) (z : V → ℚ) (hz : Ok col l u z)
    (hbest : ∀ y, Ok col l u y → ∑ v, cost v * z v ≤ ∑ v, cost v * y v) :
    ∃ z', Ok col l u z' ∧ (∑ v, cost v * z' v = ∑ v, cost v * z v) ∧
      LinearIndepOn ℚ col {v | ¬ AtBound (l v) (z' v) (u v)} := by
  induction hn : (univ.filter fun v => ¬ AtBound (l v) (z v) (u v)).card using Nat.strong_induction_on
    generalizing z with
  | _ n ih =>
    by_cases hi : LinearIndepOn ℚ col {v | ¬ AtBound (l v) (z v) (u v)}
    · exact ⟨z, hz, rfl, hi⟩
    -- a direction
    have hdir : ∃ d : V → ℚ, (∀ v, AtBound (l v) (z v) (u v) → d v = 0) ∧ ∑ v, d v • col v = 0 ∧
        ∃ v, d v ≠ 0 := by
      rw [linearIndepOn_iff'] at hi
      push Not at hi
      obtain ⟨s, g, hs, hsum, i, his, hgi⟩ := hi
      refine ⟨fun v => if v ∈ s then g v else 0, fun v hv => ?_, ?_, i, by simp [his, hgi]⟩
      · by_cases hvs : v ∈ s
        · exact absurd hv (hs hvs)
        · simp [hvs]
      · rw [← hsum]
        simp only [ite_smul, zero_smul]
        rw [Finset.sum_ite_mem, Finset.univ_inter]
    obtain ⟨d, hd0, hdsum, i, hdi⟩ := hdir
    -- the smallest step that reaches a bound
    let T : Finset ℚ := (univ.filter fun v => d v ≠ 0).biUnion fun v => (targets (l v) (u v) (z v) (d v)).toFinset
    have hT : T.Nonempty := by
      obtain ⟨t, ht⟩ := List.exists_mem_of_ne_nil _ (targets_ne (d := d i) (hz.2 i))
      exact ⟨t, Finset.mem_biUnion.2 ⟨i, by simp [hdi], by simp [ht]⟩⟩
    obtain ⟨t, htT, hmin⟩ := T.exists_min_image (fun t => |t|) hT
    obtain ⟨k, hk, htk⟩ := Finset.mem_biUnion.1 htT
    have hdk : d k ≠ 0 := by simpa using hk
    have htk : t ∈ targets (l k) (u k) (z k) (d k) := by simpa using htk
    have hstep : ∀ s, |s| ≤ |t| → Ok col l u (fun v => z v + s * d v) := by
      intro s hs
      constructor
      · simp only [add_smul, mul_smul, Finset.sum_add_distrib, ← Finset.smul_sum, hdsum, hz.1, smul_zero, add_zero]
      · intro v
        by_cases hv : d v = 0
        · simp only [hv, mul_zero, add_zero]; exact hz.2 v
        · exact between_step hv (hz.2 v) fun t' ht' => hs.trans (hmin t' (Finset.mem_biUnion.2
            ⟨v, by simp [hv], by simp [ht']⟩))
    have hcost : ∀ s, ∑ v, cost v * (z v + s * d v) = ∑ v, cost v * z v + s * ∑ v, cost v * d v := by
      intro s
      rw [Finset.mul_sum, ← Finset.sum_add_distrib]
      exact Finset.sum_congr rfl fun v _ => by ring
    have hzero : t * ∑ v, cost v * d v = 0 := by
      have h1 := hbest _ (hstep t le_rfl)
      have h2 := hbest _ (hstep (-t) (by simp))
      rw [hcost] at h1 h2
      linarith
    have hsame : ∑ v, cost v * (z v + t * d v) = ∑ v, cost v * z v := by rw [hcost, hzero, add_zero]
    have hk0 : ¬ AtBound (l k) (z k) (u k) := fun h => hdk (hd0 k h)
    have hlt : (univ.filter fun v => ¬ AtBound (l v) (z v + t * d v) (u v)).card < n := by
      rw [← hn]
      apply Finset.card_lt_card
      rw [Finset.ssubset_iff_of_subset]
      · exact ⟨k, by simp [hk0], by simp [targets_at hdk htk]⟩
      · intro v hv
        simp only [Finset.mem_filter, Finset.mem_univ, true_and] at hv ⊢
        intro h
        apply hv
        rw [hd0 v h, mul_zero, add_zero]
        exact h
    obtain ⟨z', h1, h2, h3⟩ := ih _ hlt (fun v => z v + t * d v) (hstep t le_rfl)
      (fun y hy => by rw [hsame]; exact hbest y hy) rfl
    exact ⟨z', h1, h2.trans hsame, h3⟩

omit [DecidableEq V] in
/-- Independent columns can be completed to an invertible matrix. -/
theorem exists_basis {m : Nat} (col : V → Fin m → ℚ) (I : Set V) (hI : LinearIndepOn ℚ col I)
    (hspan : Submodule.span ℚ (Set.range col) = ⊤) :
    ∃ (b : Fin m → V) (inv : Fin m → Fin m → ℚ), (∀ v ∈ I, ∃ k, b k = v) ∧ Function.Injective b ∧
      ∀ k j, ∑ i, inv k i * col (b j) i = if k = j then 1 else 0 := by
  obtain ⟨B, -, hIB, hB1, hB2⟩ := exists_linearIndepOn_extension hI (Set.subset_univ I)
  have hli : LinearIndependent ℚ (fun v : B => col v) := hB2
  have htop : ⊤ ≤ Submodule.span ℚ (Set.range fun v : B => col v) := by
    rw [← hspan]
    refine Submodule.span_le.2 ?_
    rintro _ ⟨v, rfl⟩
    have := hB1 (Set.mem_image_of_mem col (Set.mem_univ v))
    rw [Set.image_eq_range] at this
    exact this
  let bas := Module.Basis.mk hli htop
  have : Fintype B := Fintype.ofFinite _
  have hcard : Fintype.card B = m := by
    have := Module.finrank_eq_card_basis bas
    rw [Module.finrank_fin_fun] at this
    exact this.symm
  let f : Fin m ≃ B := (Fintype.equivFinOfCardEq hcard).symm
  let bas' := bas.reindex f.symm
  let M : Matrix (Fin m) (Fin m) ℚ := fun i j => col (f j) i
  have hcol : ∀ j, bas' j = col (f j) := by
    intro j
    simp [bas', bas]
  have hunit : IsUnit M := by
    rw [← Matrix.linearIndependent_cols_iff_isUnit]
    have : M.col = fun j => bas' j := by
      funext j i
      rw [hcol]; rfl
    rw [this]
    exact bas'.linearIndependent
  refine ⟨fun k => f k, (M⁻¹ : Matrix (Fin m) (Fin m) ℚ), ?_, ?_, ?_⟩
  · intro v hv
    exact ⟨f.symm ⟨v, hIB hv⟩, by simp⟩
  · exact Subtype.val_injective.comp f.injective
  · intro k j
    have := Matrix.nonsing_inv_mul M ((Matrix.isUnit_iff_isUnit_det M).1 hunit)
    have h := congrFun (congrFun this k) j
    rw [Matrix.mul_apply, Matrix.one_apply] at h
    exact h

end Basic

namespace Glop

/-- The entry in row `i` of the column of a basic variable; the column of a slack variable is a unit vector. -/
def LinearProgram.basisEntry (lp : LinearProgram) (i : Nat) : ColOrRow → ℚ
  | .col c => lp.coefficient i c.toNat
  | .row r => if r = (i : Int) then 1 else 0

/-- A column or row of the LP. -/
def LinearProgram.Holds (lp : LinearProgram) : ColOrRow → Prop
  | .col c => 0 ≤ c ∧ c < lp.cols.length
  | .row r => 0 ≤ r ∧ r < lp.rows.length

/-- What the textbook says about a basis, its solution and the inverse of its matrix: there is a basic
variable for every row, the other variables are at a bound (or 0 if they have none), and the product of
the inverse with the basis matrix is the identity. -/
structure LinearProgram.IsBasic (lp : LinearProgram) (x : Int → ℚ) (basis : List ColOrRow)
    (inv : Nat → Nat → ℚ) : Prop where
  length : basis.length = lp.rows.length
  holds : ∀ b ∈ basis, lp.Holds b
  cols : ∀ (c : Nat) col, lp.cols[c]? = some col → ColOrRow.col c ∉ basis →
    Basic.AtBound col.lower (x c) col.upper
  rows : ∀ (r : Nat) row, lp.rows[r]? = some row → ColOrRow.row r ∉ basis →
    Basic.AtBound row.lhs (lp.activity r x) row.rhs
  inverse : ∀ k < lp.rows.length, ∀ j b, basis[j]? = some b →
    ∑ i ∈ Finset.range lp.rows.length, inv k i * lp.basisEntry i b = if k = j then 1 else 0

/-- An LP with an optimal solution has an optimal basic solution. -/
theorem LinearProgram.exists_basic (lp : LinearProgram) {x : Int → ℚ} (hx : lp.Feasible x)
    (hbest : ∀ y, lp.Feasible y → if lp.maximize then lp.value y ≤ lp.value x else lp.value x ≤ lp.value y) :
    ∃ (x' : Nat → ℚ) (basis : List ColOrRow) (inv : Nat → Nat → ℚ),
      lp.Feasible (fun j => x' j.toNat) ∧ lp.value (fun j => x' j.toNat) = lp.value x ∧
      lp.IsBasic (fun j => x' j.toNat) basis inv := by
  classical
  let n := lp.cols.length
  let m := lp.rows.length
  let col : Fin n ⊕ Fin m → Fin m → ℚ := Sum.elim (fun c i => lp.coefficient i c)
    (fun r i => if r = i then -1 else 0)
  let l : Fin n ⊕ Fin m → Dbl := Sum.elim (fun c => lp.cols[c].lower) (fun r => lp.rows[r].lhs)
  let u : Fin n ⊕ Fin m → Dbl := Sum.elim (fun c => lp.cols[c].upper) (fun r => lp.rows[r].rhs)
  let sg : ℚ := if lp.maximize then -1 else 1
  let cost : Fin n ⊕ Fin m → ℚ := Sum.elim (fun c => sg * lp.cols[c].objective) (fun _ => 0)
  let up : (Int → ℚ) → Fin n ⊕ Fin m → ℚ := fun y => Sum.elim (fun c => y (c : Nat)) (fun r => lp.activity r y)
  let down : (Fin n ⊕ Fin m → ℚ) → Nat → ℚ := fun z c => if h : c < n then z (.inl ⟨c, h⟩) else 0
  have hact : ∀ (z : Fin n ⊕ Fin m → ℚ) (r : Fin m), lp.activity r (fun j => down z j.toNat) =
      ∑ c : Fin n, lp.coefficient r c * z (.inl c) := by
    intro z r
    rw [LinearProgram.activity, ← Fin.sum_univ_eq_sum_range (fun c => lp.coefficient r c * down z (c : Int).toNat)]
    exact Finset.sum_congr rfl fun c _ => by simp [down, n]
  have hact' : ∀ (y : Int → ℚ) (r : Fin m), lp.activity r y = ∑ c : Fin n, lp.coefficient r c * y (c : Nat) := by
    intro y r
    rw [LinearProgram.activity, ← Fin.sum_univ_eq_sum_range (fun c => lp.coefficient r c * y (c : Nat))]
  have hsum : ∀ (z : Fin n ⊕ Fin m → ℚ), ∑ v, z v • col v = 0 ↔
      ∀ r : Fin m, z (.inr r) = ∑ c : Fin n, lp.coefficient r c * z (.inl c) := by
    intro z
    rw [Fintype.sum_sum_type, funext_iff]
    refine forall_congr' fun r => ?_
    simp only [col, Sum.elim_inl, Sum.elim_inr, Pi.add_apply, Finset.sum_apply, Pi.smul_apply, smul_eq_mul,
      Pi.zero_apply, mul_ite, mul_neg, mul_one, mul_zero, Finset.sum_ite_eq', Finset.mem_univ, if_true]
    rw [Finset.sum_congr rfl fun (c : Fin n) _ => mul_comm (z (.inl c)) (lp.coefficient r c)]
    constructor <;> intro h <;> linarith
  have hval : ∀ z : Fin n ⊕ Fin m → ℚ, ∑ v, cost v * z v = sg * lp.value fun j => down z j.toNat := by
    intro z
    rw [Fintype.sum_sum_type, LinearProgram.value,
      ← Fin.sum_univ_eq_sum_range (fun c => ((lp.cols[c]?.map (·.objective)).getD 0) * down z (c : Int).toNat),
      Finset.mul_sum]
    simp only [cost, Sum.elim_inl, Sum.elim_inr, zero_mul, Finset.sum_const_zero, add_zero]
    refine Finset.sum_congr rfl fun c _ => ?_
    simp [down, n, mul_assoc]
  have hfeas : ∀ z : Fin n ⊕ Fin m → ℚ, Basic.Ok col l u z → lp.Feasible fun j => down z j.toNat := by
    rintro z ⟨h1, h2⟩
    rw [hsum] at h1
    constructor
    · intro c col hc
      obtain ⟨hc', rfl⟩ := List.getElem?_eq_some_iff.1 hc
      have := h2 (.inl ⟨c, hc'⟩)
      have hd : down z (c : Int).toNat = z (.inl ⟨c, hc'⟩) := by simp [down, n, hc']
      show Between _ (down z (c : Int).toNat) _
      rw [hd]
      exact this
    · intro r row hr
      obtain ⟨hr', rfl⟩ := List.getElem?_eq_some_iff.1 hr
      have := h2 (.inr ⟨r, hr'⟩)
      rw [h1, ← hact] at this
      exact this
  have hup : ∀ y, lp.Feasible y → Basic.Ok col l u (up y) := by
    rintro y ⟨h1, h2⟩
    refine ⟨(hsum _).2 fun r => hact' y r, ?_⟩
    rintro (c | r)
    · exact h1 c _ (List.getElem?_eq_getElem c.2)
    · exact h2 r _ (List.getElem?_eq_getElem r.2)
  have hdu : ∀ y : Int → ℚ, lp.value (fun j => down (up y) j.toNat) = lp.value y := by
    intro y
    refine (lp.congr fun c hc => ?_).2.1
    simp [down, up, n, hc]
  have hopt : ∀ z, Basic.Ok col l u z → ∑ v, cost v * up x v ≤ ∑ v, cost v * z v := by
    intro z hz
    have := hbest _ (hfeas z hz)
    rw [hval, hval, hdu]
    simp only [sg]
    by_cases hm : lp.maximize = true
    · rw [if_pos hm] at this ⊢; linarith
    · rw [if_neg hm] at this ⊢; linarith
  obtain ⟨z, hz1, hz2, hz3⟩ := Basic.exists_independent col l u cost (up x) (hup x hx) hopt
  have hspan : Submodule.span ℚ (Set.range col) = ⊤ := by
    rw [eq_top_iff]
    intro y _
    have : y = ∑ r : Fin m, (-y r) • col (.inr r) := by
      funext i
      simp [col]
    rw [this]
    exact Submodule.sum_mem _ fun r _ => Submodule.smul_mem _ _ (Submodule.subset_span ⟨_, rfl⟩)
  obtain ⟨b, inv, hb1, hb2, hb3⟩ := Basic.exists_basis col _ hz3 hspan
  let name : Fin n ⊕ Fin m → ColOrRow := Sum.elim (fun c => .col (c : Nat)) (fun r => .row (r : Nat))
  let sign : Fin n ⊕ Fin m → ℚ := Sum.elim (fun _ => 1) (fun _ => -1)
  have hentry : ∀ (i : Fin m) v, lp.basisEntry i (name v) = sign v * col v i := by
    rintro i (c | r)
    · simp [LinearProgram.basisEntry, name, sign, col]
    · simp only [LinearProgram.basisEntry, name, sign, col, Sum.elim_inr, Nat.cast_inj]
      by_cases h : r = i
      · simp [h]
      · have : (r : Nat) ≠ i := fun h' => h (Fin.ext h')
        simp [h, this]
  refine ⟨down z, List.ofFn fun k => name (b k), fun k i => if h : k < m ∧ i < m then
    sign (b ⟨k, h.1⟩) * inv ⟨k, h.1⟩ ⟨i, h.2⟩ else 0, hfeas z hz1, ?_, ?_⟩
  · have := hval z
    rw [hz2, hval, hdu] at this
    have hs : sg ≠ 0 := by simp only [sg]; split <;> norm_num
    exact (mul_left_cancel₀ hs this).symm
  constructor
  · simp [m]
  · intro w hw
    obtain ⟨k, rfl⟩ := List.mem_ofFn.1 hw
    rcases b k with c | r
    · exact ⟨by simp, by simp [n]⟩
    · exact ⟨by simp, by simp [m]⟩
  · intro c cl hc hcb
    obtain ⟨hc', rfl⟩ := List.getElem?_eq_some_iff.1 hc
    by_contra hat
    obtain ⟨k, hk⟩ := hb1 (.inl ⟨c, hc'⟩) (by simpa [down, n, hc', l, u] using hat)
    exact hcb (List.mem_ofFn.2 ⟨k, by rw [hk]; rfl⟩)
  · intro r row hr hrb
    obtain ⟨hr', rfl⟩ := List.getElem?_eq_some_iff.1 hr
    by_contra hat
    obtain ⟨k, hk⟩ := hb1 (.inr ⟨r, hr'⟩) (by
      have h1 := (hsum z).1 hz1.1 ⟨r, hr'⟩
      have h2 := hact z ⟨r, hr'⟩
      show ¬ Basic.AtBound _ (z (.inr ⟨r, hr'⟩)) _
      rw [h1, ← h2]
      exact hat)
    exact hrb (List.mem_ofFn.2 ⟨k, by rw [hk]; rfl⟩)
  · intro k hk j w hw
    have hj : j < m := by
      have := (List.getElem?_eq_some_iff.1 hw).1
      simpa using this
    have hw' : w = name (b ⟨j, hj⟩) := by
      rw [List.getElem?_ofFn] at hw
      simp only [hj, dif_pos] at hw
      exact (Option.some.inj hw).symm
    subst hw'
    rw [← Fin.sum_univ_eq_sum_range (fun i => (if h : k < m ∧ i < m then
      sign (b ⟨k, h.1⟩) * inv ⟨k, h.1⟩ ⟨i, h.2⟩ else 0) * lp.basisEntry i (name (b ⟨j, hj⟩)))]
    have h1 : ∀ i : Fin m, (if h : k < m ∧ (i : Nat) < m then
        sign (b ⟨k, h.1⟩) * inv ⟨k, h.1⟩ ⟨i, h.2⟩ else 0) * lp.basisEntry i (name (b ⟨j, hj⟩)) =
        sign (b ⟨k, hk⟩) * sign (b ⟨j, hj⟩) * (inv ⟨k, hk⟩ i * col (b ⟨j, hj⟩) i) := by
      intro i
      rw [dif_pos ⟨hk, i.2⟩, hentry]
      ring
    rw [Finset.sum_congr rfl fun i _ => h1 i, ← Finset.mul_sum, hb3]
    by_cases hkj : k = j
    · subst hkj
      have : sign (b ⟨k, hk⟩) * sign (b ⟨k, hk⟩) = 1 := by
        rcases b ⟨k, hk⟩ with c | r <;> simp [sign]
      simp [this]
    · simp [hkj]

end Glop
end MiniMip
