import Verif.Lemmas.BasisMatrix
import Verif.Lemmas.GeneratorEmpty
import Verif.Props.ProgramRound

/-!
# C77 and C83 with one round of cuts for integral problems

With positive integrality tolerances, and also for problems without feasible points.
-/

namespace MiniMip
namespace Program

open Glop (LinearProgram Extends Refines Stored ColOrRow)
open Generator (Coarse ExactTolerance IntegralLp)
open Solver (point)

/-! ### The specification: integral problems with small determinants -/

/-- All coefficients and (finite) sides of constraints are integers, and all (finite) bounds of continuous
variables. -/
structure IntegralProblem (p : Problem) : Prop where
  coefficients : ∀ k ∈ p.constraints, ∀ q ∈ k.coefficients, ∃ i : ℤ, q = i
  sides : IntegralSides p
  bounds : ∀ v ∈ p.vars, v.isInteger = false → ∀ q, (v.lower = .fin q ∨ v.upper = .fin q) → ∃ i : ℤ, q = i

/-- The matrix of the constraints, followed by a column for the slack variable of each constraint. -/
def Problem.extendedMatrix (p : Problem) (i : Nat) : Nat ⊕ Nat → ℚ
  | .inl j => p.relaxation.coef i j
  | .inr r => if r = i then 1 else 0

/-- The determinants of the square matrices made of its columns are at most `D`. -/
def Determinants (p : Problem) (D : ℚ) : Prop :=
  ∀ b : Fin p.constraints.length → Nat ⊕ Nat,
    |Matrix.det (fun i j : Fin p.constraints.length => Problem.extendedMatrix p i (b j))| ≤ D

/-! ### What the generator reads -/

theorem range_sum {v : SparseVector} (hv : SparseVector.Clean v.entries) {m : Nat}
    (hm : ∀ e ∈ v.entries, e.index < m) (g : Int → ℚ) :
    (v.entries.map fun e => e.value * g e.index).sum = ∑ i ∈ Finset.range m, v.value i * g i := by
  have := eval_eq_sum hv g ((Finset.range m).map ⟨Nat.cast, Nat.cast_injective⟩) (by
    intro e he
    rw [Finset.mem_map]
    exact ⟨e.index.toNat, by rw [Finset.mem_range]; have := hm e he; have := (hv.2 e he).2; omega, by
      have := (hv.2 e he).2; simp; omega⟩)
  rw [Finset.sum_map] at this
  exact this

theorem sparseRow_value {e : Engine} (ho : e.InOrder) {l : Lp} (h : Stored l.program) (r j : Nat) :
    (l.sparseRow e r).value j = l.program.coefficient r j := by
  obtain ⟨h1, h2⟩ := sparseRow_spec ho h r
  rw [← Generator.eval_unit h1.1, h2, LinearProgram.activity]
  by_cases hj : j < l.program.cols.length
  · rw [Finset.sum_eq_single_of_mem j (Finset.mem_range.2 hj)]
    · simp
    · intro i _ hi
      rw [if_neg (by exact_mod_cast hi), mul_zero]
  · rw [Finset.sum_eq_zero]
    · rw [LinearProgram.coefficient, List.getElem?_eq_none (by omega)]
      rfl
    · intro i hi
      rw [Finset.mem_range] at hi
      rw [if_neg (by omega), mul_zero]

theorem rowAt_value {e : Engine} (ho : e.InOrder) {c : Setup.Created} {w : World} (h : Stored w.lp.program)
    {r : Nat} (hr : r < w.lp.program.rows.length) (j : Nat) :
    ((context e c w).lp.rowAt r).value j = w.lp.program.coefficient r j := by
  have : (context e c w).lp.rowAt r = w.lp.sparseRow e r := by
    simp [LpView.rowAt, context, Lp.view, hr]
  rw [this]
  exact sparseRow_value ho h r j

/-- What the generator reads of the basis is a basis with the inverse of its matrix. -/
structure World.Exact (w : World) (basis : List ColOrRow) (inv : Nat → Nat → ℚ) : Prop where
  basic : w.lp.program.IsBasic w.report.point basis inv
  head : w.basis = basis.map fun
    | .col i => some i
    | .row _ => none
  rows : ∀ k < w.lp.program.rows.length, ∀ v, w.inverseRow k = .ok v →
    (∀ e ∈ v.entries, e.index < w.lp.program.rows.length) ∧
      ∀ i < w.lp.program.rows.length, v.value i = inv k i

/-- The data of the LP before the first round. -/
theorem integralLp {e : Engine} (ho : e.InOrder) {p : Problem} (hI : IntegralProblem p)
    {c : Setup.Created} (hd : c.data.Represents p) {lp₀ : LinearProgram} (h₀ : Refines lp₀ p.relaxation)
    {w : World} (hw : Sound p lp₀ w) (hf : Fit c.data w.lp.program)
    (hrows : w.lp.program.rows.length = lp₀.rows.length) :
    (∀ i < w.lp.program.rows.length, ∀ j, ∃ z : ℤ, w.lp.program.coefficient i j = z) ∧
    IntegralLp (context e c w).lp := by
  have hcoef : ∀ i < w.lp.program.rows.length, ∀ j, ∃ z : ℤ, w.lp.program.coefficient i j = z := by
    intro i hi j
    rw [hrows] at hi
    rw [hw.good.entries i hi]
    by_cases hj : j < lp₀.cols.length
    · have hi' : i < p.constraints.length := by rw [h₀.numRows] at hi; exact hi
      rw [h₀.coefficient (by rw [← h₀.numRows]; exact hi) (by rw [← h₀.numCols]; exact hj)]
      simp only [Problem.relaxation, List.getElem?_eq_getElem hi', Option.map_some, Option.getD_some,
        Constraint.coefficientOf]
      have hq := hI.coefficients _ (List.getElem_mem hi')
      have : ∀ l : List (Int × ℚ), (∀ t ∈ l, ∃ z : ℤ, t.2 = z) →
          ∃ z : ℤ, (l.map fun t => if t.1 = (j : Int) then t.2 else 0).sum = z := by
        intro l
        induction l with
        | nil => intro _; exact ⟨0, by simp⟩
        | cons t l ih =>
          intro h
          obtain ⟨y, hy⟩ := ih fun t ht => h t (by simp [ht])
          obtain ⟨z, hz⟩ := h t (by simp)
          rw [List.map_cons, List.sum_cons, hy, hz]
          split
          · exact ⟨z + y, by push_cast; ring⟩
          · exact ⟨y, by ring⟩
      exact this _ fun t ht => hq _ (List.of_mem_zip ht).2
    · exact ⟨0, by rw [LinearProgram.coefficient, List.getElem?_eq_none (by omega)]; rfl⟩
  have hside : ∀ (i : Nat) row, w.lp.program.rows[i]? = some row →
      ∃ con, p.constraints[i]? = some con ∧ row.lhs = con.lhs ∧ row.rhs = con.rhs := by
    intro i row hr
    have hi := (List.getElem?_eq_some_iff.1 hr).1
    rw [hrows] at hi
    obtain ⟨extra, he⟩ := hw.good.rows
    rw [he, List.getElem?_append_left hi] at hr
    obtain ⟨g1, g2⟩ := h₀.rows i row hr
    have hlt : i < p.constraints.length := by rw [h₀.numRows] at hi; exact hi
    refine ⟨_, List.getElem?_eq_getElem hlt, ?_, ?_⟩
    · rw [g1]; simp [Problem.relaxation, List.getElem?_eq_getElem hlt]
    · rw [g2]; simp [Problem.relaxation, List.getElem?_eq_getElem hlt]
  refine ⟨hcoef, ?_, ?_, ?_, ?_⟩
  · intro row hr en hen
    obtain ⟨n, hn, rfl⟩ := context_rows hr
    obtain ⟨g1, -⟩ := sparseRow_spec ho hw.stored n
    obtain ⟨z, hz⟩ := hcoef n hn en.index.toNat
    have h0 := (g1.1.2 en hen).2
    refine ⟨z, ?_⟩
    rw [← hz, ← sparseRow_value ho hw.stored, show ((en.index.toNat : Nat) : Int) = en.index by omega]
    exact (value_of_mem g1.1 hen).symm
  · intro i q hq
    simp only [context, Lp.view, List.getElem?_map, Option.map_eq_some_iff] at hq
    obtain ⟨row, hr, hq⟩ := hq
    obtain ⟨con, h1, h2, -⟩ := hside i row hr
    exact hI.sides con (List.mem_of_getElem? h1) q (Or.inl (h2.symm.trans hq))
  · intro i q hq
    simp only [context, Lp.view, List.getElem?_map, Option.map_eq_some_iff] at hq
    obtain ⟨row, hr, hq⟩ := hq
    obtain ⟨con, h1, -, h2⟩ := hside i row hr
    exact hI.sides con (List.mem_of_getElem? h1) q (Or.inr (h2.symm.trans hq))
  · intro j q hq
    unfold Generator.shiftAt at hq
    cases hs : Generator.shiftOf (context e c w).lp j with
    | ok s =>
      rw [hs] at hq
      simp only at hq
      unfold Generator.shiftOf at hs
      simp only [Outcome.bind_eq_ok] at hs
      obtain ⟨lb, hlb, ub, hub, hs⟩ := hs
      have hs := Outcome.ok.inj hs
      obtain ⟨h0, hlb⟩ := listAt_eq_ok.1 hlb
      obtain ⟨-, hub⟩ := listAt_eq_ok.1 hub
      simp only [context, Lp.view, List.getElem?_map, Option.map_eq_some_iff] at hlb hub
      obtain ⟨col, hcol, rfl⟩ := hlb
      obtain ⟨col', hcol', rfl⟩ := hub
      rw [hcol] at hcol'
      cases hcol'
      have hlt : j.toNat < p.vars.length := by
        have := (List.getElem?_eq_some_iff.1 hcol).1
        rw [hw.good.numCols, h₀.numCols] at this
        exact this
      have hv := List.getElem?_eq_getElem hlt
      by_cases hint : ((j.toNat : Nat) : Int) ∈ c.data.integerVariables
      · have := hf.integer _ _ hint hcol
        rw [this, if_pos rfl] at hs
        rw [← hs] at hq
        simp at hq
      · obtain ⟨h3, h4⟩ := hf.continuous _ col _ _ hint hcol (by rw [hd.lower, List.getElem?_map, hv]; rfl)
          (by rw [hd.upper, List.getElem?_map, hv]; rfl)
        simp only at h3 h4
        have hcont : (p.vars[j.toNat]).isInteger = false := by
          rw [Bool.eq_false_iff]
          intro hi
          exact hint ((hd.integers _).2 ⟨_, _, hv, hi, rfl⟩)
        refine hI.bounds _ (List.getElem_mem hlt) hcont q ?_
        rw [h3, h4] at hs
        split at hs
        · rw [← hs] at hq; simp at hq
        · split at hs
          · split at hs
            · rename_i hl
              rw [← hs] at hq
              simp at hq
              left; rw [hl, hq]
            · rw [← hs] at hq; simp at hq
          · split at hs
            · split at hs
              · rename_i hl
                rw [← hs] at hq
                simp at hq
                right; rw [hl, hq]
              · rw [← hs] at hq; simp at hq
            · rw [← hs] at hq; simp at hq
    | error m => rw [hs] at hq; simp at hq
    | abort => rw [hs] at hq; simp at hq
    | ub => rw [hs] at hq; simp at hq

theorem Determinants.bound {p : Problem} {D : ℚ} (h : Determinants p D) {n : Nat} (hn : n = p.constraints.length)
    {M : Matrix (Fin n) (Fin n) ℚ} {b : Nat → Nat ⊕ Nat}
    (hM : ∀ i j : Fin n, M i j = Problem.extendedMatrix p i (b j)) : |M.det| ≤ D := by
  subst hn
  have : M = fun i j : Fin p.constraints.length => Problem.extendedMatrix p i (b j) := by
    ext i j
    exact hM i j
  rw [this]
  exact h fun j => b j

/-- The determinant of the basis matrix divides the inverse, and is small. -/
theorem coarse_of_determinants {p : Problem} {D : ℚ} (hD : Determinants p D)
    {lp₀ : LinearProgram} (h₀ : Refines lp₀ p.relaxation) {lp : LinearProgram} (hg : Extends lp₀ lp)
    (hrows : lp.rows.length = lp₀.rows.length)
    (hcoef : ∀ i < lp.rows.length, ∀ j, ∃ z : ℤ, lp.coefficient i j = z)
    {x : Int → ℚ} {basis : List ColOrRow} {inv : Nat → Nat → ℚ} (hb : lp.IsBasic x basis inv) :
    ∃ N : ℕ, 0 < N ∧ (N : ℚ) ≤ D ∧ ∀ k < lp.rows.length, ∀ i < lp.rows.length, Coarse N (inv k i) := by
  obtain ⟨N, h1, h2, h3⟩ := hb.coarse hcoef
  refine ⟨N, h1, ?_, h3⟩
  rw [h2]
  refine hD.bound (b := fun j => match basis.getD j (.row 0) with
    | .col c => .inl c.toNat
    | .row r => .inr r.toNat) (by rw [hrows, h₀.numRows]; rfl) ?_
  intro i j
  have hm := hb.holds _ (List.mem_of_getElem? (hb.at j))
  unfold LinearProgram.basisMatrix
  cases hc : basis.getD j (.row 0) with
  | col c =>
    rw [hc] at hm
    have hi : (i : Nat) < lp₀.rows.length := by rw [← hrows]; exact i.2
    have hlt : c.toNat < lp₀.cols.length := by
      obtain ⟨g1, g2⟩ := hm
      rw [hg.numCols] at g2
      omega
    simp only [LinearProgram.basisEntry, Problem.extendedMatrix]
    rw [hg.entries i hi, h₀.coefficient (by rw [← h₀.numRows]; exact hi) (by rw [← h₀.numCols]; exact hlt)]
  | row r =>
    rw [hc] at hm
    have := hm.1
    simp only [LinearProgram.basisEntry, Problem.extendedMatrix]
    exact if_congr (by omega) rfl rfl

/-- **Good cuts.**  If the generator reads a basis of the LP of an integral problem with small determinants,
all its cuts are valid, and none is without coefficients. -/
theorem good_of_exact {e : Engine} {p : Problem} {c : Setup.Created} (hv : CutSetting e p c)
    (hI : IntegralProblem p) {D : ℚ} (hD : Determinants p D) (htol : 0 ≤ c.integralityTolerance)
    (hDt : D * c.integralityTolerance < 1) {lp₀ : LinearProgram} (h₀ : Refines lp₀ p.relaxation)
    {w : World} (hw : Sound p lp₀ w) (hf : Fit c.data w.lp.program)
    (hrows : w.lp.program.rows.length = lp₀.rows.length) {basis : List ColOrRow} {inv : Nat → Nat → ℚ}
    (hex : w.Exact basis inv) (hx : w.lp.program.Feasible w.report.point)
    {rs : List Generator.Rounder} {m : Int} {cuts : List CutData}
    (h : Generator.generateCuttingPlanes (context e c w) w.view rs m = .ok cuts) :
    ∀ cut ∈ cuts, ValidCut p cut ∧ cut.row.entries ≠ [] := by
  obtain ⟨hash, hdata⟩ := hv.data
  obtain ⟨d', h1, hd, -, -⟩ := MipData.ofProblem_spec hash p hv.wellFormed
  rw [hdata] at h1
  have := Outcome.ok.inj h1
  subst this
  have hclean := rowsClean hv.order (c := c) hw.stored
  have hB := solverClean hw.sorted
  obtain ⟨hcoef, hlp⟩ := integralLp hv.order hI hd h₀ hw hf hrows
  obtain ⟨N, hN0, hND, hN⟩ := coarse_of_determinants hD h₀ hw.good hrows hcoef hex.basic
  have hlen : (context e c w).lp.rows.length = w.lp.program.rows.length := by simp [context, Lp.view]
  have hweights : ∀ k < w.lp.program.rows.length, ∀ v, w.inverseRow k = .ok v →
      ∀ en ∈ v.entries, Coarse N en.value := by
    intro k hk v hv' en hen
    obtain ⟨g1, g2⟩ := hex.rows k hk v hv'
    have hc := (hB k v hv').1
    have h0 := (hc.2 en hen).2
    have h1 := g1 en hen
    have h2 := g2 en.index.toNat (by omega)
    rw [show ((en.index.toNat : Nat) : Int) = en.index by omega] at h2
    rw [← value_of_mem hc hen]
    show Coarse N (v.value en.index)
    rw [h2]
    exact hN k hk _ (by omega)
  have hexact : ∀ k v u a a' ok, k < w.lp.program.rows.length → w.inverseRow k = .ok v →
      Generator.aggregateByWeight (context e c w).lp v u = .ok a →
      Generator.toNonNegative (context e c w).lp a = .ok (a', ok) →
      ExactTolerance (context e c w).tol a' := by
    intro k v u a a' ok hk hv' ha ht
    exact Generator.exact_row hclean hlp hN0 (lt_of_le_of_lt (mul_le_mul_of_nonneg_right hND htol) hDt)
      (hB k v hv').1 (hweights k hk v hv') ha ht
  have hharm : Generator.Harmless (context e c w) w.view := by
    intro k b u a a' hk hb ha ht
    exact (hexact k b u a a' true (by rw [← hlen]; exact hk) hb ha ht).harmless
  intro cut hc
  refine ⟨generated_valid hv.order hv.wellFormed hv.nonneg hv.sides hdata h₀ hw hf hharm h cut hc, fun hz => ?_⟩
  obtain ⟨-, -, -, primal, u, -, ho, -⟩ := Generator.generate_spec h
  obtain ⟨k, v, a, a', r, ⟨hk, col, hcol, hint⟩, hv', ha, ht, -, hr⟩ := (ho cut hc).source
  have hviol := (ho cut hc).violated
  have hv' : w.inverseRow k = .ok v := hv'
  rw [Generator.rowWeights_eq (hB k v hv')] at ha
  rw [hlen] at hk
  obtain ⟨hidx, hval⟩ := hex.rows k hk v hv'
  have hvc := (hB k v hv').1
  have hhead : basis[k]? = some (.col col) := by
    have hcol : listAt w.basis k = .ok (some col) := hcol
    have := (listAt_eq_ok.1 hcol).2
    rw [hex.head, List.getElem?_map, Option.map_eq_some_iff] at this
    obtain ⟨b, h1, h2⟩ := this
    rw [Int.toNat_natCast] at h1
    cases b with
    | col i => simp only [Option.some.injEq] at h2; rw [h1, h2]
    | row i => cases h2
  have hrow : ∀ i < w.lp.program.rows.length, ∀ j : Int, 0 ≤ j →
      ((context e c w).lp.rowAt i).value j = w.lp.program.coefficient i j.toNat := by
    intro i hi j hj
    rw [← rowAt_value hv.order hw.stored hi j.toNat, show ((j.toNat : Nat) : Int) = j by omega]
  have hrhs : 0 ≤ cut.rhs := by
    refine Generator.roundOne_empty hclean (integralRows hv.order hv.wellFormed hv.sides hdata h₀ hw) ?_
      hvc ha ht (hexact k v u a a' true hk hv' ha ht) (S := {j | ColOrRow.col j ∈ basis}) ?_ ?_
      (x := w.report.point) ⟨?_, ?_⟩ hr hz
    · intro j l hj hl
      simp only [context, Lp.view, List.getElem?_map, Option.map_eq_some_iff] at hl
      obtain ⟨col, h1, rfl⟩ := hl
      exact hf.integer j col (by simpa [context] using hj) h1
    · intro j hj
      obtain ⟨q, hq⟩ := List.getElem?_of_mem hj
      have h0 := (hex.basic.holds _ hj).1
      have := hex.basic.inverse k hk q _ hq
      have hsum : a.vars.value j = ∑ i ∈ Finset.range w.lp.program.rows.length,
          inv k i * w.lp.program.basisEntry i (.col j) := by
        rw [(Generator.aggregate_spec hclean hvc ha).value, range_sum hvc hidx
          (fun i => ((context e c w).lp.rowAt i).value j)]
        refine Finset.sum_congr rfl fun i hi => ?_
        rw [Finset.mem_range] at hi
        rw [hval i hi, hrow i hi j h0]
        rfl
      rw [hsum, this]
      by_cases hkq : k = q
      · subst hkq
        rw [hhead] at hq
        cases hq
        right
        exact ⟨hint, 1, by simp⟩
      · left
        rw [if_neg hkq]
    · intro ψ hψ f hfm
      have hφ := hex.basic.independent (φ := fun i => if v.value i = 0 then 0 else ψ i) (by
        intro b hb
        obtain ⟨q, hq⟩ := List.getElem?_of_mem hb
        cases b with
        | col j =>
          have h0 := (hex.basic.holds _ hb).1
          refine Eq.trans ?_ (hψ j hb)
          have h2 : (v.entries.map fun f => ψ f.index * ((context e c w).lp.rowAt f.index).value j) =
              v.entries.map fun f => f.value * (ψ f.index / v.value f.index *
                ((context e c w).lp.rowAt f.index).value j) := by
            refine List.map_congr_left fun f hf => ?_
            have h3 : v.value f.index = f.value := value_of_mem hvc hf
            have h4 := (hvc.2 f hf).1
            rw [h3]
            field_simp
          rw [h2, range_sum hvc hidx (fun i => ψ i / v.value i * ((context e c w).lp.rowAt i).value j)]
          refine Finset.sum_congr rfl fun i hi => ?_
          rw [Finset.mem_range] at hi
          rw [hrow i hi j h0]
          simp only [LinearProgram.basisEntry]
          by_cases hz : v.value i = 0
          · simp [hz]
          · rw [if_neg hz]
            field_simp
        | row r =>
          obtain ⟨g1, g2⟩ := hex.basic.holds _ hb
          have := hex.basic.inverse k hk q _ hq
          have hkq : k ≠ q := by
            rintro rfl
            rw [hhead] at hq
            cases hq
          rw [if_neg hkq, Finset.sum_eq_single_of_mem r.toNat (Finset.mem_range.2 (by omega))] at this
          · rw [Finset.sum_eq_single_of_mem r.toNat (Finset.mem_range.2 (by omega))]
            · have h5 : inv k r.toNat = 0 := by
                simpa [LinearProgram.basisEntry, show ((r.toNat : Nat) : Int) = r by omega] using this
              rw [hval r.toNat (by omega), h5]
              simp
            · intro i _ hi
              simp only [LinearProgram.basisEntry]
              rw [if_neg (show ¬ r = (i : Int) by omega), mul_zero]
          · intro i _ hi
            simp only [LinearProgram.basisEntry]
            rw [if_neg (show ¬ r = (i : Int) by omega), mul_zero])
      have h0 := (hvc.2 f hfm).2
      have h1 := hφ f.index.toNat (by have := hidx f hfm; omega)
      rw [show ((f.index.toNat : Nat) : Int) = f.index by omega] at h1
      have h3 : v.value f.index = f.value := value_of_mem hvc hfm
      rw [h3] at h1
      simpa [(hvc.2 f hfm).1] using h1
    · intro n l hl
      simp only [context, Lp.view, List.getElem?_map, Option.map_eq_some_iff] at hl
      obtain ⟨col, h1, rfl⟩ := hl
      exact (hx.1 n col h1).1
    · intro n l hl
      simp only [context, Lp.view, List.getElem?_map, Option.map_eq_some_iff] at hl
      obtain ⟨col, h1, rfl⟩ := hl
      exact (hx.1 n col h1).2
  obtain ⟨_, -, h2⟩ := Generator.C31_cuts_off_lp_optimum _ hclean _ hB _ _ _ h
  have h3 := (h2 cut hc).1
  simp only [SparseVector.eval, evalEntries, hz, List.map_nil, List.sum_nil] at h3
  exact absurd hrhs (not_le.2 h3)

/-! ### Glop -/

/-- The tolerance below which Glop's elements of the inverse are dropped is smaller than `1 / D`. -/
def SmallPrimal (D : ℚ) (s : Glop.Settings) : Prop := ∀ q, s.primalTolerance = .fin q → D * q < 1

/-- What Glop holds after an optimal solve. -/
def GlopHolds (lp : LinearProgram) (r : Report) : Prop := r.GlopBasic lp ∧ lp.Feasible r.point

theorem coarse_small {N : ℕ} {eps v : ℚ} (h : Coarse N v) (hN : 0 < N) (he : N * eps < 1) (hv : |v| ≤ eps) :
    v = 0 := by
  obtain ⟨z, hz⟩ := h
  have hN' : (0 : ℚ) < N := by exact_mod_cast hN
  have h1 : |(z : ℚ)| < 1 := by
    rw [← hz, abs_mul, abs_of_pos hN']
    exact lt_of_le_of_lt (mul_le_mul_of_nonneg_left hv hN'.le) he
  have h2 : z = 0 := by
    rw [← Int.abs_lt_one_iff]
    exact_mod_cast h1
  rw [h2, Int.cast_zero] at hz
  exact (mul_eq_zero.1 hz).resolve_left hN'.ne'

theorem glop_exact {w : World} {D : ℚ} (hw : GlopSolved (SmallPrimal D) GlopHolds w) {N : ℕ} (hN0 : 0 < N)
    (hND : (N : ℚ) ≤ D)
    (hN : ∀ k < w.lp.program.rows.length, ∀ i < w.lp.program.rows.length,
      Coarse N ((w.report.glopInverse k).values.getD i 0)) :
    w.Exact (w.report.basis.map (glopElement w.lp.program)) fun k i => (w.report.glopInverse k).values.getD i 0 := by
  have hfit : w.report.Fits w.lp.program.rows.length :=
    ⟨by simpa using hw.2.2.1.basic.length, hw.2.2.1.shape⟩
  have hfits := glop_fits hw.1 hw.2.1 hfit
  obtain ⟨⟨s, hs, hT⟩, hsort, hb, -⟩ := hw
  have hp : w.lp.program = s.iface.lp := by rw [hs]; rfl
  refine ⟨hb.basic, ?_, ?_⟩
  · simp only [World.basis, hs, Glop.getColumnsAndRowsInBasis]
    rw [← hp, ← hfit.1, List.take_length, ← hs]
    rfl
  · intro k hk v hv
    obtain ⟨v', g1, g2⟩ := hfits.inverse k hk
    have := Outcome.ok.inj (g1.symm.trans hv)
    subst this
    refine ⟨g2, fun i hi => ?_⟩
    have hk' := hk
    rw [hp] at hk'
    obtain ⟨v, h1, h2, h3, -, h4⟩ := Glop.C69_inverse_row_partial s.iface w.report.glopInverse
      (match s.settings.primalTolerance with | .fin q => q | _ => 0) k (by rw [← hp]; exact hfit.2 k hk)
    have hv' : v' = v := by
      simp only [World.inverseRow, hs] at hv
      exact Outcome.ok.inj (hv.symm.trans h1)
    subst hv'
    have h5 := h3 i
    rw [(h4 (hsort k)).2] at h5
    rcases h5 with h5 | ⟨h5, h6⟩
    · exact h5
    · rw [h5]
      symm
      refine coarse_small (hN k hk i hi) hN0 ?_ h6
      cases ht : s.settings.primalTolerance with
      | fin q =>
        have h7 := hT q ht
        by_cases hq : 0 ≤ q
        · exact lt_of_le_of_lt (mul_le_mul_of_nonneg_right hND hq) h7
        · have : (0 : ℚ) < N := by exact_mod_cast hN0
          simp only
          nlinarith
      | nan => simp
      | ninf => simp
      | pinf => simp

theorem goodCuts_glop {e : Engine} {p : Problem} {c : Setup.Created} (hv : CutSetting e p c)
    (hI : IntegralProblem p) {D : ℚ} (hD : Determinants p D) (htol : 0 ≤ c.integralityTolerance)
    (hDt : D * c.integralityTolerance < 1) {lp₀ : LinearProgram} (h₀ : Refines lp₀ p.relaxation) :
    GoodCuts e p c lp₀ (GlopSolved (SmallPrimal D) GlopHolds) := by
  intro w rs m cuts hw hf hF hrows h
  obtain ⟨hash, hdata⟩ := hv.data
  obtain ⟨d', h1, hd, -, -⟩ := MipData.ofProblem_spec hash p hv.wellFormed
  rw [hdata] at h1
  have := Outcome.ok.inj h1
  subst this
  obtain ⟨hcoef, -⟩ := integralLp hv.order hI hd h₀ hw hf hrows
  obtain ⟨N, hN0, hND, hN⟩ := coarse_of_determinants hD h₀ hw.good hrows hcoef hF.2.2.1.basic
  exact good_of_exact hv hI hD htol hDt h₀ hw hf hrows (glop_exact hF hN0 hND hN) hF.2.2.2 h

theorem glopHolds {e : Engine} (he : e.Feasible) (hb : e.GlopBasic) (n : Nat) (s : Glop.Session)
    (ho : (e.glop n s).2.1 = .optimal) : GlopHolds s.iface.lp (e.glop n s).2.2.2 :=
  ⟨hb n s ho, he.glop n s ho⟩

theorem GlopHolds.fits (lp : LinearProgram) (r : Report) (h : GlopHolds lp r) : r.Fits lp.rows.length :=
  ⟨by simpa using h.1.basic.length, h.1.shape⟩

/-- **C77 with one round of cuts, for integral problems.**  For every well-formed problem with integral
coefficients, sides and bounds of continuous variables, whose integer variables have non-negative lower
bounds, whether it has feasible points or not, with Glop, both branching rules and at most one round of cuts:
if `D` bounds the determinants of the basis matrices, and the integrality tolerance and Glop's primal
feasibility tolerance are smaller than `1 / D`, and every call of the simplex returns, with points within the
LP and the inverse of the basis matrix when optimal, then no iteration of `Solve` aborts or runs into
undefined behaviour.

Missing for C77: more rounds (`C77_second_round_violated`), fractional sides
(`C77_fractional_side_violated`). -/
theorem C77_one_round_integral_partial {e : Engine} (he : e.Feasible) (hret : e.GlopReturns)
    (hbas : e.GlopBasic) (ho : e.InOrder) (hsort : e.Sorted) {x : Setup.External} {p : Problem}
    (hp : p.WellFormed) (hn : NonnegativeIntegers p) (hI : IntegralProblem p) {D : ℚ} (hD : Determinants p D)
    {user : Setup.ParamsMsg} {c : Setup.Created} (h : Setup.create x p user = .ok c)
    (htol : 0 ≤ c.integralityTolerance) (hDt : D * c.integralityTolerance < 1)
    (hl : ∃ s g, c.lpi = .glop s g ∧ SmallPrimal D s) (hprm : OneRoundParams c) (fuel : Nat) :
    solve e c fuel = none ∨ (∃ s, solve e c fuel = some (.ok s)) ∨
      solve e c fuel = some (.error "The problem is infeasible or unbounded") := by
  obtain ⟨hd, h₀⟩ := created_refines hp h
  obtain ⟨-, hdata, -⟩ := Setup.create_ok h
  have hv : CutSetting e p c := ⟨ho, hsort, hp, hn, hI.sides, _, hdata⟩
  obtain ⟨s, g, hl, hs⟩ := hl
  exact oneRound_returns he hv htol hprm hd h₀
    (steady_glop hret hsort (SmallPrimal D) GlopHolds.fits (glopHolds he hbas) _)
    (goodCuts_glop hv hI hD htol hDt h₀) (oneRound_start hp h₀ hl hs _) fuel

/-- **C75 with one round of cuts, for integral problems.**  In the same setting, with LP code that answers
rightly and an objective that is bounded on the relaxation: the best solution is optimal, and an error means
that the problem is infeasible. -/
theorem C75_one_round_integral_partial {e : Engine} (he : e.Right) (hret : e.GlopReturns)
    (hbas : e.GlopBasic) (ho : e.InOrder) (hsort : e.Sorted) {x : Setup.External} {p : Problem}
    (hp : p.WellFormed) (hB : Bounded p) (hn : NonnegativeIntegers p) (hI : IntegralProblem p) {D : ℚ}
    (hD : Determinants p D) {user : Setup.ParamsMsg} {c : Setup.Created} (h : Setup.create x p user = .ok c)
    (htol : 0 ≤ c.integralityTolerance) (hDt : D * c.integralityTolerance < 1)
    (hl : ∃ s g, c.lpi = .glop s g ∧ SmallPrimal D s) (hprm : OneRoundParams c) (fuel : Nat) :
    (∀ s, solve e c fuel = some (.ok s) → ∀ y, p.Feasible y →
      s.result.best ≠ {} ∧
      if p.isMaximization then p.userObjective y ≤ p.userObjective (point s.result.best.values)
      else p.userObjective (point s.result.best.values) ≤ p.userObjective y) ∧
    ∀ m, solve e c fuel = some (.error m) → ∀ y, ¬ p.Feasible y := by
  obtain ⟨hd, h₀⟩ := created_refines hp h
  obtain ⟨-, hdata, -⟩ := Setup.create_ok h
  have hv : CutSetting e p c := ⟨ho, hsort, hp, hn, hI.sides, _, hdata⟩
  obtain ⟨s, g, hl, hs⟩ := hl
  exact oneRound_right he hB hv hprm hd h₀
    (steady_glop hret hsort (SmallPrimal D) GlopHolds.fits (glopHolds he.feasible hbas) _)
    (goodCuts_glop hv hI hD htol hDt h₀) (fun _ _ _ => trivial) (oneRound_start hp h₀ hl hs _) fuel

/-- The tolerances of the user are smaller than `1 / D`. -/
structure FineTolerances (D : ℚ) (user : Setup.ParamsMsg) (lp : LpParameters) : Prop where
  nonneg : 0 ≤ user.integralityTolerance.getD (1 / 10 ^ 6)
  integrality : D * user.integralityTolerance.getD (1 / 10 ^ 6) < 1
  primal : ∀ q, lp.feasibilityTolerance = .fin q → D * q < 1
  default : lp.feasibilityTolerance = .fin (-1) → D < 10 ^ 8

theorem created_small {x : Setup.External} {p : Problem} {user : Setup.ParamsMsg} {lp : LpParameters}
    (hlp : Setup.LpWins user.lp lp) (hg : lp.solverType = .glop) {D : ℚ} (hD : FineTolerances D user lp)
    {c : Setup.Created} (h : Setup.create x p user = .ok c) : ∃ s g, c.lpi = .glop s g ∧ SmallPrimal D s := by
  obtain ⟨-, -, ⟨l, hl, hl'⟩, -⟩ := Setup.create_ok h
  rw [← hlp.eq] at hl
  unfold Setup.createLpSolver at hl
  rw [hg] at hl
  simp only [Outcome.bind_eq_ok] at hl
  obtain ⟨n, -, hl⟩ := hl
  split at hl
  · rename_i hok
    rw [← Outcome.ok.inj hl] at hl'
    simp only [Setup.Lpi.populate, Outcome.bind_eq_ok] at hl'
    obtain ⟨g, -, hl'⟩ := hl'
    rw [← Outcome.ok.inj hl']
    refine ⟨_, _, rfl, ?_⟩
    obtain ⟨-, sc, rule, -, -, h3⟩ := Glop.set_ok hok
    rw [h3]
    intro q hq
    simp only [Glop.glopTolerance_eq] at hq
    split at hq
    · rename_i hm
      have := hD.default hm
      cases hq
      linarith
    · exact hD.primal q hq
  · cases hl

/-- **C83, integral problems.**  For every well-formed problem with integral coefficients, sides and bounds
of continuous variables, whose integer variables have finite bounds that are not negative and whose objective
is bounded on the relaxation: with at most one round of cuts,
no random branching, tolerances smaller than `1 / D`, where `D` bounds the determinants of the basis
matrices, and valid LP parameters for Glop, `Create` succeeds, and whatever LP code that answers rightly, with
the inverse of the basis matrix, it runs on, `Solve` has returned after at most `iterationBound p` iterations,
with a right outcome.  (The problem need not have a feasible point, and the integrality tolerance need not be 0.) -/
theorem C83_one_round_integral_total_correctness_partial (p : Problem) (hp : p.WellFormed)
    (hf : FiniteIntegers p) (hB : Bounded p) (hn : NonnegativeIntegers p) (hI : IntegralProblem p) {D : ℚ}
    (hD : Determinants p D) :
    ∀ (x : Setup.External) (user : Setup.ParamsMsg) (lp : LpParameters),
      Setup.LpWins user.lp lp → Setup.GlopTakes lp → AsksOneRound user →
      (∀ s, user.branching.bind (·.rule) ≠ some (.random s)) → FineTolerances D user lp →
      ∃ c, Setup.create x p user = .ok c ∧ ∀ e : Engine, e.Right → e.GlopReturns → e.GlopBasic → e.InOrder →
        e.Sorted → Solves p (user.integralityTolerance.getD (1 / 10 ^ 6)) (solve e c (iterationBound p)) := by
  have hN := C76_ends_partial p hp hf
  intro x user lp hlp ht hu hr hfine
  obtain ⟨c, hc⟩ := (Setup.C73_glop_partial x p hp user lp hlp ht.solver).1 ht
  obtain ⟨-, -, -, -, -, htol, -⟩ := Setup.create_ok hc
  have hrule : ∃ dir, c.rule = .maxFractional dir := by
    obtain ⟨-, -, -, -, -, -, -, ⟨dir, -, -, hrule⟩, -⟩ := Setup.C58_user_wins_partial x p hp user c hc
    refine ⟨dir, hrule ?_⟩
    rcases hb : user.branching.bind (·.rule) with _ | r
    · exact Or.inr rfl
    · cases r with
      | random s => exact absurd hb (hr s)
      | maxFractional => exact Or.inl rfl
  obtain ⟨dir, hrule⟩ := hrule
  have hsmall := created_small hlp ht.solver hfine hc
  have h1 : 0 ≤ c.integralityTolerance := by rw [htol]; exact hfine.nonneg
  have h2 : D * c.integralityTolerance < 1 := by rw [htol]; exact hfine.integrality
  refine ⟨c, hc, fun e he hret hbas ho hsort => ?_⟩
  exact solves_of_parts he.feasible hp hc (hN e x user c dir he.feasible hc hrule hfine.nonneg)
    (C77_one_round_integral_partial he.feasible hret hbas ho hsort hp hn hI hD hc h1 h2 hsmall
      (oneRoundParams hp hc hu) _)
    (C75_one_round_integral_partial he hret hbas ho hsort hp hB hn hI hD hc h1 h2 hsmall
      (oneRoundParams hp hc hu) _)

/-! ### An example -/

/-- `2 x - 2 y = 1`, `0 ≤ x, y ≤ 5` integers: the relaxation has points, the problem has none. -/
def parity : Problem :=
  { vars := [{ name := "x", objective := 1, lower := .fin 0, upper := .fin 5, isInteger := true },
      { name := "y", objective := 1, lower := .fin 0, upper := .fin 5, isInteger := true }]
    constraints := [{ name := "c", varIndices := [0, 1], coefficients := [2, -2], lhs := .fin 1, rhs := .fin 1 }] }

/-- At most one round of cuts, and all else by default. -/
def onceUser : Setup.ParamsMsg where
  cutRunner := some { defaultRunner := some { maxIterations := some 1 } }

theorem parity_infeasible : (∃ y, parity.RelaxedFeasible y) ∧ ∀ y, ¬ parity.Feasible y := by
  constructor
  · refine ⟨fun j => if j = 0 then 1 / 2 else 0, ?_, ?_⟩
    · intro n v hv
      match n with
      | 0 => simp [parity] at hv; subst hv; norm_num [Between]
      | 1 => simp [parity] at hv; subst hv; norm_num [Between]
      | n + 2 => simp [parity] at hv
    · intro k hk
      simp [parity] at hk
      subst hk
      norm_num [Between, Constraint.activity]
  · rintro y ⟨h1, h2⟩
    obtain ⟨a, ha⟩ := (h1 0 _ rfl).2 rfl
    obtain ⟨b, hb⟩ := (h1 1 _ rfl).2 rfl
    have := h2 _ (List.mem_singleton.2 rfl)
    simp [Constraint.activity, Between] at this ha hb
    rw [ha, hb] at this
    have h3 : (2 * a - 2 * b : ℚ) = 1 := by linarith [this.1, this.2]
    have : 2 * a - 2 * b = 1 := by exact_mod_cast h3
    omega

/-- The hypotheses of the theorems above are met together, with default tolerances and by a problem
without feasible points. -/
example : (perfect.Right ∧ perfect.Feasible ∧ perfect.GlopReturns ∧ perfect.GlopBasic ∧ perfect.InOrder ∧
      perfect.Sorted) ∧
    (parity.WellFormed ∧ FiniteIntegers parity ∧ Bounded parity ∧ NonnegativeIntegers parity ∧
      IntegralProblem parity ∧ Determinants parity 2) ∧
    AsksOneRound onceUser ∧ (∀ s, onceUser.branching.bind (·.rule) ≠ some (.random s)) ∧
    ∃ lp, Setup.LpWins onceUser.lp lp ∧ Setup.GlopTakes lp ∧ FineTolerances 2 onceUser lp ∧
    ∀ x, ∃ c, Setup.create x parity onceUser = .ok c ∧ 0 ≤ c.integralityTolerance ∧
      2 * c.integralityTolerance < 1 ∧ (∃ s g, c.lpi = .glop s g ∧ SmallPrimal 2 s) ∧ OneRoundParams c := by
  have hwf : parity.WellFormed := by
    simp [Problem.WellFormed, parity, Variable.WellFormed, Constraint.WellFormed, Ordered, Dbl.le]
  have hask : AsksOneRound onceUser := ⟨⟨1, le_refl _, rfl⟩, by simp [onceUser]⟩
  have htakes : Setup.GlopTakes (onceUser.lp.getD {}).read := by
    refine ⟨⟨?_, ?_, ?_, ?_, ?_, ?_, ?_, ?_⟩, rfl, ?_, ?_, rfl, rfl⟩ <;>
      simp [onceUser, Setup.LpMsg.read, ToleranceOk]
  have hfine : FineTolerances 2 onceUser (onceUser.lp.getD {}).read := by
    constructor
    · norm_num [onceUser]
    · norm_num [onceUser]
    · intro q hq
      simp [onceUser, Setup.LpMsg.read] at hq
      rw [← hq]; norm_num
    · intro _; norm_num
  refine ⟨⟨perfect_spec.1, perfect_spec.1.feasible, perfect_spec.2, perfect_basic.1, fun _ _ => rfl,
    fun _ _ _ => List.Pairwise.nil⟩, ⟨hwf, ?_, ⟨0, ?_⟩, ?_, ⟨?_, ?_, ?_⟩, ?_⟩, hask, by simp [onceUser],
    _, Setup.lpWins _, htakes, hfine, fun x => ?_⟩
  · intro v hv hi
    simp [parity] at hv
    rcases hv with rfl | rfl <;> exact ⟨_, _, rfl, rfl⟩
  · rintro y ⟨h1, -⟩
    have hx := h1 0 _ rfl
    have hy := h1 1 _ rfl
    simp only [Between, Dbl.le_fin] at hx hy
    simp only [parity, Problem.userObjective, objectiveFrom]
    simp at hx hy ⊢
    linarith [hx.1, hy.1]
  · intro v hv hi
    simp [parity] at hv
    rcases hv with rfl | rfl <;> norm_num [Dbl.le]
  · intro k hk q hq
    simp [parity] at hk
    subst hk
    simp at hq
    rcases hq with rfl | rfl
    · exact ⟨2, by norm_num⟩
    · exact ⟨-2, by norm_num⟩
  · intro k hk q hq
    simp [parity] at hk
    subst hk
    simp at hq
    exact ⟨1, by rw [← hq]; norm_num⟩
  · intro v hv hi
    simp [parity] at hv
    rcases hv with rfl | rfl <;> simp at hi
  · intro b
    have : ∀ b : Nat ⊕ Nat, |Problem.extendedMatrix parity 0 b| ≤ 2 := by
      intro b
      rcases b with j | r
      · match j with
        | 0 => norm_num [Problem.extendedMatrix, parity, Problem.relaxation, Constraint.coefficientOf]
        | 1 => norm_num [Problem.extendedMatrix, parity, Problem.relaxation, Constraint.coefficientOf]
        | n + 2 =>
          have h1 : (0 : Int) ≠ (n : Int) + 2 := by omega
          have h2 : (1 : Int) ≠ (n : Int) + 2 := by omega
          simp [Problem.extendedMatrix, parity, Problem.relaxation, Constraint.coefficientOf, h1, h2]
      · simp only [Problem.extendedMatrix]
        split <;> norm_num
    have h := Matrix.det_fin_one (fun i j : Fin 1 => Problem.extendedMatrix parity i (b j))
    exact (congrArg abs h).trans_le (this _)
  · obtain ⟨c, hc⟩ := (Setup.C73_glop_partial x parity hwf onceUser _ (Setup.lpWins _) rfl).1 htakes
    obtain ⟨-, -, -, -, -, htol, -⟩ := Setup.create_ok hc
    exact ⟨c, hc, by rw [htol]; exact hfine.nonneg, by rw [htol]; exact hfine.integrality,
      created_small (Setup.lpWins _) rfl hfine hc, oneRoundParams hwf hc hask⟩

end Program
end MiniMip
