import Verif.Lemmas.ProgramCuts
import Verif.Props.ProgramTotal

/-!
# The whole program with cuts (C75)
-/

namespace MiniMip
namespace Program

variable {hash : MipData.HashOrder}

open Glop (LinearProgram Extends Refines Stored)
open Solver (Oracle Contract guard cautious point InBounds NodeBounds OptimalAnswer)

/-- The integer variables of the user's problem have non-negative lower bounds. -/
def NonnegativeIntegers (p : Problem) : Prop :=
  ∀ v ∈ p.vars, v.isInteger = true → Dbl.le (.fin 0) v.lower = true

/-- The constraints of the user's problem have integral (finite) sides. -/
def IntegralSides (p : Problem) : Prop :=
  ∀ k ∈ p.constraints, ∀ q, (k.lhs = .fin q ∨ k.rhs = .fin q) → ∃ i : Int, q = i

/-- A cut that holds at every feasible point of the user's problem. -/
def ValidCut (p : Problem) (cut : CutData) : Prop :=
  cut.row.Good ∧ ∀ x, p.Feasible x → cut.row.eval x ≤ cut.rhs

/-- The rows hold at every feasible point of the user's problem. -/
def ValidRows (p : Problem) (lp : LinearProgram) : Prop :=
  ∀ x, p.Feasible x → ∀ (r : Nat) (row : Glop.Row), lp.rows[r]? = some row →
    Between row.lhs (lp.activity r x) row.rhs

/-- The worlds of a run with cuts that are valid. -/
structure Sound (p : Problem) (lp₀ : LinearProgram) (w : World) : Prop where
  good : Extends lp₀ w.lp.program
  stored : Stored w.lp.program
  valid : ValidRows p w.lp.program
  sorted : ∀ s, w.lp = .glop s → w.report.Sorted

/-- The bounds of the LP at a node that matter for cuts. -/
structure Fit (d : MipData) (lp : LinearProgram) : Prop where
  integer : ∀ (n : Nat) col, (n : Int) ∈ d.integerVariables → lp.cols[n]? = some col →
    Dbl.le (.fin 0) col.lower = true
  continuous : ∀ (n : Nat) col l u, (n : Int) ∉ d.integerVariables → lp.cols[n]? = some col →
    d.lower[n]? = some l → d.upper[n]? = some u → col.lower = l ∧ col.upper = u

theorem Fit.congr {d : MipData} {lp lp' : LinearProgram} (h : Fit d lp)
    (hb : ∀ c : Nat, (lp'.cols[c]?.map fun x => (x.lower, x.upper)) =
      lp.cols[c]?.map fun x => (x.lower, x.upper)) : Fit d lp' := by
  have key : ∀ (n : Nat) col, lp'.cols[n]? = some col → ∃ col', lp.cols[n]? = some col' ∧
      col'.lower = col.lower ∧ col'.upper = col.upper := by
    intro n col hn
    have := hb n
    rw [hn, Option.map_some, eq_comm, Option.map_eq_some_iff] at this
    obtain ⟨col', h1, h2⟩ := this
    exact ⟨col', h1, (Prod.mk.inj h2).1, (Prod.mk.inj h2).2⟩
  constructor
  · intro n col hi hn
    obtain ⟨col', h1, h2, -⟩ := key n col hn
    rw [← h2]
    exact h.integer n col' hi h1
  · intro n col l u hi hn hl hu
    obtain ⟨col', h1, h2, h3⟩ := key n col hn
    rw [← h2, ← h3]
    exact h.continuous n col' l u hi h1 hl hu

/-- A node whose bounds contain a point has such bounds. -/
theorem fit_of_bounds {p : Problem} (hn : NonnegativeIntegers p) {d : MipData} (hd : d.Represents p)
    {lp₀ : LinearProgram} (h₀ : Refines lp₀ p.relaxation) {r : Runner World}
    (hg : Extends lp₀ r.world.lp.program) (hb : NodeBounds d bounds r) {x : Int → ℚ}
    (hx : ∀ (c : Nat) col, r.world.lp.program.cols[c]? = some col → Between col.lower (x c) col.upper) :
    Fit d r.world.lp.program := by
  have hlen : r.world.lp.program.cols.length = p.vars.length := by
    rw [hg.numCols, h₀.numCols]; rfl
  have hbd : ∀ (n : Nat) col, r.world.lp.program.cols[n]? = some col →
      bounds r n = (col.lower, col.upper) := by
    intro n col hc
    rw [bounds_nat, hc]; rfl
  constructor
  · intro n col hi hc
    obtain ⟨m, v, hv, hvi, hnm⟩ := (hd.integers n).1 hi
    obtain rfl : n = m := by exact_mod_cast hnm
    obtain ⟨h1, -⟩ := hb n v.lower v.upper (by rw [hd.lower, List.getElem?_map, hv]; rfl)
      (by rw [hd.upper, List.getElem?_map, hv]; rfl)
    rw [hbd n col hc] at h1
    have hxn := hx n col hc
    have hnn := hn v (List.mem_of_getElem? hv) hvi
    cases hlo : col.lower with
    | nan => rw [hlo] at hxn; exact absurd hxn.1 (by simp [Dbl.le])
    | pinf => rfl
    | fin q =>
      have hq := h1 q ⟨by rw [hlo]; exact (Dbl.le_fin _ _).2 le_rfl, by
        have h2 := hxn.1
        rw [hlo] at h2
        have h3 := hxn.2
        cases hu : col.upper with
        | nan => rw [hu] at h3; simp [Dbl.le] at h3
        | pinf => rfl
        | ninf => rw [hu] at h3; simp [Dbl.le] at h3
        | fin u =>
          rw [hu] at h3
          exact (Dbl.le_fin _ _).2 (((Dbl.le_fin _ _).1 h2).trans ((Dbl.le_fin _ _).1 h3))⟩
      have h4 := hq.1
      cases hl : v.lower with
      | nan => rw [hl] at hnn; simp [Dbl.le] at hnn
      | pinf => rw [hl] at h4; simp [Dbl.le] at h4
      | ninf => rw [hl] at hnn; simp [Dbl.le] at hnn
      | fin l =>
        rw [hl] at hnn h4
        exact (Dbl.le_fin _ _).2 (((Dbl.le_fin _ _).1 hnn).trans ((Dbl.le_fin _ _).1 h4))
    | ninf =>
      exfalso
      have hq := h1 (min (x n) (-1)) ⟨by rw [hlo]; rfl, by
        have h3 := hxn.2
        cases hu : col.upper with
        | nan => rw [hu] at h3; simp [Dbl.le] at h3
        | pinf => rfl
        | ninf => rw [hu] at h3; simp [Dbl.le] at h3
        | fin u =>
          rw [hu] at h3
          exact (Dbl.le_fin _ _).2 ((min_le_left _ _).trans ((Dbl.le_fin _ _).1 h3))⟩
      have h4 := hq.1
      cases hl : v.lower with
      | nan => rw [hl] at hnn; simp [Dbl.le] at hnn
      | pinf => rw [hl] at h4; simp [Dbl.le] at h4
      | ninf => rw [hl] at hnn; simp [Dbl.le] at hnn
      | fin l =>
        rw [hl] at hnn h4
        have h5 := (Dbl.le_fin _ _).1 hnn
        have h6 := (Dbl.le_fin _ _).1 h4
        have := min_le_right (x n) (-1)
        linarith
  · intro n col l u hi hc hl hu
    have := (hb n l u hl hu).2 hi
    rw [hbd n col hc] at this
    exact Prod.mk.inj this

/-- An optimal node has such bounds. -/
theorem fit_of {p : Problem} (hn : NonnegativeIntegers p) {d : MipData} (hd : d.Represents p)
    {lp₀ : LinearProgram} (h₀ : Refines lp₀ p.relaxation) {r : Runner World}
    (hg : Extends lp₀ r.world.lp.program) (hb : NodeBounds d bounds r) {x : Int → ℚ}
    (hx : r.world.lp.program.Feasible x) : Fit d r.world.lp.program :=
  fit_of_bounds hn hd h₀ hg hb hx.1

/-- Tolerance 0 is harmless. -/
theorem harmless_zero {e : Engine} {c : Setup.Created} (htol : c.integralityTolerance = 0) (w : World) :
    Generator.Harmless (context e c w) w.view := by
  intro k b u a a' _ _ _ _
  show Generator.HarmlessTolerance c.integralityTolerance a'
  rw [htol]
  exact Generator.harmless_of_tol_zero a'

/-- The rows that the generator treats as integral have integral data. -/
theorem integralRows {e : Engine} (ho : e.InOrder) {p : Problem} (hp : p.WellFormed)
    (hs : IntegralSides p) {c : Setup.Created} (hd : MipData.ofProblem hash p = .ok c.data) {lp₀ : LinearProgram}
    (h₀ : Refines lp₀ p.relaxation) {w : World} (hw : Sound p lp₀ w) :
    Generator.IntegralRows (context e c w) := by
  obtain ⟨d', h1, hrep, hflag, -⟩ := MipData.ofProblem_spec hash p hp
  rw [hd] at h1
  have := Outcome.ok.inj h1
  subst this
  have hrows : ∀ (n : Nat) row, (context e c w).lp.rows[n]? = some row →
      n < w.lp.program.rows.length ∧ row = w.lp.sparseRow e n := by
    intro n row hr
    simp only [context, Lp.view, List.getElem?_map, Option.map_eq_some_iff] at hr
    obtain ⟨k, hk, rfl⟩ := hr
    obtain ⟨h1, h2⟩ := List.getElem?_eq_some_iff.1 hk
    simp only [List.getElem_range] at h2
    rw [h2] at h1 ⊢
    simp only [List.length_range] at h1
    subst h2
    exact ⟨h1, rfl⟩
  have hlen₀ : lp₀.rows.length = p.constraints.length := h₀.numRows
  have hint : ∀ j, (context e c w).isInteger j = true ↔ j ∈ c.data.integerVariables := by
    intro j; simp [context]
  have hold : ∀ i : Nat, (context e c w).integralRow[i]? = some true → i < lp₀.rows.length := by
    intro i hi
    have := (List.getElem?_eq_some_iff.1 hi).1
    rw [hlen₀, ← hrep.numFlags]
    exact this
  have hside : ∀ (i : Nat) row, i < lp₀.rows.length → w.lp.program.rows[i]? = some row →
      ∃ con, p.constraints[i]? = some con ∧ row.lhs = con.lhs ∧ row.rhs = con.rhs := by
    intro i row hi hr
    obtain ⟨extra, he⟩ := hw.good.rows
    rw [he, List.getElem?_append_left hi] at hr
    obtain ⟨g1, g2⟩ := h₀.rows i row hr
    have hlt : i < p.constraints.length := by rw [← hlen₀]; exact hi
    refine ⟨_, List.getElem?_eq_getElem hlt, ?_, ?_⟩
    · rw [g1]; simp [Problem.relaxation, List.getElem?_eq_getElem hlt]
    · rw [g2]; simp [Problem.relaxation, List.getElem?_eq_getElem hlt]
  constructor
  · intro i row hi hr en hen
    obtain ⟨-, rfl⟩ := hrows i row hr
    have hlt := hold i hi
    obtain ⟨g1, g2⟩ := sparseRow_spec ho hw.stored i
    have hk : p.constraints[i]? = some p.constraints[i] := List.getElem?_eq_getElem (by omega)
    obtain ⟨row', flag, hf', hok⟩ := hflag i _ hk
    have : flag = true := by
      have hi : c.data.isIntegralConstraint[i]? = some true := hi
      rw [hf'] at hi
      exact Option.some.inj hi
    subst this
    obtain ⟨f, hfm, hfi, hfv⟩ := Generator.entries_eq_of_eval g1.1 hok.clean (fun x => by
      have h1 := g2 x
      rw [hw.good.activity hlt, h₀.activity (s := p.relaxation) (by rw [← h₀.numRows]; exact hlt),
        relaxation_activity hp hk] at h1
      exact h1.trans (hok.eval x).symm) en hen
    obtain ⟨hk, hj⟩ := hok.sound rfl f hfm
    rw [hfi] at hj; rw [hfv] at hk
    exact ⟨(hint _).2 hj, hk⟩
  · intro i q hi hq
    simp only [context, Lp.view, List.getElem?_map, Option.map_eq_some_iff] at hq
    obtain ⟨row, hr, hq⟩ := hq
    obtain ⟨con, h1, h2, -⟩ := hside i row (hold i hi) hr
    exact hs con (List.mem_of_getElem? h1) q (Or.inl (h2.symm.trans hq))
  · intro i q hi hq
    simp only [context, Lp.view, List.getElem?_map, Option.map_eq_some_iff] at hq
    obtain ⟨row, hr, hq⟩ := hq
    obtain ⟨con, h1, -, h2⟩ := hside i row (hold i hi) hr
    exact hs con (List.mem_of_getElem? h1) q (Or.inr (h2.symm.trans hq))

/-- **C33** in the whole program: the cuts that the generators find at a node of a problem with
non-negative integer variables and integral sides hold at every feasible point of the problem. -/
theorem generated_valid {e : Engine} (ho : e.InOrder) {p : Problem} (hp : p.WellFormed)
    (hn : NonnegativeIntegers p) (hs : IntegralSides p) {c : Setup.Created}
    (hd : MipData.ofProblem hash p = .ok c.data) {lp₀ : LinearProgram}
    (h₀ : Refines lp₀ p.relaxation) {w : World} (hw : Sound p lp₀ w) (hf : Fit c.data w.lp.program)
    (htol' : Generator.Harmless (context e c w) w.view)
    {rs : List Generator.Rounder} {m : Int} {cuts : List CutData}
    (h : Generator.generateCuttingPlanes (context e c w) w.view rs m = .ok cuts) :
    ∀ cut ∈ cuts, ValidCut p cut := by
  obtain ⟨d', h1, hrep, -, -⟩ := MipData.ofProblem_spec hash p hp
  rw [hd] at h1
  have := Outcome.ok.inj h1
  subst this
  have hB := solverClean hw.sorted
  have hrows : ∀ (n : Nat) row, (context e c w).lp.rows[n]? = some row →
      n < w.lp.program.rows.length ∧ row = w.lp.sparseRow e n := by
    intro n row hr
    simp only [context, Lp.view, List.getElem?_map, Option.map_eq_some_iff] at hr
    obtain ⟨k, hk, rfl⟩ := hr
    obtain ⟨h1, h2⟩ := List.getElem?_eq_some_iff.1 hk
    simp only [List.getElem_range] at h2
    rw [h2] at h1 ⊢
    simp only [List.length_range] at h1
    subst h2
    exact ⟨h1, rfl⟩
  have hclean : Generator.RowsClean (context e c w).lp := by
    intro row hr
    obtain ⟨n, hn⟩ := List.getElem?_of_mem hr
    rw [(hrows n row hn).2]
    exact (sparseRow_spec ho hw.stored n).1
  have hint : ∀ j, (context e c w).isInteger j = true ↔ j ∈ c.data.integerVariables := by
    intro j; simp [context]
  have hI := integralRows ho hp hs hd h₀ hw
  obtain ⟨_, -, hgood⟩ := Generator.C31_cuts_off_lp_optimum _ hclean _ hB rs m cuts h
  intro cut hc
  refine ⟨(hgood cut hc).2.1, fun x hx => ?_⟩
  have hvar : ∀ j ∈ c.data.integerVariables, ∃ (n : Nat) (v : Variable),
      p.vars[n]? = some v ∧ v.isInteger = true ∧ j = (n : Int) := by
    intro j hj
    obtain ⟨n, v, h1, h2, h3⟩ := (hrep.integers j).1 hj
    exact ⟨n, v, h1, h2, h3⟩
  have hcol : ∀ (n : Nat) (f : Glop.Column → Dbl) (l : Dbl),
      (w.lp.program.cols.map f)[n]? = some l → (n : Int) ∉ c.data.integerVariables →
      ∃ col v, w.lp.program.cols[n]? = some col ∧ f col = l ∧ p.vars[n]? = some v ∧
        col.lower = v.lower ∧ col.upper = v.upper := by
    intro n f l hl hi
    rw [List.getElem?_map, Option.map_eq_some_iff] at hl
    obtain ⟨col, h1, h2⟩ := hl
    have hlt : n < p.vars.length := by
      have := (List.getElem?_eq_some_iff.1 h1).1
      rw [hw.good.numCols, h₀.numCols] at this
      exact this
    have hv := List.getElem?_eq_getElem hlt
    obtain ⟨h3, h4⟩ := hf.continuous n col _ _ hi h1 (by rw [hrep.lower, List.getElem?_map, hv]; rfl)
      (by rw [hrep.upper, List.getElem?_map, hv]; rfl)
    exact ⟨col, _, h1, h2, hv, h3, h4⟩
  refine Generator.C33_nonnegative_partial (context e c w) hclean hI ?_ w.view hB htol' rs m cuts h cut hc x
    ⟨?_, ?_⟩ ?_ ?_ ?_ ?_
  · intro n l hi hl
    simp only [context, Lp.view, List.getElem?_map, Option.map_eq_some_iff] at hl
    obtain ⟨col, h1, rfl⟩ := hl
    exact hf.integer n col ((hint _).1 hi) h1
  · intro n row l hr hl
    obtain ⟨hlt, rfl⟩ := hrows n row hr
    rw [(sparseRow_spec ho hw.stored n).2]
    simp only [context, Lp.view, List.getElem?_map, Option.map_eq_some_iff] at hl
    obtain ⟨rw', h1, rfl⟩ := hl
    exact (hw.valid x hx n rw' h1).1
  · intro n row l hr hl
    obtain ⟨hlt, rfl⟩ := hrows n row hr
    rw [(sparseRow_spec ho hw.stored n).2]
    simp only [context, Lp.view, List.getElem?_map, Option.map_eq_some_iff] at hl
    obtain ⟨rw', h1, rfl⟩ := hl
    exact (hw.valid x hx n rw' h1).2
  · intro j hj
    obtain ⟨n, v, h1, h2, rfl⟩ := hvar j ((hint j).1 hj)
    exact (hx.1 n v h1).2 h2
  · intro j hj
    obtain ⟨n, v, h1, h2, h3⟩ := hvar j ((hint j).1 hj)
    obtain rfl : j = n := by exact_mod_cast h3
    have hnn := hn v (List.mem_of_getElem? h1) h2
    have h4 := (hx.1 j v h1).1.1
    cases hl : v.lower with
    | nan => rw [hl] at hnn; simp [Dbl.le] at hnn
    | pinf => rw [hl] at h4; simp [Dbl.le] at h4
    | ninf => rw [hl] at hnn; simp [Dbl.le] at hnn
    | fin l =>
      rw [hl] at hnn h4
      exact ((Dbl.le_fin _ _).1 hnn).trans ((Dbl.le_fin _ _).1 h4)
  · intro n l hi hl
    have hi' : (n : Int) ∉ c.data.integerVariables := fun h => by
      rw [(hint _).2 h] at hi; cases hi
    obtain ⟨col, v, -, h2, h3, h4, -⟩ := hcol n (·.lower) l hl hi'
    rw [← h2, h4]
    exact (hx.1 n v h3).1.1
  · intro n u hi hu
    have hi' : (n : Int) ∉ c.data.integerVariables := fun h => by
      rw [(hint _).2 h] at hi; cases hi
    obtain ⟨col, v, -, h2, h3, -, h4⟩ := hcol n (·.upper) u hu hi'
    rw [← h2, h4]
    exact (hx.1 n v h3).1.2

/-! ### The calls of the loop -/

/-- Glop lists the positions of non-zeros in increasing order. -/
def Engine.Sorted (e : Engine) : Prop := ∀ n s, (e.glop n s).2.2.2.Sorted

theorem Sound.setBounds {p : Problem} {lp₀ : LinearProgram} {w : World} (h : Sound p lp₀ w) {l : Lp}
    {j : Int} {lower upper : Dbl} (hs : w.lp.setColumnBounds j lower upper = .ok l) :
    Sound p lp₀ { w with lp := l } := by
  obtain ⟨-, -, h1⟩ := setColumnBounds_program hs
  refine ⟨?_, ?_, ?_, ?_⟩
  · show Extends lp₀ l.program
    rw [h1]; exact h.good.withBounds _ _ _
  · show Stored l.program
    rw [h1]; exact h.stored.withBounds _ _ _
  · show ValidRows p l.program
    rw [h1]
    intro x hx r row hr
    have := ((Extends.refl w.lp.program).withBounds j.toNat lower upper).activity
      (r := r) (List.getElem?_eq_some_iff.1 hr).1 x
    rw [this]
    exact h.valid x hx r row hr
  · intro s hl
    cases hw : w.lp with
    | glop s' => exact h.sorted s' hw
    | soplex g =>
      rw [hw] at hs
      simp only [Lp.setColumnBounds, Outcome.bind_eq_ok] at hs
      obtain ⟨g', -, hs⟩ := hs
      cases hs
      cases hl

theorem Sound.addRow {p : Problem} {lp₀ : LinearProgram} {w : World} (h : Sound p lp₀ w) {l : Lp}
    {cut : CutData} (hc : ValidCut p cut)
    (hs : w.lp.addRow { row := cut.row, lhs := .ninf, rhs := .fin cut.rhs, name := cut.name } = .ok l) :
    Sound p lp₀ { w with lp := l } ∧
      ∀ c : Nat, (l.program.cols[c]?.map fun x => (x.lower, x.upper)) =
        w.lp.program.cols[c]?.map fun x => (x.lower, x.upper) := by
  obtain ⟨name, h1⟩ := addRow_program hs
  obtain ⟨h2, -, h3⟩ := h.good.addRow _ _ h1
  obtain ⟨h4, h5, h6, h7⟩ := h.stored.addRow _ hc.1.1 h1
  refine ⟨⟨h2, h4, ?_, ?_⟩, h3⟩
  · intro x hx r row hr
    simp only [] at hr ⊢
    rw [h5] at hr
    rcases Nat.lt_trichotomy r w.lp.program.rows.length with hlt | rfl | hgt
    · rw [List.getElem?_append_left hlt] at hr
      rw [h6 r hlt]
      exact h.valid x hx r row hr
    · rw [List.getElem?_append_right le_rfl] at hr
      simp only [Nat.sub_self, List.getElem?_cons_zero, Option.some.injEq] at hr
      subst hr
      rw [h7]
      exact ⟨rfl, (Dbl.le_fin _ _).2 (hc.2 x hx)⟩
    · rw [List.getElem?_append_right hgt.le, List.getElem?_eq_none (by simp; omega)] at hr
      cases hr
  · intro s hl
    cases hw : w.lp with
    | glop s' => exact h.sorted s' hw
    | soplex g =>
      rw [hw] at hs
      simp only [Lp.addRow, Outcome.bind_eq_ok] at hs
      obtain ⟨g', -, hs⟩ := hs
      cases hs
      cases hl

theorem Sound.solve {e : Engine} (he : e.Sorted) {p : Problem} {lp₀ : LinearProgram} {w w' : World}
    (h : Sound p lp₀ w) (hs : w.solve e = .ok w') : Sound p lp₀ w' := by
  obtain ⟨h1, -, -, h2⟩ := solve_world hs
  refine ⟨by rw [h1]; exact h.good, by rw [h1]; exact h.stored, by rw [h1]; exact h.valid, ?_⟩
  intro s hl
  cases hw : w.lp with
  | glop s' =>
    rw [hw] at h2
    rw [h2.1]
    exact he _ _
  | soplex g =>
    unfold World.solve at hs
    rw [hw] at hs
    simp only [Outcome.bind_eq_ok] at hs
    obtain ⟨⟨g', ok⟩, -, hs⟩ := hs
    dsimp only at hs
    split at hs
    · cases hs; cases hl
    · cases hs

/-- The states of a run with cuts that are valid. -/
structure Cutting (p : Problem) (lp₀ : LinearProgram) (r : Runner World) : Prop where
  sound : Sound p lp₀ r.world
  cuts : ∀ cut ∈ r.registry.cuts, ValidCut p cut

/-- What the theorems about valid cuts ask of the problem and the LP code. -/
structure CutSetting (e : Engine) (p : Problem) (c : Setup.Created) : Prop where
  order : e.InOrder
  sorted : e.Sorted
  wellFormed : p.WellFormed
  nonneg : NonnegativeIntegers p
  sides : IntegralSides p
  data : ∃ hash, MipData.ofProblem hash p = .ok c.data

/-- What the theorems about valid cuts ask of the problem, the parameters and the LP code. -/
structure CutsValid (e : Engine) (p : Problem) (c : Setup.Created) : Prop extends CutSetting e p c where
  tol : c.integralityTolerance = 0

theorem makes {e : Engine} {p : Problem} {c : Setup.Created} (hv : CutsValid e p c) {lp₀ : LinearProgram}
    (h₀ : Refines lp₀ p.relaxation) {B : World → Prop} :
    Runner.Makes (plugins e c) (fun w => Sound p lp₀ w ∧ Fit c.data w.lp.program ∧ B w) (ValidCut p) where
  generators g hg w reg w' cuts hI h := by
    simp only [plugins, List.mem_map] at hg
    obtain ⟨gc, -, rfl⟩ := hg
    simp only [Outcome.bind_eq_ok] at h
    obtain ⟨l, hl, h⟩ := h
    cases h
    obtain ⟨_, hdata⟩ := hv.data
    exact generated_valid hv.order hv.wellFormed hv.nonneg hv.sides hdata h₀ hI.1 hI.2.1
      (harmless_zero hv.tol w) hl
  select w reg l w' cuts h hl := by
    simp only [plugins, Outcome.bind_eq_ok] at h
    obtain ⟨out, ho, h⟩ := h
    cases h
    intro cut hc
    obtain ⟨d, hd, x, rfl⟩ := HybridSelector.select_mem ho cut hc
    exact hl d hd
  index cut i h := h

theorem separate_cutting {e : Engine} {p : Problem} {c : Setup.Created} (hv : CutsValid e p c)
    {lp₀ : LinearProgram} (h₀ : Refines lp₀ p.relaxation) {A : World → Prop}
    (hA : ∀ w w' : World, Sound p lp₀ w → w.solve e = .ok w' → A w') {r r' : Runner World}
    (h : (oracle e c).separate r = .ok r') (hr : Cutting p lp₀ r) (hf : Fit c.data r.world.lp.program) :
    Cutting p lp₀ r' ∧ bounds r' = bounds r ∧ (A r.world → A r'.world) := by
  have key : ∀ A : World → Prop,
      (∀ w w' : World, Sound p lp₀ w → w.solve e = .ok w' → A w') → A r.world →
      (Sound p lp₀ r'.world ∧ Fit c.data r'.world.lp.program ∧ bounds r' = bounds r) ∧
        (∀ cut ∈ r'.registry.cuts, ValidCut p cut) ∧ A r'.world := by
    intro A hA ha
    simp only [oracle, separate] at h
    split at h
    · rename_i x hx
      rw [h] at hx
      refine Runner.separateFuel_cuts (readsOnly e c)
        (I := fun w => Sound p lp₀ w ∧ Fit c.data w.lp.program ∧ bounds { r' with world := w } = bounds r)
        (A := A) (makes hv h₀) ?_ ?_ _ r r' hx ⟨hr.sound, hf, rfl⟩ hr.cuts ha
      · rintro w cut w' ⟨h1, h2, h3⟩ hcut hw
        simp only [plugins, Outcome.bind_eq_ok] at hw
        obtain ⟨l, hl, hw⟩ := hw
        cases hw
        rw [readLhs_neg] at hl
        obtain ⟨g1, g2⟩ := h1.addRow hcut hl
        exact ⟨g1, h2.congr g2, (bounds_congr g2).trans h3⟩
      · rintro w w' ⟨h1, h2, h3⟩ hw
        have hw' : w.solve e = .ok w' := hw
        have hp := (solve_world hw').1
        refine ⟨⟨h1.solve hv.sorted hw', by rw [hp]; exact h2, (bounds_congr fun c => ?_).trans h3⟩,
          hA w w' h1 hw'⟩
        show w'.lp.program.cols[c]?.map _ = w.lp.program.cols[c]?.map _
        rw [hp]
    · cases h
  have k1 := key (fun _ => True) (fun _ _ _ _ => trivial) trivial
  exact ⟨⟨k1.1.1, k1.2.1⟩, k1.1.2.2, fun ha => (key A hA ha).2.2⟩

/-- The states in which the cut runner is allowed to run. -/
def Allowed (d : MipData) (r : Runner World) : Prop := Fit d r.world.lp.program

/-- The contract, with any property of the world that each solve establishes, if the cut runner keeps it. -/
theorem contract_keeping {e : Engine} (hsort : e.Sorted) {p : Problem} {c : Setup.Created}
    {lp₀ : LinearProgram} {A : World → Prop}
    (hA : ∀ w w' : World, Sound p lp₀ w → w.solve e = .ok w' → A w') {P : Runner World → Prop}
    (hP : ∀ r r', P r → (oracle e c).separate r = .ok r' → Cutting p lp₀ r →
      Cutting p lp₀ r' ∧ bounds r' = bounds r ∧ (A r.world → A r'.world)) :
    Contract (cautious (oracle e c) P) (Cutting p lp₀) bounds fun r => A r.world := by
  constructor
  · intro r j l u r' hg h
    have h : (oracle e c).setBounds r j l u = .ok r' := h
    obtain ⟨-, -, -, h2, h3⟩ := setBounds_spec h
    refine ⟨⟨?_, by rw [h3]; exact hg.cuts⟩, h2⟩
    simp only [oracle, Outcome.bind_eq_ok] at h
    obtain ⟨lp, h1, h4⟩ := h
    cases h4
    exact hg.sound.setBounds h1
  · intro r r' hg h
    have h : (oracle e c).solve r = .ok r' := h
    obtain ⟨h1, h2, h3, h4⟩ := solve_spec h
    exact ⟨⟨hg.sound.solve hsort h1, by rw [h4]; exact hg.cuts⟩, h3, hA _ _ hg.sound h1⟩
  · intro r r' hg ha _ h
    by_cases hf : P r
    · have h : (oracle e c).separate r = .ok r' := (if_pos hf).symm.trans h
      obtain ⟨h1, h2, h3⟩ := hP r r' hf h hg
      exact ⟨h1, h2, h3 ha⟩
    · have h : Outcome.ok r = .ok r' := (if_neg hf).symm.trans h
      cases h
      exact ⟨hg, rfl, ha⟩
  · intro r r' col up hg h
    have h : (oracle e c).branch r = .ok (r', col, up) := h
    obtain ⟨h1, h2⟩ := branch_spec h
    refine ⟨⟨⟨?_, ?_, ?_, ?_⟩, by rw [h2]; exact hg.cuts⟩, bounds_congr fun c => by rw [h1]⟩
    · rw [h1]; exact hg.sound.good
    · rw [h1]; exact hg.sound.stored
    · rw [h1]; exact hg.sound.valid
    · have hrep : r'.world.report = r.world.report := by
        simp only [oracle, Outcome.bind_eq_ok] at h
        obtain ⟨⟨w, col', up'⟩, h3, h4⟩ := h
        cases h4
        unfold branch at h3
        split at h3 <;> simp only [Outcome.bind_eq_ok] at h3 <;> obtain ⟨x, -, h3⟩ := h3 <;> cases h3 <;> rfl
      rw [h1, hrep]
      exact hg.sound.sorted

/-- The contract, with any property of the world that each solve establishes. -/
theorem contract_cutting {e : Engine} {p : Problem} {c : Setup.Created} (hv : CutsValid e p c)
    {lp₀ : LinearProgram} (h₀ : Refines lp₀ p.relaxation) {A : World → Prop}
    (hA : ∀ w w' : World, Sound p lp₀ w → w.solve e = .ok w' → A w') {P : Runner World → Prop}
    (hP : ∀ r, P r → Allowed c.data r) :
    Contract (cautious (oracle e c) P) (Cutting p lp₀) bounds fun r => A r.world :=
  contract_keeping hv.sorted hA fun r _ hr h hg => separate_cutting hv h₀ hA h hg (hP r hr)

theorem keeps_cutting {e : Engine} {p : Problem} {c : Setup.Created} (hv : CutsValid e p c)
    {lp₀ : LinearProgram} (h₀ : Refines lp₀ p.relaxation) :
    Solver.Keeps (cautious (oracle e c) (Allowed c.data)) c.data (Cutting p lp₀) := by
  have hc := contract_cutting hv h₀ (A := fun _ => True) (fun _ _ _ _ => trivial) (P := Allowed c.data)
    (fun _ h => h)
  exact ⟨fun w hg j _ l u w' h => (hc.setBounds w j l u w' hg h).1,
    fun w w' hg h => (hc.solve w w' hg h).1,
    fun w w' hg ho h => (hc.separate w w' hg trivial ho h).1,
    fun w w' col up hg h => (hc.branch w w' col up hg h).1⟩

/-! ### Optimality -/

/-- What a right answer of the LP code means for the user's problem. -/
theorem optimalAnswer_of {e : Engine} (he : e.Right) {p : Problem} (hp : p.WellFormed) (hB : Bounded p)
    {c : Setup.Created} (hd : c.data.Represents p) {lp₀ : LinearProgram} (h₀ : Refines lp₀ p.relaxation)
    (w w' : World) (hw : Sound p lp₀ w) (hs : w.solve e = .ok w') :
    OptimalAnswer (oracle e c) c.data bounds { world := w' } := by
  have hpr := (solve_world hs).1
  have hgood : Extends lp₀ w'.lp.program := by rw [hpr]; exact hw.good
  have hvalid : ValidRows p w'.lp.program := by rw [hpr]; exact hw.valid
  have hlen : w'.lp.program.cols.length = c.data.lower.length := by
    rw [hgood.numCols, h₀.numCols, hd.lower, List.length_map]; rfl
  have hval : ∀ y, w'.lp.program.value y = c.data.objective.eval y := by
    intro y
    rw [hgood.value, h₀.value, (relaxation_points p hp y).2]
    have := hd.objective y
    have ho := hd.offset
    split <;> rename_i hm <;> simp only [hm, if_true, if_false, Bool.false_eq_true] at this ho <;> linarith
  have hin : ∀ y, p.Feasible y → InBounds c.data bounds { world := w' } y → w'.lp.program.Feasible y := by
    intro y hy hb
    refine ⟨fun n col hcol => ?_, hvalid y hy⟩
    have hlt := (List.getElem?_eq_some_iff.mp hcol).1
    have := hb n (by rw [← hlen]; exact hlt)
    rw [bounds_nat] at this
    simp only [hcol] at this
    exact this
  have hsense : w'.lp.program.maximize = false := by
    rw [hgood.sense, h₀.sense]; rfl
  have hra := he.solve hs
  constructor
  · intro ho values hv
    obtain ⟨h1, h2, h3⟩ := hra.1 ho
    obtain ⟨-, h4, -⟩ := w'.lp.program.congr (primal_spec hv).2
    rw [← h4, hval] at h2
    refine ⟨h2, fun y hy hyb => ?_⟩
    have := h3 y (hin y (((C09_same_optima p c.data hd y).1).1 hy) hyb)
    rw [hsense, if_neg (by simp), ← h4, hval, hval] at this
    exact this
  · intro ho hsub y hy hyb
    have ho' : ¬ w'.lp.isOptimal = true := by rw [Bool.not_eq_true]; exact ho
    have hyf := ((C09_same_optima p c.data hd y).1).1 hy
    rcases hra.2 ho' with h1 | h1
    · exact h1 y (hin y hyf hyb)
    · obtain ⟨B, hB⟩ := hB
      have hrel : ∀ z, w'.lp.program.Feasible z → p.RelaxedFeasible z := by
        intro z hz
        have hzb : InBounds c.data bounds { world := w' } z := inBounds_of hlen hz.1
        have hzr := hsub z hzb
        refine ⟨fun n v hv => hzr n v.lower v.upper (by rw [hd.lower]; simp [hv])
          (by rw [hd.upper]; simp [hv]), fun k hk => ?_⟩
        obtain ⟨i, hi⟩ := List.getElem?_of_mem hk
        have hlt : i < p.relaxation.numRows := (List.getElem?_eq_some_iff.mp hi).1
        have hlt' : i < lp₀.rows.length := by rw [h₀.numRows]; exact hlt
        have h3 := h₀.rows i _ (List.getElem?_eq_getElem hlt')
        have h4 := hgood.holds hz (List.getElem?_eq_getElem hlt')
        rw [h3.1, h3.2, h₀.activity hlt, relaxation_activity hp hi] at h4
        simpa [Problem.relaxation, hi] using h4
      cases hm : p.isMaximization with
      | false =>
        obtain ⟨z, hz, hlt⟩ := h1 (B - p.offset)
        have hb := hB z (hrel z hz)
        rw [hsense, hgood.value, h₀.value, (relaxation_points p hp z).2] at hlt
        simp only [hm, Bool.false_eq_true, if_false] at hb hlt
        linarith
      | true =>
        obtain ⟨z, hz, hlt⟩ := h1 (-(B - p.offset))
        have hb := hB z (hrel z hz)
        rw [hsense, hgood.value, h₀.value, (relaxation_points p hp z).2] at hlt
        simp only [hm, Bool.false_eq_true, if_false, if_true] at hb hlt
        linarith

theorem contract_congr {W : Type} {o : Oracle W} {Good A A' : W → Prop} {bounds : W → Int → Dbl × Dbl}
    (h : Contract o Good bounds A) (hA : ∀ w, Good w → (A w ↔ A' w)) : Contract o Good bounds A' where
  setBounds := h.setBounds
  solve w w' hg hs := by
    obtain ⟨h1, h2, h3⟩ := h.solve w w' hg hs
    exact ⟨h1, h2, (hA w' h1).1 h3⟩
  separate w w' hg ha ho hs := by
    obtain ⟨h1, h2, h3⟩ := h.separate w w' hg ((hA w hg).2 ha) ho hs
    exact ⟨h1, h2, (hA w' h1).1 h3⟩
  branch := h.branch

/-- **C75 with cuts, what holds.**  For every well-formed problem with an objective bounded on the
relaxation whose integer variables have non-negative lower bounds and whose constraints have integral
sides, both LP interfaces, every branching rule, and all cut parameters, with integrality tolerance 0:
if the LP code answers rightly and hands out rows in order, and `Solve` returns OK, then for every feasible
point of the user's problem there is a recorded solution and the best one is at least as good; if it
returns an error, there is no feasible point.

Missing for C75: negative integer variables, for which cuts found at a node may cut off feasible points
elsewhere (`C33_local_bounds_violated`); fractional sides (`C29_C30_fractional_side_violated`); positive
tolerances; and a status that tells "optimal" from "infeasible" (C36). -/
theorem C75_with_cuts_partial {e : Engine} (he : e.Right) (ho : e.InOrder) (hsort : e.Sorted)
    {x : Setup.External} {p : Problem} (hp : p.WellFormed) (hB : Bounded p) (hn : NonnegativeIntegers p)
    (hs : IntegralSides p) {user : Setup.ParamsMsg} (htol : user.integralityTolerance = some 0)
    {c : Setup.Created} (h : Setup.create x p user = .ok c) (fuel : Nat) :
    (∀ s, solve e c fuel = some (.ok s) → ∀ y, p.Feasible y →
      s.result.best ≠ {} ∧
      if p.isMaximization then p.userObjective y ≤ p.userObjective (point s.result.best.values)
      else p.userObjective (point s.result.best.values) ≤ p.userObjective y) ∧
    ∀ m, solve e c fuel = some (.error m) → ∀ y, ¬ p.Feasible y := by
  obtain ⟨hd, h₀⟩ := created_refines hp h
  obtain ⟨-, hdata, -, -, -, h6, -⟩ := Setup.create_ok h
  rw [htol] at h6
  have hv : CutsValid e p c := ⟨⟨ho, hsort, hp, hn, hs, _, hdata⟩, h6⟩
  have hg : Cutting p (start c.lpi).program { world := { lp := start c.lpi } } := by
    refine ⟨⟨Extends.refl _, h₀.stored, ?_, fun _ _ k => List.Pairwise.nil⟩, by simp⟩
    intro y hy r row hr
    have hlt : r < p.relaxation.numRows := by
      rw [← h₀.numRows]; exact (List.getElem?_eq_some_iff.mp hr).1
    have hk : p.constraints[r]? = some p.constraints[r] := List.getElem?_eq_getElem hlt
    obtain ⟨h1, h2⟩ := h₀.rows r row hr
    show Between row.lhs ((start c.lpi).program.activity r y) row.rhs
    rw [h1, h2, h₀.activity hlt, relaxation_activity hp hk]
    simpa [Problem.relaxation, hk] using hy.2 _ (List.mem_of_getElem? hk)
  have hshape : Solver.PrimalShape (guard (cautious (oracle e c) (Allowed c.data))
      (Cutting p (start c.lpi).program)) p.vars.length := by
    intro r values hv'
    by_cases hr : Cutting p (start c.lpi).program r
    · have h' : r.world.primal = .ok values := (if_pos hr).symm.trans hv'
      rw [(primal_spec h').1, hr.sound.good.numCols, h₀.numCols]; rfl
    · have h' := (if_neg hr).symm.trans hv'
      cases h'
  have hlen : p.vars.length = c.data.lower.length := by rw [hd.lower]; simp
  have hcon : Contract (guard (cautious (oracle e c) (Allowed c.data)) (Cutting p (start c.lpi).program))
      (Cutting p (start c.lpi).program) bounds
      (OptimalAnswer (guard (cautious (oracle e c) (Allowed c.data)) (Cutting p (start c.lpi).program))
        c.data bounds) := by
    refine contract_congr (contract_cutting hv h₀
      (A := fun w => OptimalAnswer (oracle e c) c.data bounds { world := w })
      (optimalAnswer_of he hp hB hd h₀) (P := Allowed c.data) (fun _ h => h)).guard ?_
    intro r hr
    have h1 : (guard (cautious (oracle e c) (Allowed c.data)) (Cutting p (start c.lpi).program)).isOptimal r =
        r.world.lp.isOptimal := if_pos hr
    have h2 : (guard (cautious (oracle e c) (Allowed c.data)) (Cutting p (start c.lpi).program)).primal r =
        r.world.primal := if_pos hr
    unfold OptimalAnswer
    rw [h1, h2]
    exact Iff.rfl
  have hrun := (Solver.cautious_runs (prm := params c) (Solver.dataOk_of_represents hd)
    (contract_cutting hv h₀ (A := fun w => w.lp.isOptimal = true → w.lp.program.Feasible w.report.point)
      (fun w w' _ hw ho => he.feasible.solve hw ho) (P := Allowed c.data) (fun _ h => h))
    (keeps_cutting hv h₀) (by rw [← hlen]; exact hshape)
    (fun r hr hb ha hopt => fit_of hn hd h₀ hr.sound.good hb (ha hopt)) hg (startsAt hd h₀)).1 fuel
  have := Solver.C36_optimal_partial (prm := params c) hd hshape hcon hg (startsAt hd h₀) (fuel := fuel)
  rwa [hrun] at this

/-- The hypotheses of C75 with cuts are met together, with the default parameters of the cut runner. -/
example : perfect.Right ∧ perfect.InOrder ∧ perfect.Sorted ∧ exProblem.WellFormed ∧ Bounded exProblem ∧
    NonnegativeIntegers exProblem ∧ IntegralSides exProblem ∧ (∃ y, exProblem.Feasible y) ∧
    ∀ x, ∃ c, Setup.create x exProblem { integralityTolerance := some 0 } = .ok c := by
  obtain ⟨h1, -, h3, h4⟩ := exProblem_spec
  refine ⟨perfect_spec.1, fun _ _ => rfl, fun _ _ _ => List.Pairwise.nil, h1, h3, ?_, ?_, h4, fun x => ?_⟩
  · intro v hv hi
    simp [exProblem] at hv
    rcases hv with rfl | rfl <;> norm_num [Dbl.le]
  · intro k hk q hq
    simp [exProblem] at hk
    subst hk
    simp at hq
    exact ⟨7, by rw [← hq]; norm_num⟩
  · exact (Setup.C73_glop_partial x exProblem h1 _ _ (Setup.lpWins _) rfl).1
      (by refine ⟨⟨?_, ?_, ?_, ?_, ?_, ?_, ?_, ?_⟩, rfl, ?_, ?_, rfl, rfl⟩ <;>
        simp [Setup.LpMsg.read, ToleranceOk])

end Program
end MiniMip
