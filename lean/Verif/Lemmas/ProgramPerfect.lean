import Verif.Lemmas.BasicSolution
import Verif.Props.BasisInverse
import Verif.Props.HybridSelector
import Verif.Props.Program
import Verif.Props.SoplexBasis

/-!
# LP code that solves every LP

By the fundamental theorem of linear programming there is LP code that answers rightly, and after an optimal
solution has a basis and the inverse of its matrix.  (The conditions on the LP code in C74 to C83 can be met.)
-/

namespace MiniMip
namespace Program

open Glop (LinearProgram ColOrRow)

/-! ## Bases -/

/-- The variables in the basis of Glop: the columns have the first numbers, the rows the next. -/
def glopElement (lp : LinearProgram) (k : Int) : ColOrRow :=
  if k < lp.cols.length then .col k else .row (k - lp.cols.length)

/-- The variables in the basis of SoPlex: the columns have their own number, row `r` has `-r - 1`. -/
def soplexElement (k : Int) : ColOrRow := if k < 0 then .row (-k - 1) else .col k

/-- Glop holds a basis of the LP whose basic solution is the reported one, and the inverse of its matrix. -/
structure Report.GlopBasic (lp : LinearProgram) (r : Report) : Prop where
  basic : lp.IsBasic r.point (r.basis.map (glopElement lp)) fun k i => (r.glopInverse k).values.getD i 0
  shape : ∀ k < lp.rows.length, Glop.ScatteredOk lp.rows.length (r.glopInverse k)

/-- SoPlex holds a basis of the LP whose basic solution is the reported one, and the inverse of its matrix. -/
structure Report.SoplexBasic (lp : LinearProgram) (r : Report) : Prop where
  basic : lp.IsBasic r.point (r.basis.map soplexElement)
    fun k i => (((r.soplexInverse k).map (·.dense)).getD []).getD i 0
  shape : ∀ k < lp.rows.length, ∃ a, r.soplexInverse k = some a ∧ Soplex.RowOk lp.rows.length a
  activities : r.activities.isSome = true

/-- After a solve that ends with an optimal solution, Glop holds a basis for it. -/
def Engine.GlopBasic (e : Engine) : Prop :=
  ∀ n s, (e.glop n s).2.1 = .optimal → (e.glop n s).2.2.2.GlopBasic s.iface.lp

/-- After a solve that ends with an optimal solution, SoPlex holds a basis for it. -/
def Engine.SoplexBasic (e : Engine) : Prop :=
  ∀ n g, (e.soplex n g).2.1.status = .optimal → (e.soplex n g).2.2.SoplexBasic g.lp

/-! ## The solver -/

/-- The point is optimal. -/
def IsBest (lp : LinearProgram) (x : Nat → ℚ) : Prop :=
  lp.Feasible (fun j => x j.toNat) ∧ ∀ y, lp.Feasible y →
    if lp.maximize then lp.value y ≤ lp.value (fun j => x j.toNat)
    else lp.value (fun j => x j.toNat) ≤ lp.value y

/-- An optimal solution with its basis and the inverse of the matrix of that. -/
structure Best where
  x : Nat → ℚ
  basis : List ColOrRow
  inv : Nat → Nat → ℚ

open Classical in
/-- The optimum of an LP, if there is one. -/
noncomputable def bestPoint (lp : LinearProgram) : Option Best :=
  if h : ∃ b : Best, IsBest lp b.x ∧ lp.IsBasic (fun j => b.x j.toNat) b.basis b.inv
  then some h.choose else none

theorem bestPoint_some {lp : LinearProgram} {b : Best} (h : bestPoint lp = some b) :
    IsBest lp b.x ∧ lp.IsBasic (fun j => b.x j.toNat) b.basis b.inv := by
  unfold bestPoint at h
  split at h
  · next hb => cases h; exact hb.choose_spec
  · cases h

theorem bestPoint_none {lp : LinearProgram} (h : bestPoint lp = none) : ¬ ∃ x, IsBest lp x := by
  rintro ⟨x, h1, h2⟩
  obtain ⟨x', basis, inv, h3, h4, h5⟩ := lp.exists_basic h1 h2
  have : ∃ b : Best, IsBest lp b.x ∧ lp.IsBasic (fun j => b.x j.toNat) b.basis b.inv :=
    ⟨⟨x', basis, inv⟩, ⟨h3, fun y hy => by rw [h4]; exact h2 y hy⟩, h5⟩
  unfold bestPoint at h
  rw [dif_pos this] at h
  cases h

/-- The number of a basic variable in Glop. -/
def glopNumber (lp : LinearProgram) : ColOrRow → Int
  | .col c => c
  | .row r => r + lp.cols.length

/-- The number of a basic variable in SoPlex. -/
def soplexNumber : ColOrRow → Int
  | .col c => c
  | .row r => -r - 1

/-- What a perfect solver reports. -/
noncomputable def perfectReport (lp : LinearProgram) (number : ColOrRow → Int) : Report where
  objective := .fin (lp.value fun j => (((bestPoint lp).map (·.x)).getD fun _ => 0) j.toNat)
  primal := (bestPoint lp).map (·.x)
  activities := (bestPoint lp).map fun b => fun r => lp.activity r fun j => b.x j.toNat
  basis := ((bestPoint lp).map (·.basis.map number)).getD []
  glopInverse k := ⟨(List.range lp.rows.length).map ((((bestPoint lp).map (·.inv)).getD fun _ _ => 0) k), []⟩
  soplexInverse k := some
    ⟨(List.range lp.rows.length).map ((((bestPoint lp).map (·.inv)).getD fun _ _ => 0) k), [], -1⟩

theorem perfect_right (lp : LinearProgram) (number : ColOrRow → Int) :
    RightAnswer lp ((bestPoint lp).isSome = true) (perfectReport lp number) := by
  unfold RightAnswer perfectReport Report.point
  cases hb : bestPoint lp with
  | some b =>
    obtain ⟨⟨h1, h2⟩, -⟩ := bestPoint_some hb
    exact ⟨fun _ => ⟨h1, rfl, h2⟩, fun hn => by simp at hn⟩
  | none =>
    have hb := bestPoint_none hb
    refine ⟨fun hn => by simp at hn, fun _ => ?_⟩
    rcases lp.fundamental with h1 | h1 | ⟨x, h1⟩
    · exact Or.inl h1
    · exact Or.inr h1
    · exact absurd ⟨x, h1⟩ hb

/-- LP code that solves every LP. -/
noncomputable def perfect : Engine where
  glop _ s := (fun _ => ⟨true, false, true, false, 0, []⟩,
    if (bestPoint s.iface.lp).isSome then .optimal else .infeasibleOrUnbounded, false,
    perfectReport s.iface.lp (glopNumber s.iface.lp))
  soplex _ g := (false, ⟨false, if (bestPoint g.lp).isSome then .optimal else .infeasible, .regular, 0, 0,
    [], []⟩, perfectReport g.lp soplexNumber)
  accepts := ⟨fun _ _ => true, fun _ _ => true⟩
  epsilonZero := 0
  soplexInfinity := 10 ^ 100
  order := id
  sorter := HybridSelector.exSorter
  unset := -1
  draw := fun n => n

theorem perfect_spec : perfect.Right ∧ perfect.GlopReturns := by
  refine ⟨⟨fun n s => ?_, fun n g => ?_⟩, fun _ _ _ => rfl⟩
  · have := perfect_right s.iface.lp (glopNumber s.iface.lp)
    simp only [perfect]
    rw [show ((if (bestPoint s.iface.lp).isSome = true then Glop.ProblemStatus.optimal
      else .infeasibleOrUnbounded) = .optimal) = ((bestPoint s.iface.lp).isSome = true) by
        apply propext; split <;> simp [*]]
    exact this
  · have := perfect_right g.lp soplexNumber
    simp only [perfect]
    rw [show ((if (bestPoint g.lp).isSome = true then Soplex.Status.optimal
      else .infeasible) = .optimal) = ((bestPoint g.lp).isSome = true) by
        apply propext; split <;> simp [*]]
    exact this

theorem IsBasic_congr {lp : LinearProgram} {x : Int → ℚ} {basis basis' : List ColOrRow}
    {inv inv' : Nat → Nat → ℚ} (h : lp.IsBasic x basis inv) (hb : basis' = basis)
    (hi : ∀ k i, i < lp.rows.length → inv' k i = inv k i) : lp.IsBasic x basis' inv' := by
  subst hb
  refine ⟨h.length, h.holds, h.cols, h.rows, fun k hk j b hj => ?_⟩
  rw [← h.inverse k hk j b hj]
  exact Finset.sum_congr rfl fun i hi' => by rw [hi k i (Finset.mem_range.1 hi')]

theorem map_number {lp : LinearProgram} {basis : List ColOrRow} (h : ∀ b ∈ basis, lp.Holds b) :
    (basis.map (glopNumber lp)).map (glopElement lp) = basis ∧
    (basis.map soplexNumber).map soplexElement = basis := by
  rw [List.map_map, List.map_map]
  constructor <;> refine (List.map_congr_left fun b hb => ?_).trans (List.map_id _)
  · cases b with
    | col c =>
      have := h _ hb
      simp only [LinearProgram.Holds] at this
      simp [glopElement, glopNumber, this.2]
    | row r =>
      have := h _ hb
      simp only [LinearProgram.Holds] at this
      have hn : ¬ r + (lp.cols.length : Int) < lp.cols.length := by omega
      simp [glopElement, glopNumber, this.1]
  · cases b with
    | col c =>
      have := h _ hb
      simp only [LinearProgram.Holds] at this
      have hn : ¬ c < 0 := by omega
      simp [soplexElement, soplexNumber, hn]
    | row r =>
      have := h _ hb
      simp only [LinearProgram.Holds] at this
      have hn : -r - 1 < 0 := by omega
      simp [soplexElement, soplexNumber, hn]

theorem perfect_basic : perfect.GlopBasic ∧ perfect.SoplexBasic := by
  constructor
  · intro n s h
    have hs : (bestPoint s.iface.lp).isSome = true := by
      simp only [perfect] at h
      split at h
      · assumption
      · cases h
    obtain ⟨b, hb⟩ := Option.isSome_iff_exists.1 hs
    obtain ⟨-, h2⟩ := bestPoint_some hb
    constructor
    · simp only [perfect, perfectReport, hb, Option.map_some, Option.getD_some]
      refine IsBasic_congr h2 (map_number h2.holds).1 fun k i hi => ?_
      simp [List.getD, hi]
    · intro k hk
      exact ⟨by simp [perfect, perfectReport], Or.inl rfl⟩
  · intro n g h
    have hs : (bestPoint g.lp).isSome = true := by
      simp only [perfect] at h
      split at h
      · assumption
      · cases h
    obtain ⟨b, hb⟩ := Option.isSome_iff_exists.1 hs
    obtain ⟨-, h2⟩ := bestPoint_some hb
    constructor
    · simp only [perfect, perfectReport, hb, Option.map_some, Option.getD_some]
      refine IsBasic_congr h2 (map_number h2.holds).2 fun k i hi => ?_
      simp [List.getD, hi]
    · intro k hk
      refine ⟨_, rfl, ?_⟩
      constructor <;> simp
    · simp [perfect, perfectReport, hb]

end Program
end MiniMip
