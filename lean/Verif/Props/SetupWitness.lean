import Verif.Props.Setup

/-!
# `Create` on problems the validation should reject
-/

namespace MiniMip
namespace Setup

/-- A problem with an integer variable whose lower bound is NaN. -/
def nanProblem : Problem := { vars := [{ name := "x", lower := .nan, isInteger := true }] }

/-- A problem with one variable and a constraint on "variable 1". -/
def strayProblem : Problem :=
  { vars := [{ name := "x" }], constraints := [{ name := "c", varIndices := [1], coefficients := [1] }] }

/-- **C73 fails** for problems that the validation accepts though it should not (C08).  Whatever the
parameters: an integer variable whose lower bound is NaN ends the process (mip_data.cc:62). -/
theorem C73_nan_bound_violated : ¬ nanProblem.WellFormed ∧ nanProblem.NoIndexAtEnd ∧
    ∀ e user, create e nanProblem user = .abort := by
  have hf : nanProblem.findError = "" := by rw [Problem.findError_iff]; simp [nanProblem, Dbl.lt]
  have hd : ∀ o, MipData.ofProblem o nanProblem = .abort := fun _ => rfl
  refine ⟨by simp [nanProblem, Problem.WellFormed, Variable.WellFormed, Ordered, Dbl.le], by simp [nanProblem, Problem.NoIndexAtEnd],
    fun e user => ?_⟩
  unfold create
  simp [hf, hd]

/-- **C73 fails** likewise for a constraint on the variable one past the last: with every LP solver that can be
created, loading the relaxation accesses the columns of the matrix out of range. -/
theorem C73_index_at_end_violated : ¬ strayProblem.WellFormed ∧ strayProblem.NoNaN ∧
    ∀ e user, (∃ l, createLpSolver e (user.lp.getD {}).read = .ok l) → create e strayProblem user = .ub := by
  have hf : strayProblem.findError = "" := by rw [Problem.findError_iff]; simp [strayProblem, Dbl.lt]
  refine ⟨by simp [strayProblem, Problem.WellFormed, Constraint.WellFormed], by simp [strayProblem, Problem.NoNaN],
    fun e user ⟨l, hl⟩ => ?_⟩
  have hd : ∃ d, MipData.ofProblem e.order strayProblem = .ok d ∧ d.matrix.col 0 = .ub ∧ d.lhs = [.ninf] ∧ d.rhs = [.pinf] ∧
      d.constraintNames = ["c"] ∧ d.matrix.numCols = 1 ∧ d.lower.length = 1 ∧ d.objective.entries = [] :=
    ⟨_, rfl, rfl, rfl, rfl, rfl, rfl, rfl, rfl⟩
  obtain ⟨d, hd, h1, h2, h3, h4, h5, h6, h7⟩ := hd
  have hp : l.populate d = .ub := by
    have hi := (createLp_reports hl).2
    cases l with
    | glop s g =>
      simp [Lpi.populate, Glop.populateFromMipData, h2, h3, h4, h5, Glop.populateRows, Glop.populateColumns, h1,
        MipData.item, Glop.addRow, Glop.setRow]
    | soplex g =>
      have hi : Soplex.freed g = true := hi
      have hi' : ∀ b lp, Soplex.freed { g with isSolved := b, lp := lp } = true := fun _ _ => hi
      simp [Lpi.populate, Soplex.populateFromMipData, h2, h3, h5, h6, h7, Soplex.emptyRows, Soplex.readColumns, h1,
        MipData.item, Soplex.clear, hi, hi', Outcome.check, Soplex.addRowsReal, Soplex.addRowReal, Glop.setRow,
        Soplex.objectiveVector]
  unfold create
  simp [hf, hd, createRunner_ok, createRule_ok, effectiveLp, hl, hp, Outcome.orAbort]

/-- The LP solver can be created, for instance with the default parameters. -/
example (e : External) : ∃ l, createLpSolver e ((({} : ParamsMsg).lp).getD {}).read = .ok l := ⟨_, rfl⟩

end Setup
end MiniMip
