import Verif.Props.ProgramTotal

/-!
# Property C58: the user's branching direction in the running program
-/

namespace MiniMip
namespace Program

/-- **C58**: with the direction the user asked for (UP or DOWN), the branching rule of the solver `Create` made goes in
that direction first, whichever rule it is, whatever the LP solver, the random numbers and the state of the search. -/
theorem C58_direction (x : Setup.External) (p : Problem) (hp : p.WellFormed) (user : Setup.ParamsMsg) (c : Setup.Created)
    (h : Setup.create x p user = .ok c) (e : Engine) (w w' : World) (col : Int) (up : Bool)
    (hb : branch e c w = .ok (w', col, up)) :
    (user.branching.bind (·.direction) = some .up → up = true) ∧
    (user.branching.bind (·.direction) = some .down → up = false) := by
  obtain ⟨-, -, -, -, -, -, -, ⟨dir, hw, h1, h2⟩, -⟩ := Setup.C58_user_wins_partial x p hp user c h
  have hrule : (∃ s, c.rule = .random s dir) ∨ c.rule = .maxFractional dir := by
    match hr : user.branching.bind (·.rule) with
    | some (.random s) => obtain ⟨t, -, ht⟩ := h1 s hr; exact .inl ⟨t, ht⟩
    | some .maxFractional => exact .inr (h2 (.inl hr))
    | none => exact .inr (h2 (.inr hr))
  have key : (dir = .up → up = true) ∧ (dir = .down → up = false) := by
    unfold branch at hb
    rcases hrule with ⟨s, hr⟩ | hr <;> rw [hr] at hb
    · obtain ⟨⟨i, b⟩, hr, hb⟩ := Outcome.bind_eq_ok.mp hb
      simp only [Outcome.pure_eq, Outcome.ok.injEq, Prod.mk.injEq] at hb
      obtain ⟨-, -, rfl⟩ := hb
      unfold Branching.random at hr
      split at hr
      · simp only [Outcome.ok.injEq, Prod.mk.injEq] at hr
        refine ⟨?_, ?_⟩ <;> rintro rfl <;> simp [← hr.2, direction]
      · cases hr
    · obtain ⟨⟨i, b⟩, hr, hb⟩ := Outcome.bind_eq_ok.mp hb
      simp only [Outcome.pure_eq, Outcome.ok.injEq, Prod.mk.injEq] at hb
      obtain ⟨-, -, rfl⟩ := hb
      unfold Branching.maxFractional at hr
      split at hr
      · split at hr
        · obtain ⟨⟨a, b⟩, -, hr⟩ := Outcome.bind_eq_ok.mp hr
          simp only [Outcome.pure_eq, Outcome.ok.injEq, Prod.mk.injEq] at hr
          refine ⟨?_, ?_⟩ <;> rintro rfl <;> simp [← hr.2, direction]
        · cases hr
        · cases hr
      · cases hr
  refine ⟨fun hu => ?_, fun hu => ?_⟩
  · exact key.1 (hw.1 _ hu)
  · exact key.2 (hw.1 _ hu)

/-- A user who asks for random branching, upwards. -/
def upUser : Setup.ParamsMsg := { branching := some { rule := some (.random none), direction := some .up } }

/-- The solver is created, and its rule returns a variable. -/
example (x : Setup.External) (e : Engine) (w : World) : ∃ c, Setup.create x exProblem upUser = .ok c ∧
    ∃ w' col, branch e c w = .ok (w', col, true) := by
  obtain ⟨h1, -⟩ := exProblem_spec
  obtain ⟨c, hc⟩ := (Setup.C73_glop_partial x exProblem h1 upUser _ (Setup.lpWins _) rfl).1
    (by refine ⟨⟨?_, ?_, ?_, ?_, ?_, ?_, ?_, ?_⟩, rfl, ?_, ?_, rfl, rfl⟩ <;>
      simp [upUser, Setup.LpMsg.read, ToleranceOk])
  obtain ⟨-, -, -, -, -, -, -, ⟨dir, hw, hrule, -⟩, -⟩ := Setup.C58_user_wins_partial x exProblem h1 upUser c hc
  obtain ⟨seed, -, hs⟩ := hrule _ rfl
  have hd := hw.1 _ rfl
  subst hd
  have hi : c.data.integerVariables ≠ [] := by
    have := ((Setup.C73_created id (fun _ => .refl _) x exProblem h1 upUser c hc).1.integers 0).mpr
      ⟨0, exProblem.vars.head (by simp [exProblem]), rfl, rfl, rfl⟩
    exact List.ne_nil_of_mem this
  have hpos := List.length_pos_iff.mpr hi
  exact ⟨c, hc, _, _, by rw [branch, hs]; simp [Branching.random, hpos, direction]; exact ⟨rfl, rfl⟩⟩

end Program
end MiniMip
