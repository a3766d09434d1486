import Verif.Props.SolverEnds

/-!
# Restricting an oracle to the states that occur

Theorems about the loop ask some conditions for all states of the oracle.  An oracle whose calls
preserve a property can be replaced by one that answers trivially elsewhere, without changing any run.
-/

namespace MiniMip
namespace Solver

variable {W : Type}

open Classical in
/-- The oracle on the states in `Good`, trivial answers elsewhere. -/
noncomputable def guard (o : Oracle W) (Good : W → Prop) : Oracle W where
  setBounds w j l u := if Good w then o.setBounds w j l u else .ok w
  solve w := if Good w then o.solve w else .ok w
  isOptimal w := if Good w then o.isOptimal w else false
  separate w := if Good w then o.separate w else .ok w
  objective := o.objective
  primal w := if Good w then o.primal w else .error ""
  branch w := if Good w then o.branch w else .ok (w, 0, false)

/-- The calls of the oracle that return lead from good states to good states. -/
structure Keeps (o : Oracle W) (d : MipData) (Good : W → Prop) : Prop where
  setBounds : ∀ w, Good w → ∀ j ∈ d.integerVariables, ∀ l u w', o.setBounds w j l u = .ok w' → Good w'
  solve : ∀ w w', Good w → o.solve w = .ok w' → Good w'
  separate : ∀ w w', Good w → o.isOptimal w = true → o.separate w = .ok w' → Good w'
  branch : ∀ w w' c up, Good w → o.branch w = .ok (w', c, up) → Good w'

variable {o : Oracle W} {d : MipData} {Good : W → Prop}

theorem guard_applyBounds (h : Keeps o d Good) (lb ub : List Dbl) :
    ∀ (l : List Int), (∀ j ∈ l, j ∈ d.integerVariables) → ∀ w, Good w →
    applyBounds (guard o Good) lb ub w l = applyBounds o lb ub w l ∧
      ∀ w', applyBounds o lb ub w l = .ok w' → Good w' := by
  intro l
  induction l with
  | nil => intro _ w hw; exact ⟨rfl, fun w' hw' => (Outcome.ok.inj hw') ▸ hw⟩
  | cons j r ih =>
    intro hl w hw
    have hset : ∀ a b, (guard o Good).setBounds w j a b = o.setBounds w j a b := fun a b => if_pos hw
    have ih' := ih (fun k hk => hl k (by simp [hk]))
    constructor
    · unfold applyBounds
      cases vecGet lb j with
      | ok a =>
        cases vecGet ub j with
        | ok b =>
          simp only [Outcome.bind_ok, hset]
          cases hs : o.setBounds w j a b with
          | ok w1 =>
            simp only [Outcome.orAbort, Outcome.bind_ok]
            exact (ih' w1 (h.setBounds w hw j (hl j (by simp)) a b w1 hs)).1
          | _ => rfl
        | _ => rfl
      | _ => rfl
    · intro w' hw'
      unfold applyBounds at hw'
      simp only [Outcome.bind_eq_ok, orAbort_eq_ok] at hw'
      obtain ⟨a, -, b, -, w1, hs, hw'⟩ := hw'
      exact (ih' w1 (h.setBounds w hw j (hl j (by simp)) a b w1 hs)).2 w' hw'

theorem guard_solveNode (h : Keeps o d Good) (lb ub : List Dbl) {w : W} (hw : Good w) :
    solveNode (guard o Good) d lb ub w = solveNode o d lb ub w ∧
      ∀ w', solveNode o d lb ub w = .ok w' → Good w' := by
  obtain ⟨h1, h2⟩ := guard_applyBounds h lb ub d.integerVariables (fun _ h => h) w hw
  constructor
  · unfold solveNode
    rw [h1]
    cases hb : applyBounds o lb ub w d.integerVariables with
    | ok w1 =>
      have g1 := h2 w1 hb
      simp only [Outcome.bind_ok, show (guard o Good).solve w1 = o.solve w1 from if_pos g1]
      cases hs : o.solve w1 with
      | ok w2 =>
        have g2 := h.solve w1 w2 g1 hs
        simp only [Outcome.orAbort, Outcome.bind_ok,
          show (guard o Good).isOptimal w2 = o.isOptimal w2 from if_pos g2,
          show (guard o Good).separate w2 = o.separate w2 from if_pos g2]
      | _ => rfl
    | _ => rfl
  · intro w' hw'
    unfold solveNode at hw'
    simp only [Outcome.bind_eq_ok, orAbort_eq_ok] at hw'
    obtain ⟨w1, hb, w2, hs, hw'⟩ := hw'
    have g2 := h.solve w1 w2 (h2 w1 hb) hs
    split at hw'
    · rename_i ho
      rw [orAbort_eq_ok] at hw'
      exact h.separate w2 w' g2 ho hw'
    · exact Outcome.ok.inj hw' ▸ g2

theorem guard_iterate (h : Keeps o d Good) (prm : Params) {s : State W} (hw : Good s.world) :
    iterate (guard o Good) d prm s = iterate o d prm s ∧
      (∀ s', iterate o d prm s = .ok (.again s') → Good s'.world) ∧
      (∀ s', iterate o d prm s = .ok (.stop s') → Good s'.world) := by
  unfold iterate
  split
  · refine ⟨rfl, fun s' hs' => (by cases hs'), fun s' hs' => ?_⟩
    cases hs'
    exact hw
  · rename_i node queue _
    cases s.tree.retrieveLower node d.lower with
    | ok lb =>
      cases s.tree.retrieveUpper node d.upper with
      | ok ub =>
        obtain ⟨h1, h2⟩ := guard_solveNode h lb ub hw
        simp only [Outcome.bind_ok, h1]
        cases hn : solveNode o d lb ub s.world with
        | ok w =>
          have gw := h2 w hn
          simp only [Outcome.bind_ok,
            show (guard o Good).isOptimal w = o.isOptimal w from if_pos gw]
          split
          · have e : optimalNode (guard o Good) d prm s node queue w = optimalNode o d prm s node queue w := by
              unfold optimalNode branchNode
              simp only [show (guard o Good).primal w = o.primal w from if_pos gw,
                show (guard o Good).branch w = o.branch w from if_pos gw,
                show (guard o Good).objective w = o.objective w from rfl]
            have key : ∀ res, optimalNode o d prm s node queue w = .ok res →
                (∀ s', res = .again s' → Good s'.world) ∧ (∀ s', res = .stop s' → Good s'.world) := by
              intro res hres
              unfold optimalNode at hres
              simp only [Outcome.bind_eq_ok] at hres
              obtain ⟨tree, -, values, -, b, -, hres⟩ := hres
              split at hres
              · split at hres
                · cases hres
                  exact ⟨fun s' hs' => (by cases hs'), fun s' hs' => (by cases hs'; exact gw)⟩
                · cases hres
                  exact ⟨fun s' hs' => (by cases hs'; exact gw), fun s' hs' => (by cases hs')⟩
              · unfold branchNode at hres
                simp only [Outcome.bind_eq_ok, orAbort_eq_ok] at hres
                obtain ⟨⟨w', col, up⟩, hbr, v, -, ⟨t1, dn⟩, -, ⟨t2, un⟩, -, hres⟩ := hres
                cases hres
                exact ⟨fun s' hs' => (by cases hs'; exact h.branch w w' col up gw hbr),
                  fun s' hs' => (by cases hs')⟩
            exact ⟨e, fun s' hs' => (key _ hs').1 s' rfl, fun s' hs' => (key _ hs').2 s' rfl⟩
          · refine ⟨rfl, fun s' hs' => ?_, fun s' hs' => ?_⟩
            · unfold infeasibleNode at hs'
              split at hs'
              · cases hs'
              · simp only [Outcome.bind_eq_ok] at hs'
                obtain ⟨t, -, hs'⟩ := hs'
                split at hs' <;> (cases hs'; exact gw)
            · unfold infeasibleNode at hs'
              split at hs'
              · cases hs'
              · simp only [Outcome.bind_eq_ok] at hs'
                obtain ⟨t, -, hs'⟩ := hs'
                split at hs' <;> cases hs'
        | _ => exact ⟨rfl, fun s' hs' => (by cases hs'), fun s' hs' => (by cases hs')⟩
      | _ => exact ⟨rfl, fun s' hs' => (by cases hs'), fun s' hs' => (by cases hs')⟩
    | _ => exact ⟨rfl, fun s' hs' => (by cases hs'), fun s' hs' => (by cases hs')⟩

/-- The runs are the same. -/
theorem guard_solveFuel (h : Keeps o d Good) (prm : Params) (fuel : Nat) :
    ∀ {s : State W}, Good s.world →
      solveFuel (guard o Good) d prm fuel s = solveFuel o d prm fuel s := by
  induction fuel with
  | zero => intro s _; rfl
  | succ n ih =>
    intro s hs
    obtain ⟨h1, h2, -⟩ := guard_iterate h prm hs
    unfold solveFuel
    rw [h1]
    cases hi : iterate o d prm s with
    | ok res =>
      cases res with
      | again s' => exact ih (h2 s' hi)
      | stop s' => rfl
    | _ => rfl

/-- The reachable states are the same, and good. -/
theorem guard_reach (h : Keeps o d Good) (prm : Params) {s₀ : State W} (hg : Good s₀.world)
    {s : State W} (hr : Reach o d prm s₀ s) : Reach (guard o Good) d prm s₀ s ∧ Good s.world := by
  induction hr with
  | refl => exact ⟨.refl, hg⟩
  | step _ hi ih =>
    obtain ⟨h1, h2, -⟩ := guard_iterate h prm ih.2
    exact ⟨ih.1.step (by rw [h1]; exact hi), h2 _ hi⟩

/-- A contract for good states keeps them good. -/
theorem Contract.keeps {bounds : W → Int → Dbl × Dbl} {Answer : W → Prop}
    (h : Contract o Good bounds Answer)
    (hs : ∀ w w', Good w → o.isOptimal w = true → o.separate w = .ok w' → Good w') :
    Keeps o d Good where
  setBounds w hw j _ l u w' hj := (h.setBounds w j l u w' hw hj).1
  solve w w' hw h1 := (h.solve w w' hw h1).1
  separate := hs
  branch w w' c up hw h1 := (h.branch w w' c up hw h1).1

/-- The contract of the guarded oracle. -/
theorem Contract.guard {bounds : W → Int → Dbl × Dbl} {Answer : W → Prop}
    (h : Contract o Good bounds Answer) : Contract (guard o Good) Good bounds Answer where
  setBounds w j l u w' hw hj := h.setBounds w j l u w' hw ((if_pos hw).symm.trans hj)
  solve w w' hw h1 := h.solve w w' hw ((if_pos hw).symm.trans h1)
  separate w w' hw ha ho h1 :=
    h.separate w w' hw ha ((if_pos hw).symm.trans ho) ((if_pos hw).symm.trans h1)
  branch w w' c up hw h1 := h.branch w w' c up hw ((if_pos hw).symm.trans h1)

end Solver
end MiniMip
