import Verif.Props.SolverApprox

/-!
# Runs whose end is known

A property of the state that no call can repair holds throughout a run if it holds at the end.
So an oracle may be replaced by one that separates only into such states.
-/

namespace MiniMip
namespace Solver

variable {W : Type}

open Classical in
/-- The oracle that fails where separation leaves `M`. -/
noncomputable def filtered (o : Oracle W) (M : W → Prop) : Oracle W :=
  { o with separate := fun w => do
      let w' ← o.separate w
      if M w' then return w' else .abort }

theorem filtered_separate {o : Oracle W} {M : W → Prop} {w w' : W} (h : (filtered o M).separate w = .ok w') :
    o.separate w = .ok w' ∧ M w' := by
  simp only [filtered, Outcome.bind_eq_ok] at h
  obtain ⟨w1, h1, h⟩ := h
  split at h
  · cases h; exact ⟨h1, by assumption⟩
  · cases h

/-- No call that returns leads into `M`. -/
structure Lasts (o : Oracle W) (M : W → Prop) : Prop where
  setBounds : ∀ w j l u w', o.setBounds w j l u = .ok w' → M w' → M w
  solve : ∀ w w', o.solve w = .ok w' → M w' → M w
  separate : ∀ w w', o.separate w = .ok w' → M w' → M w
  branch : ∀ w w' c up, o.branch w = .ok (w', c, up) → M w' → M w

variable {o : Oracle W} {d : MipData} {M : W → Prop}

theorem Lasts.applyBounds (h : Lasts o M) (lb ub : List Dbl) :
    ∀ (l : List Int) (w w' : W), applyBounds o lb ub w l = .ok w' → M w' → M w := by
  intro l
  induction l with
  | nil => intro w w' h1 h2; cases h1; exact h2
  | cons j r ih =>
    intro w w' h1 h2
    unfold Solver.applyBounds at h1
    simp only [Outcome.bind_eq_ok, orAbort_eq_ok] at h1
    obtain ⟨a, -, b, -, w1, hs, h1⟩ := h1
    exact h.setBounds _ _ _ _ _ hs (ih _ _ h1 h2)

theorem filtered_applyBounds (lb ub : List Dbl) :
    ∀ (l : List Int) (w : W), applyBounds (filtered o M) lb ub w l = applyBounds o lb ub w l := by
  intro l
  induction l with
  | nil => intro w; rfl
  | cons j r ih =>
    intro w
    unfold applyBounds
    simp only [ih]
    rfl

theorem filtered_solveNode (h : Lasts o M) (lb ub : List Dbl) {w w' : W} (hn : solveNode o d lb ub w = .ok w')
    (hw : M w') : solveNode (filtered o M) d lb ub w = .ok w' ∧ M w := by
  unfold solveNode at hn ⊢
  rw [filtered_applyBounds]
  simp only [Outcome.bind_eq_ok, orAbort_eq_ok] at hn
  obtain ⟨w1, hb, w2, hs, hn⟩ := hn
  rw [hb]
  simp only [Outcome.bind_ok, show (filtered o M).solve w1 = o.solve w1 from rfl, hs, Outcome.orAbort,
    show (filtered o M).isOptimal w2 = o.isOptimal w2 from rfl]
  split at hn
  · rename_i ho
    rw [orAbort_eq_ok] at hn
    refine ⟨?_, h.applyBounds _ _ _ _ _ hb (h.solve _ _ hs (h.separate _ _ hn hw))⟩
    have : (filtered o M).separate w2 = .ok w' := by
      simp only [filtered, hn, Outcome.bind_ok]
      exact if_pos hw
    rw [this]
    simp [ho]
  · rename_i ho
    cases hn
    exact ⟨by simp [ho], h.applyBounds _ _ _ _ _ hb (h.solve _ _ hs hw)⟩

/-- The state after an iteration. -/
def Step.state : Step W → State W
  | .again s => s
  | .stop s => s

theorem filtered_iterate (h : Lasts o M) (prm : Params) {s : State W} {res : Step W}
    (hi : iterate o d prm s = .ok res) (hw : M res.state.world) :
    iterate (filtered o M) d prm s = .ok res ∧ M s.world := by
  unfold iterate at hi ⊢
  split at hi
  · cases hi
    exact ⟨rfl, hw⟩
  · rename_i node queue _
    simp only [Outcome.bind_eq_ok] at hi
    obtain ⟨lb, hlb, ub, hub, w, hn, hi⟩ := hi
    have key : M w ∧ (optimalNode (filtered o M) d prm s node queue w = optimalNode o d prm s node queue w) := by
      refine ⟨?_, rfl⟩
      split at hi
      · unfold optimalNode at hi
        simp only [Outcome.bind_eq_ok] at hi
        obtain ⟨tree, -, values, -, b, -, hi⟩ := hi
        split at hi
        · split at hi
          · cases hi; exact hw
          · cases hi; exact hw
        · unfold branchNode at hi
          simp only [Outcome.bind_eq_ok, orAbort_eq_ok] at hi
          obtain ⟨⟨w', col, up⟩, hbr, v, -, ⟨t1, dn⟩, -, ⟨t2, un⟩, -, hi⟩ := hi
          cases hi
          exact h.branch _ _ _ _ hbr hw
      · unfold infeasibleNode at hi
        split at hi
        · cases hi
        · simp only [Outcome.bind_eq_ok] at hi
          obtain ⟨t, -, hi⟩ := hi
          split at hi <;> (cases hi; exact hw)
    obtain ⟨g1, g2⟩ := filtered_solveNode h lb ub hn key.1
    refine ⟨?_, g2⟩
    rw [hlb, hub]
    simp only [Outcome.bind_ok, g1, key.2, show (filtered o M).isOptimal w = o.isOptimal w from rfl]
    exact hi

/-- A run that ends in `M` is one of the filtered oracle. -/
theorem filtered_solveFuel (h : Lasts o M) (prm : Params) (fuel : Nat) :
    ∀ {s s' : State W}, solveFuel o d prm fuel s = some (.ok s') → M s'.world →
      solveFuel (filtered o M) d prm fuel s = some (.ok s') ∧ M s.world := by
  induction fuel with
  | zero => intro s s' h; cases h
  | succ n ih =>
    intro s s' hs hw
    unfold solveFuel at hs ⊢
    cases hi : iterate o d prm s with
    | ok res =>
      rw [hi] at hs
      cases res with
      | again s1 =>
        obtain ⟨g1, g2⟩ := ih hs hw
        obtain ⟨g3, g4⟩ := filtered_iterate h prm hi g2
        rw [g3]
        exact ⟨g1, g4⟩
      | stop s1 =>
        cases hs
        obtain ⟨g3, g4⟩ := filtered_iterate h prm hi hw
        rw [g3]
        exact ⟨rfl, g4⟩
    | _ => rw [hi] at hs; cases hs

/-! ### One point -/

/-- `ApproximateAnswer`, for one point of the problem. -/
def ApproximateAt (o : Oracle W) (d : MipData) (bounds : W → Int → Dbl × Dbl) (delta : ℚ) (y : Int → ℚ) (w : W) :
    Prop :=
  (o.isOptimal w = true → ∀ values, o.primal w = .ok values →
    ∃ z, o.objective w = .fin z ∧ |z - d.objective.eval (point values)| ≤ delta ∧
      (InBounds d bounds w y → z ≤ d.objective.eval y + delta)) ∧
  (o.isOptimal w = false → (∀ y, InBounds d bounds w y → InRootBounds d y) → ¬ InBounds d bounds w y)

theorem approximate_at {p : Problem} {d : MipData} (hrep : d.Represents p)
    {o : Oracle W} {prm : Params} {Good : W → Prop} {bounds : W → Int → Dbl × Dbl} {delta : ℚ} {y : Int → ℚ}
    (hp : PrimalShape o p.vars.length) (hc : Contract o Good bounds (ApproximateAt o d bounds delta y))
    {w : W} (hg : Good w) (hs : StartsAt d bounds w) {fuel : Nat} {s : State W}
    (h : solveFuel o d prm fuel (initial w) = some (.ok s)) (hy : p.Feasible y) :
    s.result.best ≠ {} ∧
      if p.isMaximization then p.userObjective y ≤ p.userObjective (point s.result.best.values) + 2 * delta
      else p.userObjective (point s.result.best.values) ≤ p.userObjective y + 2 * delta := by
  have hd := dataOk_of_represents hrep
  have hlen : p.vars.length = d.lower.length := by rw [hrep.lower]; simp
  rw [hlen] at hp
  obtain ⟨sols, h1, h2, h3, h4⟩ := run_from hd hp hc hg hs h
  have hz : ∀ sol ∈ sols, ∃ z, sol.objective = .fin z ∧ |z - d.objective.eval (point sol.values)| ≤ delta := by
    intro sol hsol
    obtain ⟨w', ha, hopt, hv, hobj, -, -⟩ := h3 sol hsol
    obtain ⟨z, hz, hzv, -⟩ := ha.1 hopt _ hv
    exact ⟨z, by rw [hobj, hz], hzv⟩
  have hy' : d.Feasible y := ((C09_same_optima p d hrep y).1).2 hy
  rcases h4 y hy'.1 hy'.2.1 with ⟨sol, hsol, w', ha, hopt, hv, hobj, hin⟩ | ⟨w', ha, hopt, hin, hroot⟩
  · obtain ⟨z, hz1, -, hz2⟩ := ha.1 hopt _ hv
    have hle := hz2 hin
    have hne : sols ≠ [] := by rintro rfl; simp at hsol
    have hproper : ∀ s ∈ sols, SolveResult.Proper s := by
      intro s hs
      obtain ⟨q, hq, -⟩ := hz s hs
      exact proper_of_fin hq
    obtain ⟨hperm, k, hk, hmin, -⟩ := SolveResult.C12_incumbent sols hproper hne
    rw [← h1] at hk hmin
    obtain ⟨zb, hzb, hzb2⟩ := hz _ (List.mem_of_getElem? hk)
    refine ⟨by intro h; rw [h] at hzb; simp at hzb, ?_⟩
    have hm := hmin sol hsol
    rw [hzb, hobj, hz1] at hm
    simp only [Dbl.le_fin] at hm
    obtain ⟨b1, b2⟩ := abs_le.1 hzb2
    have e1 := hrep.objective y
    have e2 := hrep.objective (point s.result.best.values)
    split
    · rename_i hmax
      rw [hmax] at e1 e2
      simp only [if_true] at e1 e2
      linarith
    · rename_i hmax
      rw [if_neg hmax] at e1 e2
      linarith
  · exact absurd hin (ha.2 hopt hroot)

end Solver
end MiniMip
