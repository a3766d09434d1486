import Verif.Model.DebugBuild
import Verif.Props.Efficacy
import Verif.Props.MipData
import Verif.Props.ProgramFractional
import Verif.Props.ProgramSafe

/-!
# C120: the assertions of the debug build

A build with assertions either behaves like the release build or aborts.  Below: when the assertions hold, and where they
do not.
-/

namespace MiniMip

/-! ### Specification -/

/-- The first call aborts the process or ends like the second. -/
def Outcome.OrAborts {α : Type} (x y : Outcome α) : Prop := x = .abort ∨ x = y

/-- In every row the variables come in increasing order (a variable with coefficient 0 need not be below those after it), and
those with another coefficient than 0 exist. -/
def Problem.SortedRows (p : Problem) : Prop :=
  ∀ c ∈ p.constraints, (c.varIndices.zip c.coefficients).Pairwise (fun a b => a.2 ≠ 0 → a.1 < b.1) ∧
    ∀ a ∈ c.varIndices.zip c.coefficients, a.2 ≠ 0 → a.1 < p.vars.length

/-- No integer variable has the lower bound `+∞` or the upper bound `-∞`. -/
def Problem.ProperBounds (p : Problem) : Prop :=
  ∀ v ∈ p.vars, v.isInteger = true → v.lower ≠ .pinf ∧ v.upper ≠ .ninf

namespace Outcome
variable {α β : Type}

theorem OrAborts.refl (x : Outcome α) : OrAborts x x := .inr rfl

theorem OrAborts.abort (y : Outcome α) : OrAborts .abort y := .inl rfl

theorem OrAborts.bind {x y : Outcome α} {f g : α → Outcome β} (h : OrAborts x y) (hf : ∀ a, OrAborts (f a) (g a)) :
    OrAborts (x >>= f) (y >>= g) := by
  rcases h with rfl | rfl
  · exact .inl rfl
  · cases x with
    | ok a => exact hf a
    | _ => exact .inr rfl

theorem OrAborts.check {b : Bool} {x y : Outcome α} (h : OrAborts x y) : OrAborts (Outcome.check b >>= fun _ => x) y := by
  cases b
  · exact .inl rfl
  · exact h

theorem OrAborts.ite {p : Prop} [Decidable p] {x y x' y' : Outcome α} (h : OrAborts x y) (h' : OrAborts x' y') :
    OrAborts (if p then x else x') (if p then y else y') := by
  split
  · exact h
  · exact h'

theorem OrAborts.orAbort {x y : Outcome α} (h : OrAborts x y) : OrAborts x.orAbort y.orAbort := by
  rcases h with rfl | rfl
  · exact .inl rfl
  · exact .inr rfl

end Outcome

open Outcome

/-! ### The cut generator -/

namespace Generator

theorem below_create (objective : SparseVector) (isInteger : Int → Bool) (lpOptimum row : SparseVector) (rhs : ℚ)
    (name : String) (isForced : Bool) :
    OrAborts (debugCreateCut objective isInteger lpOptimum row rhs name isForced)
      (.ok (createCut objective isInteger lpOptimum row rhs name isForced)) := by
  unfold debugCreateCut
  simp only
  split
  · exact .inr rfl
  · exact .inl rfl

theorem below_cg (tol coefficient k f0 : ℚ) :
    OrAborts (debugCgRoundInteger tol coefficient k f0) (.ok (cgRoundInteger tol coefficient k f0)) :=
  OrAborts.check (OrAborts.check (.inr rfl))

theorem below_transform {f g : Int → ℚ → Outcome ℚ} (h : ∀ i x, OrAborts (f i x) (g i x)) (l : List Entry) :
    OrAborts (transformM f l) (transformM g l) := by
  induction l with
  | nil => exact .refl _
  | cons e l ih => exact (h _ _).bind fun _ => ih.bind fun _ => .refl _

theorem transformM_pure (f : Int → ℚ → ℚ) (l : List Entry) (b : Bool) :
    transformM (fun i x => .ok (f i x)) l = .ok (SparseVector.transform ⟨l, b⟩ f).entries := by
  induction l with
  | nil => rfl
  | cons e l ih =>
    simp only [transformM, ih, Outcome.bind_ok, Outcome.pure_eq, SparseVector.transform, List.map_cons, List.filter_cons,
      decide_eq_true_eq]

theorem below_strongCG (c : GenContext) (a : AggRow) : OrAborts (debugStrongCGRound c a) (strongCGRound c a) := by
  unfold debugStrongCGRound strongCGRound
  refine (OrAborts.refl _).bind fun ok => .ite (.refl _) (.ite (.refl _) ?_)
  cases a.rhs with
  | none => exact .inl rfl
  | some b =>
    simp only
    by_cases hf : fractionality c.tol b = 0
    · left; simp [hf, Outcome.check]
    · refine OrAborts.check (OrAborts.check (OrAborts.check ?_))
      simp only [hf, decide_false, Bool.false_and, Bool.false_eq_true, if_false]
      refine OrAborts.bind (below_transform (fun i x => (OrAborts.refl _).bind fun j => ?_) _) fun slacks => ?_
      · split
        · exact below_cg _ _ _ _
        · exact OrAborts.check (.inr rfl)
      · have key := below_transform (l := a.vars.entries)
          (f := fun col x => if c.isInteger col then
            debugCgRoundInteger c.tol x (⌈1 / fractionality c.tol b⌉ - 1) (fractionality c.tol b) else do
              Outcome.check (decide (0 ≤ x))
              return 0)
          (g := fun col x => .ok (if c.isInteger col then
            cgRoundInteger c.tol x (⌈1 / fractionality c.tol b⌉ - 1) (fractionality c.tol b) else 0))
          (fun i x => by
            split
            · exact below_cg _ _ _ _
            · exact OrAborts.check (.inr rfl))
        rw [transformM_pure _ _ a.vars.dirty] at key
        rcases key with h | h
        · left; rw [h]; rfl
        · right; rw [h]; rfl

theorem below_roundOne (c : GenContext) (a : AggRow) (r : Rounder) : OrAborts (debugRoundOne c a r) (roundOne c a r) := by
  unfold debugRoundOne roundOne
  refine OrAborts.bind ?_ fun x => .refl _
  cases r with
  | mir => exact .refl _
  | strongCG => exact below_strongCG c a

theorem below_roundAll (c : GenContext) (x : SparseVector) (a : AggRow) (rs : List Rounder) :
    ∀ n, OrAborts (debugRoundAll c x a n rs) (roundAll c x a n rs) := by
  induction rs with
  | nil => exact fun _ => .refl _
  | cons r rs ih =>
    intro n
    unfold debugRoundAll roundAll
    refine (below_roundOne c a r).bind fun res => ?_
    cases res with
    | none => exact ih n
    | some y =>
      refine .ite ?_ (ih n)
      have h := below_create c.objective c.isInteger x y.1 y.2 (r.name ++ toString n) false
      rcases h with h | h
      · left; simp only [h]; rfl
      · simp only [h, Outcome.bind_ok]
        exact (ih (n + 1)).bind fun _ => .refl _

theorem below_row (c : GenContext) (s : SolverView) (rs : List Rounder) (u : List Bool) (x : SparseVector) (k : Nat) :
    OrAborts (debugTableauRow c s rs u x k) (tableauRow c s rs u x k) := by
  unfold debugTableauRow tableauRow
  refine (OrAborts.refl _).bind fun b => ?_
  cases b with
  | none => exact .refl _
  | some col =>
    exact .ite (.refl _) (.ite (.refl _) ((OrAborts.refl _).bind fun _ => (OrAborts.refl _).bind fun _ =>
      (OrAborts.refl _).bind fun y => .ite (.refl _) (below_roundAll _ _ _ _ _)))

theorem below_loop (c : GenContext) (s : SolverView) (rs : List Rounder) (m : Int) (u : List Bool) (x : SparseVector) :
    ∀ n k cuts, OrAborts (debugTableauLoop c s rs m u x n k cuts) (tableauLoop c s rs m u x n k cuts) := by
  intro n
  induction n with
  | zero => exact fun _ _ => .refl _
  | succ n ih =>
    intro k cuts
    unfold debugTableauLoop tableauLoop
    exact .ite ((below_row _ _ _ _ _ _).bind fun _ => ih _ _) (.refl _)

theorem below_sides (lp : LpView) (l : List ℚ) : ∀ k, OrAborts (debugChooseSides lp k l) (chooseSides lp k l) := by
  induction l with
  | nil => exact fun _ => .refl _
  | cons a l ih =>
    intro k
    unfold debugChooseSides chooseSides
    exact (OrAborts.refl _).bind fun _ => (OrAborts.refl _).bind fun _ => OrAborts.check ((ih _).bind fun _ => .refl _)

theorem below_generate (c : GenContext) (s : SolverView) (rs : List Rounder) (m : Int) :
    OrAborts (debugGenerate c s rs m) (generateCuttingPlanes c s rs m) := by
  unfold debugGenerate generateCuttingPlanes
  exact .ite (.refl _) (.ite (.refl _) ((OrAborts.refl _).bind fun _ => (below_sides _ _ _).bind fun _ =>
    (OrAborts.refl _).bind fun _ => .ite (.refl _) (below_loop _ _ _ _ _ _ _ _ _)))

end Generator

/-! ### The cut runner -/

namespace Runner
variable {W : Type}

theorem below_runner_generate (pl : Plugins W) {gs gs' : List (W → CutRegistry → Outcome (W × List CutData))}
    (h : List.Forall₂ (fun g g' => ∀ w r, OrAborts (g w r) (g' w r)) gs gs') {gens : List (W → CutRegistry → Outcome (W × List CutData))} :
    ∀ r : Runner W, OrAborts (generate { pl with generators := gens } r gs) (generate pl r gs') := by
  induction h with
  | nil => exact fun _ => .refl _
  | cons h _ ih =>
    intro r
    unfold generate
    refine (h _ _).bind fun x => .ite (ih _) ?_
    exact (OrAborts.refl _).bind fun _ => (OrAborts.refl _).bind fun _ => (ih _).bind fun _ => .refl _

theorem addRows_generators (pl : Plugins W) (gens : List (W → CutRegistry → Outcome (W × List CutData))) (is : List Int) :
    ∀ r : Runner W, addRows { pl with generators := gens } r is = addRows pl r is := by
  induction is with
  | nil => exact fun _ => rfl
  | cons i is ih =>
    intro r
    unfold addRows
    simp only [ih]

theorem below_separate (p : RunnerParams) (pl : Plugins W) {gens : List (W → CutRegistry → Outcome (W × List CutData))}
    (h : List.Forall₂ (fun g g' => ∀ w r, OrAborts (g w r) (g' w r)) gens pl.generators) :
    ∀ n (r : Runner W), separateFuel p { pl with generators := gens } n r = separateFuel p pl n r ∨
      separateFuel p { pl with generators := gens } n r = some .abort := by
  intro n
  induction n with
  | zero => exact fun _ => .inl rfl
  | succ n ih =>
    intro r
    unfold separateFuel
    have hm : mayRun p { pl with generators := gens } r = mayRun p pl r := rfl
    rw [hm]
    split
    · have hr : OrAborts (round { pl with generators := gens } r) (round pl r) := by
        unfold round
        refine (below_runner_generate pl h r).bind fun x => .ite (.refl _) ?_
        rw [addRows_generators]
        exact .refl _
      rcases hr with hr | hr
      · right; rw [hr]
      · rw [hr]
        cases round pl r with
        | ok x =>
          obtain ⟨r', b⟩ := x
          cases b
          · exact .inl rfl
          · exact ih r'
        | _ => exact .inl rfl
    · exact .inl rfl

end Runner

/-! ### The loop of `Solve` -/

namespace Solver
variable {W : Type}

/-- The first oracle aborts or answers like the second. -/
structure OrAborts (o' o : Oracle W) : Prop where
  setBounds : ∀ w col l u, Outcome.OrAborts (o'.setBounds w col l u) (o.setBounds w col l u)
  solve : o'.solve = o.solve
  isOptimal : o'.isOptimal = o.isOptimal
  objective : o'.objective = o.objective
  primal : ∀ w, Outcome.OrAborts (o'.primal w) (o.primal w)
  branch : o'.branch = o.branch
  separate : ∀ w, Outcome.OrAborts (o'.separate w) (o.separate w)

theorem OrAborts.applyBounds {o' o : Oracle W} (h : OrAborts o' o) (lb ub : List Dbl) (l : List Int) :
    ∀ w, Outcome.OrAborts (applyBounds o' lb ub w l) (applyBounds o lb ub w l) := by
  induction l with
  | nil => exact fun _ => .refl _
  | cons col l ih =>
    intro w
    unfold Solver.applyBounds
    exact (Outcome.OrAborts.refl _).bind fun _ => (Outcome.OrAborts.refl _).bind fun _ => (h.setBounds _ _ _ _).orAbort.bind fun _ => ih _

theorem OrAborts.iterate {o' o : Oracle W} (h : OrAborts o' o) (d : MipData) (prm : Params) (s : State W) :
    Outcome.OrAborts (iterate o' d prm s) (iterate o d prm s) := by
  unfold Solver.iterate
  cases pop s.backjump s.queue with
  | none => exact .refl _
  | some x =>
    refine (Outcome.OrAborts.refl _).bind fun lb => (Outcome.OrAborts.refl _).bind fun ub => Outcome.OrAborts.bind ?_ fun w => ?_
    · unfold Solver.solveNode
      refine (h.applyBounds _ _ _ _).bind fun w => ?_
      rw [h.solve, h.isOptimal]
      exact (Outcome.OrAborts.refl _).bind fun w => .ite (h.separate _).orAbort (.refl _)
    · rw [h.isOptimal]
      refine .ite ?_ (.refl _)
      unfold optimalNode branchNode
      rw [h.objective, h.branch]
      exact (Outcome.OrAborts.refl _).bind fun _ => (h.primal _).orAbort.bind fun _ => .refl _

theorem OrAborts.solveFuel {o' o : Oracle W} (h : OrAborts o' o) (d : MipData) (prm : Params) :
    ∀ n s, solveFuel o' d prm n s = some .abort ∨ solveFuel o' d prm n s = solveFuel o d prm n s := by
  intro n
  induction n with
  | zero => exact fun _ => .inr rfl
  | succ n ih =>
    intro s
    unfold Solver.solveFuel
    rcases h.iterate d prm s with h1 | h1
    · left; rw [h1]
    · rw [h1]
      cases Solver.iterate o d prm s with
      | ok t =>
        cases t with
        | again t => exact ih t
        | stop t => exact .inr rfl
      | _ => exact .inr rfl

end Solver

/-! ### The program -/

namespace Program

theorem below_setBounds (e : Engine) (l : Lp) (col : Int) (lower upper : Dbl) :
    OrAborts (l.debugSetColumnBounds e col lower upper) (l.setColumnBounds col lower upper) := by
  unfold Lp.debugSetColumnBounds
  cases l with
  | glop s =>
    refine OrAborts.check (OrAborts.check (OrAborts.check ?_))
    simp only [Lp.setColumnBounds]
    cases Glop.setColumnBounds s.iface col lower upper <;> exact .inr rfl
  | soplex g =>
    refine OrAborts.check (OrAborts.check ?_)
    simp only [Lp.setColumnBounds]
    cases Soplex.setColumnBounds g col lower upper with
    | ok g' => exact OrAborts.check (.inr rfl)
    | _ => exact .inr rfl

theorem below_oracle (e : Engine) (c : Setup.Created) : Solver.OrAborts (debugOracle e c) (oracle e c) where
  setBounds r col l u := (below_setBounds e r.world.lp col l u).bind fun _ => .refl _
  solve := rfl
  isOptimal := rfl
  objective := rfl
  branch := rfl
  primal r := by
    show Outcome.OrAborts r.world.debugPrimal r.world.primal
    unfold World.debugPrimal
    cases r.world.lp with
    | glop s => exact Outcome.OrAborts.check (.refl _)
    | soplex g => exact .refl _
  separate r := by
    show Outcome.OrAborts (debugSeparate e c r) (separate e c r)
    unfold debugSeparate separate debugPlugins
    have h := Runner.below_separate c.runner.params (plugins e c)
      (gens := c.runner.generators.map fun g => fun w _ => do
        let cuts ← Generator.debugGenerate (context e c w) w.view (rounders g) g.maxNumCuts
        return (w, cuts))
      (by
        show List.Forall₂ _ _ (c.runner.generators.map _)
        rw [List.forall₂_map_left_iff, List.forall₂_map_right_iff, List.forall₂_same]
        exact fun g _ w _ => (Generator.below_generate _ _ _ _).bind fun _ => .refl _)
      ((c.runner.params.maxIterations - r.numCutrounds).toNat + 1) r
    rcases h with h | h
    · rw [h]; exact .refl _
    · rw [h]; exact .inl rfl

end Program
end MiniMip
