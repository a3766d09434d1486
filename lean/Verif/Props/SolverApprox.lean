import Verif.Lemmas.SolverOpen
import Verif.Props.SolverEnds
import Verif.Props.SolverWitness

/-!
# C89: LP solvers with tolerances

C35 to C40 assume LP solutions that satisfy bounds and rows and are optimal, all exactly.  Here the LP solver may violate
bounds and rows by `eps`, and its objective value may be off by `delta`.
-/

namespace MiniMip

/-- Between the bounds, up to `eps`. -/
def BetweenUpTo (eps : ℚ) (l : Dbl) (q : ℚ) (u : Dbl) : Prop :=
  Dbl.le l (.fin (q + eps)) = true ∧ Dbl.le (.fin (q - eps)) u = true

/-- Bounds and rows hold up to `eps`, integer variables are integers up to `tol`. -/
def Problem.FeasibleWithin (p : Problem) (eps tol : ℚ) (x : Int → ℚ) : Prop :=
  (∀ (n : Nat) (v : Variable), p.vars[n]? = some v →
    BetweenUpTo eps v.lower (x n) v.upper ∧ (v.isInteger = true → ∃ k : Int, |x n - k| ≤ tol)) ∧
  ∀ c ∈ p.constraints, BetweenUpTo eps c.lhs (c.activity x) c.rhs

namespace Solver

variable {W : Type}

/-! ## What a run visits, for any contract -/

/-- `Solve` ended normally: every stored solution is the LP solution of some node; and each point within the bounds and
integral is within the bounds of a node that was stored or of a node whose LP had no solution. -/
theorem run_from {o : Oracle W} {d : MipData} {prm : Params} {Good : W → Prop}
    {bounds : W → Int → Dbl × Dbl} {Answer : W → Prop} (hd : DataOk d) (hp : PrimalShape o d.lower.length)
    (hc : Contract o Good bounds Answer) {w₀ : W} (hg : Good w₀) (hs : StartsAt d bounds w₀) {fuel : Nat} {s : State W}
    (h : solveFuel o d prm fuel (initial w₀) = some (.ok s)) :
    ∃ sols, s.result.best = (({} : SolveResult).addAll sols).best ∧
      s.result.additional = (({} : SolveResult).addAll sols).additional ∧
      (∀ sol ∈ sols, ∃ w, Answer w ∧ o.isOptimal w = true ∧ o.primal w = .ok sol.values ∧
        sol.objective = o.objective w ∧ d.solutionIsIntegral sol.values prm.tol = .ok true ∧
        ∀ x, InBounds d bounds w x → InRootBounds d x) ∧
      ∀ x, InRootBounds d x → (∀ j ∈ d.integerVariables, ∃ k : Int, x j = k) →
        (∃ sol ∈ sols, ∃ w, Answer w ∧ o.isOptimal w = true ∧ o.primal w = .ok sol.values ∧
          sol.objective = o.objective w ∧ InBounds d bounds w x) ∨
        ∃ w, Answer w ∧ o.isOptimal w = false ∧ InBounds d bounds w x ∧
          ∀ y, InBounds d bounds w y → InRootBounds d y := by
  obtain ⟨s1, hr, h⟩ := solveFuel_some h
  obtain ⟨bs, sols, hi, ht⟩ := reach_trans hd hp hc hg hs hr
  have recd : ∀ bs sols, TransStar o d prm bounds Answer bs sols → ∀ sol ∈ sols, ∃ w, Answer w ∧
      o.isOptimal w = true ∧ o.primal w = .ok sol.values ∧ sol.objective = o.objective w ∧
      d.solutionIsIntegral sol.values prm.tol = .ok true ∧ ∀ x, InBounds d bounds w x → InRootBounds d x := by
    intro bs sols h
    induction h with
    | init => simp
    | step _ ht ih =>
      cases ht with
      | drop => exact ih
      | record _ h2 h3 h4 h5 h6 =>
        intro sol hsol
        rcases List.mem_append.1 hsol with hsol | hsol
        · exact ih sol hsol
        · simp only [List.mem_singleton] at hsol
          subst hsol
          exact ⟨_, h2, h4, h5, rfl, h6, fun x hx => ((h3 x).1 hx).1⟩
      | split => exact ih
  have cover : ∀ bs sols, TransStar o d prm bounds Answer bs sols → ∀ x, InRootBounds d x →
      (∀ j ∈ d.integerVariables, ∃ k : Int, x j = k) → (∃ b ∈ bs, InBox d b x) ∨
      (∃ sol ∈ sols, ∃ w, Answer w ∧ o.isOptimal w = true ∧ o.primal w = .ok sol.values ∧
          sol.objective = o.objective w ∧ InBounds d bounds w x) ∨
        ∃ w, Answer w ∧ o.isOptimal w = false ∧ InBounds d bounds w x ∧
          ∀ y, InBounds d bounds w y → InRootBounds d y := by
    intro bs sols h x hx hint
    induction h with
    | init hne hb =>
      obtain ⟨b, hbm⟩ := List.exists_mem_of_ne_nil _ hne
      exact Or.inl ⟨b, hbm, fun n _ => hb b hbm n _⟩
    | step _ ht ih =>
      cases ht with
      | drop h1 h2 h3 h4 =>
        rcases ih with ⟨b', hb', hin⟩ | hs
        · rcases List.mem_cons.1 (h1.mem_iff.1 hb') with rfl | hb'
          · exact Or.inr (Or.inr ⟨_, h2, h4, (h3 x).2 ⟨hx, hin⟩, fun y hy => ((h3 y).1 hy).1⟩)
          · exact Or.inl ⟨b', hb', hin⟩
        · exact Or.inr hs
      | record h1 h2 h3 h4 h5 h6 =>
        rcases ih with ⟨b', hb', hin⟩ | ⟨sol, hsol, hle⟩ | hs
        · rcases List.mem_cons.1 (h1.mem_iff.1 hb') with rfl | hb'
          · exact Or.inr (Or.inl ⟨_, List.mem_append_right _ (List.mem_singleton.2 rfl), _, h2, h4, h5, rfl,
              (h3 x).2 ⟨hx, hin⟩⟩)
          · exact Or.inl ⟨b', hb', hin⟩
        · exact Or.inr (Or.inl ⟨sol, List.mem_append_left _ hsol, hle⟩)
        · exact Or.inr (Or.inr hs)
      | split h1 h2 h3 h4 h5 h6 h7 h8 =>
        rename_i b0 bs0 w w' values col up v
        rcases ih with ⟨b', hb', hin⟩ | hs
        · rcases List.mem_cons.1 (h1.mem_iff.1 hb') with rfl | hb'
          · left
            by_cases hi : ((col : Nat) : Int) ∈ d.integerVariables
            · obtain ⟨k, hk⟩ := hint _ hi
              have hside : ∃ dn : Bool, if dn then x col ≤ ⌊v⌋ else (⌈v⌉ : ℚ) ≤ x col := by
                rw [hk]
                rcases (MipTree.C18_branching v).1 k with hs | hs
                · exact ⟨true, by simpa using hs⟩
                · exact ⟨false, by simpa using hs⟩
              obtain ⟨dn, hdn⟩ := hside
              have hc : InBox d (childBox b' col v dn) x := by
                intro n hn
                refine ⟨hin n hn, ?_⟩
                rintro rfl
                exact hdn
              by_cases hup : dn = up
              · subst hup
                exact ⟨childBox b' col v dn, by simp, hc⟩
              · have : dn = !up := by cases dn <;> cases up <;> simp_all
                subst this
                exact ⟨childBox b' col v (!up), by simp, hc⟩
            · refine ⟨childBox b' col v up, by simp, ?_⟩
              intro n hn
              refine ⟨hin n hn, ?_⟩
              rintro rfl
              exact absurd hn hi
          · exact Or.inl ⟨b', by simp [hb'], hin⟩
        · exact Or.inr hs
  rcases h with ⟨s2, h1, h2⟩ | ⟨m, -, h2⟩ | ⟨-, h2⟩ | ⟨-, h2⟩
  · obtain ⟨sols', h3, h4⟩ := (iterate_trans hd hp hc hi).2.1 s2 h1
    have h2 := Outcome.ok.inj h2
    subst h2
    refine ⟨sols', by show s2.result.best = _; rw [h3], by show s2.result.additional = _; rw [h3], ?_⟩
    cases h4 with
    | empty =>
      refine ⟨recd _ _ ht, fun x hx hint => ?_⟩
      rcases cover _ _ ht x hx hint with ⟨b, hb, -⟩ | hs
      · simp at hb
      · exact hs
    | root ha hb hopt hv hint =>
      refine ⟨?_, fun x hx _ => Or.inl ⟨_, List.mem_append_right _ (List.mem_singleton.2 rfl), _, ha, hopt, hv, rfl,
        (hb x).2 hx⟩⟩
      intro sol hsol
      rcases List.mem_append.1 hsol with hsol | hsol
      · exact recd _ _ ht sol hsol
      · simp only [List.mem_singleton] at hsol
        subst hsol
        exact ⟨_, ha, hopt, hv, rfl, hint, fun x hx => (hb x).1 hx⟩
  · cases h2
  · cases h2
  · cases h2

/-! ## LP solvers with tolerances -/

/-- At most `eps` away from a point within the bounds of the LP's columns. -/
def NearBounds (d : MipData) (bounds : W → Int → Dbl × Dbl) (w : W) (eps : ℚ) (x : Int → ℚ) : Prop :=
  ∃ x', InBounds d bounds w x' ∧ ∀ n : Nat, n < d.lower.length → |x n - x' n| ≤ eps

/-- The rows of the data hold up to `eps`. -/
def RowsNearlyHold (d : MipData) (eps : ℚ) (x : Int → ℚ) : Prop :=
  ∀ (r : Nat) (l u : Dbl) (m : SparseMatrix) (v : SparseVector), d.lhs[r]? = some l →
    d.rhs[r]? = some u → d.matrix.row r = .ok (m, v) → BetweenUpTo eps l (v.eval x) u

/-- The LP solver's answers are right up to tolerances: an optimal solution satisfies the LP's bounds and the original
rows up to `eps`; the objective value reported is that of the solution up to `delta`, and no point feasible for the
problem within the LP's bounds is better by more than `delta`; if the LP is not optimal, with bounds at least as tight
as those of the problem, there is no such point. -/
def ApproximateAnswer (o : Oracle W) (d : MipData) (bounds : W → Int → Dbl × Dbl) (eps delta : ℚ) (w : W) : Prop :=
  (o.isOptimal w = true → ∀ values, o.primal w = .ok values →
    NearBounds d bounds w eps (point values) ∧ RowsNearlyHold d eps (point values) ∧
    ∃ z, o.objective w = .fin z ∧ |z - d.objective.eval (point values)| ≤ delta ∧
      ∀ x, d.Feasible x → InBounds d bounds w x → z ≤ d.objective.eval x + delta) ∧
  (o.isOptimal w = false → (∀ y, InBounds d bounds w y → InRootBounds d y) →
    ∀ x, d.Feasible x → ¬ InBounds d bounds w x)

theorem le_shift {l : Dbl} {a b : ℚ} (h : Dbl.le l (.fin a) = true) (hab : a ≤ b) : Dbl.le l (.fin b) = true := by
  cases l with
  | fin q => rw [Dbl.le_fin] at h ⊢; linarith
  | nan => simp [Dbl.le] at h
  | pinf => simp [Dbl.le] at h
  | ninf => rfl

theorem ge_shift {u : Dbl} {a b : ℚ} (h : Dbl.le (.fin a) u = true) (hab : b ≤ a) : Dbl.le (.fin b) u = true := by
  cases u with
  | fin q => rw [Dbl.le_fin] at h ⊢; linarith
  | nan => simp [Dbl.le] at h
  | pinf => rfl
  | ninf => simp [Dbl.le] at h

theorem betweenUpTo_of_near {eps : ℚ} {l u : Dbl} {x y : ℚ} (h : Between l y u) (hxy : |x - y| ≤ eps) :
    BetweenUpTo eps l x u := by
  obtain ⟨h1, h2⟩ := abs_le.1 hxy
  exact ⟨le_shift h.1 (by linarith), ge_shift h.2 (by linarith)⟩

theorem feasibleWithin_of {d : MipData} {p : Problem} (h : d.Represents p) {eps tol : ℚ}
    {values : List ℚ} (hlen : values.length = d.lower.length) {x' : Int → ℚ}
    (hb : InRootBounds d x') (hx' : ∀ n : Nat, n < d.lower.length → |point values n - x' n| ≤ eps)
    (hr : RowsNearlyHold d eps (point values))
    (hi : d.solutionIsIntegral values tol = .ok true) : p.FeasibleWithin eps tol (point values) := by
  have hd := dataOk_of_represents h
  obtain ⟨b, h1, h2⟩ := MipData.allIntegral_iff values tol d.integerVariables
    (fun j hj => by rw [hlen]; exact hd.ints j hj)
  have h1' : d.solutionIsIntegral values tol = .ok b := h1
  rw [hi] at h1'
  simp only [Outcome.ok.injEq] at h1'
  subst h1'
  have h3 := h2.1 rfl
  refine ⟨fun n v hv => ⟨?_, fun hint => ?_⟩, fun c hc => ?_⟩
  · have hn : n < d.lower.length := by rw [h.lower]; simpa using (List.getElem?_eq_some_iff.1 hv).1
    exact betweenUpTo_of_near (hb n v.lower v.upper (by rw [h.lower]; simp [hv]) (by rw [h.upper]; simp [hv]))
      (hx' n hn)
  · have hn : n < values.length := by
      rw [hlen, h.lower]; simpa using (List.getElem?_eq_some_iff.1 hv).1
    have hx : values[n]? = some values[n] := by simp [hn]
    rw [point_eq hx]
    exact h3 n _ ((h.integers n).2 ⟨n, v, hv, hint, rfl⟩) hx
  · obtain ⟨k, hk⟩ := List.getElem?_of_mem hc
    obtain ⟨m, v, hm, -, -, hev, -⟩ := h.rows k c hk
    have := hr k c.lhs c.rhs m v (by rw [h.lhs]; simp [hk]) (by rw [h.rhs]; simp [hk]) hm
    rwa [hev] at this

theorem BetweenUpTo.mono {a b : ℚ} (h : a ≤ b) {l u : Dbl} {q : ℚ} (hq : BetweenUpTo a l q u) : BetweenUpTo b l q u :=
  ⟨le_shift hq.1 (by linarith), ge_shift hq.2 (by linarith)⟩

theorem ApproximateAnswer.mono {o : Oracle W} {d : MipData} {bounds : W → Int → Dbl × Dbl} {eps eps' delta delta' : ℚ}
    {w : W} (h : ApproximateAnswer o d bounds eps delta w) (he : eps ≤ eps') (hd : delta ≤ delta') :
    ApproximateAnswer o d bounds eps' delta' w := by
  refine ⟨fun ho values hv => ?_, h.2⟩
  obtain ⟨⟨x', h1, h2⟩, h3, z, h4, h5, h6⟩ := h.1 ho values hv
  exact ⟨⟨x', h1, fun n hn => (h2 n hn).trans he⟩, fun r l u m v a b c => BetweenUpTo.mono he (h3 r l u m v a b c), z, h4,
    h5.trans hd, fun x hx hb => (h6 x hx hb).trans (by linarith)⟩

/-- The LP solver's optimal solutions satisfy the LP's bounds and the rows of the data up to `eps`. -/
def NearlyFeasibleAnswer (o : Oracle W) (d : MipData) (bounds : W → Int → Dbl × Dbl) (eps : ℚ) (w : W) : Prop :=
  o.isOptimal w = true → ∀ values, o.primal w = .ok values →
    NearBounds d bounds w eps (point values) ∧ RowsNearlyHold d eps (point values)

/-- **C89, feasibility.**  For every problem and every LP solver whose optimal solutions satisfy bounds and rows up to
`eps`: every solution stored when `Solve` returns satisfies bounds and rows of the problem up to `eps`, and is
integral up to the integrality tolerance. -/
theorem C89_feasible {p : Problem} {d : MipData} (hrep : d.Represents p)
    {o : Oracle W} {prm : Params} {Good : W → Prop} {bounds : W → Int → Dbl × Dbl} {eps : ℚ}
    (hp : PrimalShape o p.vars.length) (hc : Contract o Good bounds (NearlyFeasibleAnswer o d bounds eps))
    {w : W} (hg : Good w) (hs : StartsAt d bounds w) {fuel : Nat} {s : State W}
    (h : solveFuel o d prm fuel (initial w) = some (.ok s)) :
    (s.result.best = {} ∨ p.FeasibleWithin eps prm.tol (point s.result.best.values)) ∧
    ∀ sol ∈ s.result.additional, p.FeasibleWithin eps prm.tol (point sol.values) := by
  have hd := dataOk_of_represents hrep
  have hlen : p.vars.length = d.lower.length := by rw [hrep.lower]; simp
  rw [hlen] at hp
  obtain ⟨sols, h1, h2, h3, -⟩ := run_from hd hp hc hg hs h
  have hz : ∀ sol ∈ sols, p.FeasibleWithin eps prm.tol (point sol.values) := by
    intro sol hsol
    obtain ⟨w', ha, hopt, hv, hobj, hint, hin⟩ := h3 sol hsol
    obtain ⟨⟨x', hx', hnear⟩, hrows⟩ := ha hopt _ hv
    exact feasibleWithin_of hrep (hp _ _ hv) (hin x' hx') hnear hrows hint
  obtain ⟨hm1, hm2⟩ := addAll_mem sols
  rw [h1, h2]
  refine ⟨?_, fun sol hsol => hz sol (hm2 sol hsol)⟩
  rcases hm1 with hm1 | hm1
  · exact Or.inl hm1
  · exact Or.inr (hz _ hm1)

/-- **C89.**  For every problem and every LP solver that is right up to tolerances (bounds and rows up to `eps`, objective
up to `delta`), whatever the branching rule decides and wherever the search goes: if `Solve` returns OK, then the
stored solutions satisfy bounds and rows of the problem up to `eps` and are integral up to the integrality tolerance;
if the problem has a feasible point, then there is a best solution, no feasible point is better by more than
`2 * delta` in the user's objective, and the objective value stored with it is at most `delta` off the internal
objective of the solution; and if `Solve` reports an error, the problem has no feasible point. -/
theorem C89_approximate {p : Problem} {d : MipData} (hrep : d.Represents p)
    {o : Oracle W} {prm : Params} {Good : W → Prop} {bounds : W → Int → Dbl × Dbl} {eps delta : ℚ}
    (hp : PrimalShape o p.vars.length) (hc : Contract o Good bounds (ApproximateAnswer o d bounds eps delta))
    {w : W} (hg : Good w) (hs : StartsAt d bounds w) {fuel : Nat} :
    (∀ s, solveFuel o d prm fuel (initial w) = some (.ok s) →
      (∀ sol, (sol = s.result.best ∧ sol ≠ {}) ∨ sol ∈ s.result.additional →
        p.FeasibleWithin eps prm.tol (point sol.values) ∧
        ∃ z, sol.objective = .fin z ∧ |z - d.objective.eval (point sol.values)| ≤ delta) ∧
      ∀ y, p.Feasible y → s.result.best ≠ {} ∧
        if p.isMaximization then p.userObjective y ≤ p.userObjective (point s.result.best.values) + 2 * delta
        else p.userObjective (point s.result.best.values) ≤ p.userObjective y + 2 * delta) ∧
    ∀ m, solveFuel o d prm fuel (initial w) = some (.error m) → ∀ y, ¬ p.Feasible y := by
  have hd := dataOk_of_represents hrep
  have hlen : p.vars.length = d.lower.length := by rw [hrep.lower]; simp
  rw [hlen] at hp
  constructor
  · intro s h
    obtain ⟨sols, h1, h2, h3, h4⟩ := run_from hd hp hc hg hs h
    have hz : ∀ sol ∈ sols, p.FeasibleWithin eps prm.tol (point sol.values) ∧
        ∃ z, sol.objective = .fin z ∧ |z - d.objective.eval (point sol.values)| ≤ delta := by
      intro sol hsol
      obtain ⟨w', ha, hopt, hv, hobj, hint, hin⟩ := h3 sol hsol
      obtain ⟨⟨x', hx', hnear⟩, hrows, z, hz, hzv, -⟩ := ha.1 hopt _ hv
      exact ⟨feasibleWithin_of hrep (hp _ _ hv) (hin x' hx') hnear hrows hint, z, by rw [hobj, hz], hzv⟩
    refine ⟨?_, ?_⟩
    · intro sol hsol
      obtain ⟨hm1, hm2⟩ := addAll_mem sols
      apply hz
      rcases hsol with ⟨rfl, hne⟩ | hsol
      · rw [h1] at hne ⊢
        rcases hm1 with hm1 | hm1
        · exact absurd hm1 hne
        · exact hm1
      · rw [h2] at hsol; exact hm2 sol hsol
    · intro y hy
      have hy' : d.Feasible y := ((C09_same_optima p d hrep y).1).2 hy
      rcases h4 y hy'.1 hy'.2.1 with ⟨sol, hsol, w', ha, hopt, hv, hobj, hin⟩ | ⟨w', ha, hopt, hin, hroot⟩
      · obtain ⟨-, -, z, hz1, -, hz2⟩ := ha.1 hopt _ hv
        have hle := hz2 y hy' hin
        have hne : sols ≠ [] := by rintro rfl; simp at hsol
        have hproper : ∀ s ∈ sols, SolveResult.Proper s := by
          intro s hs
          obtain ⟨-, q, hq, -⟩ := hz s hs
          exact proper_of_fin hq
        obtain ⟨hperm, k, hk, hmin, -⟩ := SolveResult.C12_incumbent sols hproper hne
        rw [← h1] at hk hmin
        obtain ⟨-, zb, hzb, hzb2⟩ := hz _ (List.mem_of_getElem? hk)
        refine ⟨by intro h; rw [h] at hzb; simp at hzb, ?_⟩
        have hm := hmin sol hsol
        rw [hzb, hobj, hz1] at hm
        simp only [Dbl.le_fin] at hm
        obtain ⟨b1, b2⟩ := abs_le.1 hzb2
        have e1 := hrep.objective y
        have e2 := hrep.objective (point s.result.best.values)
        split
        · rename_i hmax
          rw [hmax] at e1 e2
          simp only [if_true] at e1 e2
          linarith
        · rename_i hmax
          rw [if_neg hmax] at e1 e2
          linarith
      · exact absurd hin (ha.2 hopt hroot y hy')
  · intro m h y hy
    have hy' : d.Feasible y := ((C09_same_optima p d hrep y).1).2 hy
    obtain ⟨s1, hr, h⟩ := solveFuel_some h
    obtain ⟨bs, sols, hi, ht⟩ := reach_trans hd hp hc hg hs hr
    rcases h with ⟨s2, h1, h2⟩ | ⟨m, h1, h2⟩ | ⟨-, h2⟩ | ⟨-, h2⟩
    · cases h2
    · obtain ⟨w', ha, hopt, hb⟩ := (iterate_trans hd hp hc hi).2.2 m h1
      exact ha.2 hopt (fun y hy => (hb y).1 hy) y hy' ((hb y).2 (feasible_inRoot hy'))
    · cases h2
    · cases h2

/-! ## Termination -/

/-- The branching rule chooses integer variables whose LP value is farther than `gap` from every integer. -/
def BranchesBeyond (o : Oracle W) (d : MipData) (prm : Params) (gap : ℚ) : Prop :=
  ∀ w values w' (col : Nat) up v, o.primal w = .ok values →
    d.solutionIsIntegral values prm.tol = .ok false → o.branch w = .ok (w', (col : Int), up) →
    values[col]? = some v → (col : Int) ∈ d.integerVariables ∧ Branching.Fractional gap v

/-- The LP solver's optimal solutions satisfy the LP's bounds up to `eps`. -/
def NearlyBoundedAnswer (o : Oracle W) (d : MipData) (bounds : W → Int → Dbl × Dbl) (eps : ℚ) (w : W) : Prop :=
  o.isOptimal w = true → ∀ values, o.primal w = .ok values → NearBounds d bounds w eps (point values)

theorem near_floor {eps v y : ℚ} (hv : Branching.Fractional eps v) (h : |v - y| ≤ eps) :
    ⌊y⌋ = ⌊v⌋ ∧ ⌈y⌉ = ⌈v⌉ ∧ ∀ k : Int, y ≠ k := by
  obtain ⟨h1, h2⟩ := abs_le.1 h
  have hf := hv ⌊v⌋
  have hc := hv ⌈v⌉
  have a1 := Int.floor_le v
  have a2 := Int.le_ceil v
  rw [abs_of_nonneg (by linarith)] at hf
  rw [abs_of_nonpos (by linarith)] at hc
  have a3 := Int.ceil_le_floor_add_one v
  have a3' : (⌈v⌉ : ℚ) ≤ ⌊v⌋ + 1 := by exact_mod_cast a3
  have a4 : ⌊v⌋ < ⌈v⌉ := by
    have : (⌊v⌋ : ℚ) < ⌈v⌉ := by linarith [abs_nonneg (v - y)]
    exact_mod_cast this
  have hce : ⌈v⌉ = ⌊v⌋ + 1 := by omega
  have f1 : ⌊y⌋ = ⌊v⌋ := by
    rw [Int.floor_eq_iff]
    constructor
    · linarith
    · linarith
  refine ⟨f1, ?_, ?_⟩
  · rw [Int.ceil_eq_iff, hce]
    push_cast
    rw [hce] at hc
    push_cast at hc
    constructor <;> linarith
  · intro k hk
    have l1 : (⌊v⌋ : ℚ) < k := by linarith
    have l2 : (k : ℚ) < ⌈v⌉ := by linarith
    have l1' : ⌊v⌋ < k := by exact_mod_cast l1
    have l2' : k < ⌈v⌉ := by exact_mod_cast l2
    omega

theorem childBox_congr (b : Box) (col : Nat) {v y : ℚ} (h1 : ⌊y⌋ = ⌊v⌋) (h2 : ⌈y⌉ = ⌈v⌉) (down : Bool) :
    childBox b col y down = childBox b col v down := by
  unfold childBox
  rw [h1, h2]

theorem trans_potential_near {o : Oracle W} {d : MipData} {prm : Params} (hd : DataOk d)
    (hf : FiniteIntegerBounds d) {bounds : W → Int → Dbl × Dbl} {eps : ℚ} (hbr : BranchesBeyond o d prm eps)
    {bs bs' : List Box} {sols sols' : List Solution}
    (h : Trans o d prm bounds (NearlyBoundedAnswer o d bounds eps) bs sols bs' sols') :
    potential d bs' < potential d bs := by
  have hperm : ∀ {b : Box} {bs' : List Box}, bs.Perm (b :: bs') →
      potential d bs = weight d b + potential d bs' := by
    intro b bs' hp
    unfold potential
    rw [(hp.map _).sum_eq]; simp
  cases h with
  | drop h1 h2 h3 h4 =>
    rw [hperm h1]
    exact Nat.lt_add_of_pos_left (weight_pos d _)
  | record h1 h2 h3 h4 h5 h6 =>
    rw [hperm h1]
    exact Nat.lt_add_of_pos_left (weight_pos d _)
  | split h1 h2 h3 h4 h5 h6 h7 h8 =>
    rename_i b bs1 w w' values col up v
    rw [hperm h1]
    obtain ⟨hcol, hv⟩ := hbr w values w' col up v h5 h6 h7 h8
    obtain ⟨x', hx', hnear⟩ := h2 h4 values h5
    obtain ⟨hroot, hbox⟩ := (h3 _).1 hx'
    have hcl : col < d.lower.length := by have := hd.ints col hcol; omega
    have hn := hnear col hcl
    rw [point_eq h8] at hn
    obtain ⟨f1, f2, f3⟩ := near_floor hv hn
    have hlt := weight_children (b := b) hd hf hcol f3 hroot hbox
    rw [childBox_congr b col f1 f2, childBox_congr b col f1 f2] at hlt
    have e : potential d (childBox b col v (!up) :: bs1 ++ [childBox b col v up]) =
        weight d (childBox b col v (!up)) + potential d bs1 + weight d (childBox b col v up) := by
      simp [potential, add_assoc]
    rw [e]
    cases up <;> simp only [Bool.not_true, Bool.not_false] <;> omega

/-- The max-fractional rule branches on variables farther than the integrality tolerance from integers. -/
theorem branchesBeyond_of_max {o : Oracle W} {d : MipData} {prm : Params} (hd : DataOk d)
    (hp : PrimalShape o d.lower.length) (hm : UsesMaxFractional o d prm) (htol : 0 ≤ prm.tol) {eps : ℚ}
    (heps : eps ≤ prm.tol) : BranchesBeyond o d prm eps := by
  intro w values w' col up v hv hi hb hx
  obtain ⟨c, u, v', h1, h2, h3, h4⟩ := maxFractional_fractional hd hp hm htol hv hi
  rw [hb] at h1
  simp only [Outcome.ok.injEq, Prod.mk.injEq] at h1
  obtain ⟨-, h1, -⟩ := h1
  obtain rfl : col = c := by omega
  rw [hx] at h3
  simp only [Option.some.injEq] at h3
  subst h3
  exact ⟨h2, fun k => heps.trans_lt (h4 k)⟩

theorem ends_near (d : MipData) (hd : DataOk d) (hf : FiniteIntegerBounds d) (W : Type) (o : Oracle W)
    (prm : Params) (Good : W → Prop) (bounds : W → Int → Dbl × Dbl) (w : W) (eps : ℚ)
    (hp : PrimalShape o d.lower.length) (hc : Contract o Good bounds (NearlyBoundedAnswer o d bounds eps))
    (hbr : BranchesBeyond o d prm eps) (hg : Good w) (hs : StartsAt d bounds w) :
    solveFuel o d prm (iterationBound d) (initial w) ≠ none := by
  have key : ∀ fuel s bs sols, Inv d Good bounds s bs sols → potential d bs < fuel → solveFuel o d prm fuel s ≠ none := by
    intro fuel
    induction fuel with
    | zero => intro s bs sols _ h; omega
    | succ n ih =>
      intro s bs sols hi hlt
      unfold solveFuel
      split
      · rename_i s' hs'
        obtain ⟨bs', sols', hi', ht⟩ := (iterate_trans hd hp hc hi).1 s' hs'
        exact ih s' bs' sols' hi' (by have := trans_potential_near hd hf hbr ht; omega)
      all_goals simp
  obtain ⟨b, hb, hi⟩ := inv_init (d := d) hg hs
  exact key _ _ _ _ hi (potential_lt hd hf b)

/-- **C89, termination.**  If the integer variables have finite bounds and the optimal solutions of the LP solver
satisfy the LP's bounds up to the integrality tolerance, then `Solve` with the max-fractional rule ends within twice as
many iterations as the box of the integer variables has integer points.

Missing for C89: LP solvers with a larger tolerance (`C89_ends_violated`), the random rule (`C37_random_violated`). -/
theorem C89_ends_partial (d : MipData) (hd : DataOk d) (hf : FiniteIntegerBounds d) (W : Type) (o : Oracle W)
    (prm : Params) (Good : W → Prop) (bounds : W → Int → Dbl × Dbl) (w : W) (eps : ℚ) (heps : eps ≤ prm.tol)
    (htol : 0 ≤ prm.tol) (hp : PrimalShape o d.lower.length)
    (hc : Contract o Good bounds (NearlyBoundedAnswer o d bounds eps)) (hm : UsesMaxFractional o d prm)
    (hg : Good w) (hs : StartsAt d bounds w) : solveFuel o d prm (iterationBound d) (initial w) ≠ none :=
  ends_near d hd hf W o prm Good bounds w eps hp hc (branchesBeyond_of_max hd hp hm htol heps) hg hs

/-- The children of an open box are open, if the LP value is farther from integers than from a point of the box. -/
theorem trans_open_near {o : Oracle W} {d : MipData} {prm : Params} (hd : DataOk d) (hi : IntegralBounds d)
    {bounds : W → Int → Dbl × Dbl} {eps : ℚ} (hbr : BranchesBeyond o d prm eps) :
    KeepsOpen o d prm bounds (NearlyBoundedAnswer o d bounds eps) := by
  intro bs bs' sols sols' h ho
  cases h with
  | drop h1 => exact fun b hb => ho b (h1.mem_iff.2 (by simp [hb]))
  | record h1 => exact fun b hb => ho b (h1.mem_iff.2 (by simp [hb]))
  | split h1 h2 h3 h4 h5 h6 h7 h8 =>
    rename_i b0 bs1 w w' values col up v
    obtain ⟨hcol, hv⟩ := hbr w values w' col up v h5 h6 h7 h8
    obtain ⟨x', hx', hnear⟩ := h2 h4 values h5
    obtain ⟨hroot, hbox⟩ := (h3 _).1 hx'
    have hn := hnear col (by have := hd.ints col hcol; omega)
    rw [point_eq h8] at hn
    obtain ⟨f1, f2, -⟩ := near_floor hv hn
    have hc := fun dn => openBox_child hi (ho b0 (h1.mem_iff.2 (by simp))) (col := col) (v := x' col)
      (fun l u hl hu => hroot col l u hl hu) (hbox col hcol) dn
    simp only [childBox_congr b0 col f1 f2] at hc
    intro b hb
    simp only [List.cons_append, List.mem_cons, List.mem_append, List.not_mem_nil, or_false] at hb
    rcases hb with rfl | hb | rfl
    · exact hc _
    · exact ho b (h1.mem_iff.2 (by simp [hb]))
    · exact hc _

/-! ## An LP solver with an error -/

namespace Line

variable {p : Line} {d : MipData}

/-- The value reported for `x`: too large by `shift`, unless that violates the row. -/
def shifted (p : Line) (shift : ℚ) (w : World) : ℚ :=
  if 2 * (p.value w + shift) ≤ p.b then p.value w + shift else p.value w

/-- The LP solver of the family with an error, with the max-fractional rule. -/
def offOracle (p : Line) (tol shift : ℚ) : Oracle World where
  setBounds := (p.oracle (.maxFractional .unspecified) 0).setBounds
  solve := .ok
  isOptimal := fun w => Dbl.le (p.low w) (p.high w)
  separate := .ok
  objective := fun w => .fin (if p.max then -p.value w else p.value w)
  primal := fun w => .ok [0, p.shifted shift w]
  branch := fun w => Branching.maxFractional (-1) .unspecified tol [1] (.ok [0, p.shifted shift w]) >>=
    fun r => .ok (w, r.1, r.2)

theorem shifted_near {shift : ℚ} (h : 0 ≤ shift) (w : World) : |p.shifted shift w - p.value w| ≤ shift := by
  unfold shifted
  split
  · rw [add_sub_cancel_left, abs_of_nonneg h]
  · simpa using h

theorem shifted_row {shift : ℚ} (h : 0 ≤ shift) {w : World} (h1 : p.a ≤ 2 * p.value w) (h2 : 2 * p.value w ≤ p.b) :
    p.a ≤ 2 * p.shifted shift w ∧ 2 * p.shifted shift w ≤ p.b := by
  unfold shifted
  split
  · exact ⟨by linarith, by assumption⟩
  · exact ⟨h1, h2⟩

theorem offAnswers (h : d.Represents p.problem) (tol : ℚ) {shift : ℚ} (hs : 0 ≤ shift) (w : World) (hg : Good w) :
    ApproximateAnswer (p.offOracle tol shift) d id shift shift w := by
  obtain ⟨hf, ⟨ho1, ho2⟩, -⟩ := answers h (.maxFractional .unspecified) 0 w hg
  have hn := shifted_near (p := p) hs w
  refine ⟨fun hopt values hv => ?_, ho2⟩
  have hv : [0, p.shifted shift w] = values := Outcome.ok.inj hv
  subst hv
  obtain ⟨h1, h2⟩ := hf hopt [0, p.value w] rfl
  obtain ⟨h3, h4⟩ := ho1 hopt [0, p.value w] rfl
  have hlen : d.lower.length = 2 := by rw [h.lower]; rfl
  refine ⟨⟨_, h1, fun n hn' => ?_⟩, ?_, _, rfl, ?_, fun x hx hb => ?_⟩
  · match n with
    | 0 => simpa [point] using hs
    | 1 => simpa [point] using hn
    | n + 2 => omega
  · intro r l u m v hl hu hv
    have hlhs : d.lhs = [.fin p.a] := by rw [h.lhs]; rfl
    have hrhs : d.rhs = [.fin p.b] := by rw [h.rhs]; rfl
    obtain ⟨m', v', hm, -, -, hev, -⟩ := h.rows 0 _ rfl
    have hact := fun x => activity p x _ (List.mem_singleton.2 rfl)
    have hr0 : r = 0 := by
      rw [hlhs] at hl
      have := (List.getElem?_eq_some_iff.1 hl).1
      simpa using this
    subst hr0
    have hh := h2 0 l u m v hl hu hv
    rw [hm] at hv
    simp only [Outcome.ok.injEq, Prod.mk.injEq] at hv
    obtain ⟨-, rfl⟩ := hv
    rw [hlhs] at hl; rw [hrhs] at hu
    simp only [List.getElem?_cons_zero, Option.some.injEq] at hl hu
    subst hl hu
    rw [hev, hact] at hh ⊢
    simp only [Between, Dbl.le_fin, point] at hh
    have := shifted_row (p := p) hs (w := w) (by simpa using hh.1) (by simpa using hh.2)
    simp only [BetweenUpTo, Dbl.le_fin, point]
    simp
    exact ⟨by linarith [this.1], by linarith [this.2]⟩
  · rw [objective h]
    split
    · rw [show -p.value w - -point [0, p.shifted shift w] 1 = p.shifted shift w - p.value w by simp [point]; ring]
      exact hn
    · rw [abs_sub_comm]
      simpa [point] using hn
  · have := h4 x hx hb
    rw [objective h] at this
    have e : point [0, p.value w] 1 = p.value w := by simp [point]
    rw [e] at this
    linarith

theorem offContract (h : d.Represents p.problem) (tol : ℚ) {shift : ℚ} (hs : 0 ≤ shift) :
    Contract (p.offOracle tol shift) Good id (ApproximateAnswer (p.offOracle tol shift) d id shift shift) := by
  have hc := contract h (.maxFractional .unspecified) 0 (fun _ => True) (fun _ _ => trivial)
  constructor
  · exact hc.setBounds
  · intro w w' hg hs'
    have hs' : w = w' := Outcome.ok.inj hs'
    subst hs'
    exact ⟨hg, rfl, offAnswers h tol hs w hg⟩
  · intro w w' hg _ _ hs'
    have hs' : w = w' := Outcome.ok.inj hs'
    subst hs'
    exact ⟨hg, rfl, offAnswers h tol hs w hg⟩
  · intro w w' c up hg hs'
    simp only [offOracle, Outcome.bind_eq_ok] at hs'
    obtain ⟨r, -, hs'⟩ := hs'
    have hs' := Outcome.ok.inj hs'
    simp only [Prod.mk.injEq] at hs'
    obtain ⟨rfl, -⟩ := hs'
    exact ⟨hg, rfl⟩

theorem offShape (h : d.Represents p.problem) (tol shift : ℚ) :
    PrimalShape (p.offOracle tol shift) p.problem.vars.length ∧
    PrimalShape (p.offOracle tol shift) d.lower.length := by
  have hlen : d.lower.length = 2 := by rw [h.lower]; rfl
  constructor
  all_goals
    intro w values hv
    have hv : [0, p.shifted shift w] = values := Outcome.ok.inj hv
    subst hv
  · rfl
  · rw [hlen]; rfl

end Line

open Line

/-- **The bound on the error in `C89_ends_partial` is sharp.**  Whatever the integrality tolerance below one half: if the LP solver
may violate bounds by more than that, then `Solve` need not end.  For `min x`, `0 ≤ x ≤ 1` with an LP solver whose
values are too large by at most `eps` and are otherwise right, `Solve` branches on `x` at the bounds `[0, 0]` forever. -/
theorem C89_ends_violated (tol eps : ℚ) (h0 : 0 ≤ tol) (h1 : tol < 1 / 2) (h2 : tol < eps) :
    ∃ (p : Problem) (d : MipData) (o : Oracle World) (w : World), p.WellFormed ∧ MipData.ofProblem .id p = .ok d ∧
      FiniteIntegerBounds d ∧ UsesMaxFractional o d { tol := tol } ∧
      Contract o Good id (ApproximateAnswer o d id eps eps) ∧ Good w ∧ StartsAt d id w ∧
      ∀ fuel, solveFuel o d { tol := tol } fuel (initial w) = none := by
  let p : Line := { l := 0, u := 1, a := -10, b := 10 }
  let shift := min eps (1 / 2)
  have s0 : 0 ≤ shift := le_min (by linarith) (by norm_num)
  have s1 : tol < shift := lt_min h2 h1
  have s2 : shift ≤ 1 / 2 := min_le_right _ _
  have s3 : shift ≤ eps := min_le_left _ _
  have hfl : ⌊shift⌋ = 0 := by rw [Int.floor_eq_iff]; constructor <;> push_cast <;> linarith
  have hfrac : Branching.Fractional tol shift := by
    intro k
    rcases le_or_gt k 0 with hk | hk
    · have : (k : ℚ) ≤ 0 := by exact_mod_cast hk
      exact lt_of_lt_of_le (by linarith) (le_abs_self _)
    · have : (1 : ℚ) ≤ k := by exact_mod_cast hk
      exact lt_of_lt_of_le (by linarith) (neg_le_abs _)
  have hw : p.problem.WellFormed := wellFormed (by norm_num [p]) (by norm_num [p])
  have hr : p.data.Represents p.problem := represents (by norm_num [p]) (by norm_num [p])
  have hdd := dataOk_of_represents hr
  have hd : MipData.ofProblem .id p.problem = .ok p.data := by
    obtain ⟨d, hd, -⟩ := C09_represents .id _ hw
    unfold data
    rw [hd]
  have hints : p.data.integerVariables = [1] := by decide +kernel
  let o := p.offOracle tol shift
  have hm : UsesMaxFractional o p.data { tol := tol } :=
    ⟨-1, .unspecified, fun _ => .id, fun w values hv => by rw [hints, ← hv]; rfl⟩
  have hc := offContract hr tol s0
  have hshape := (offShape hr tol shift).2
  have hnot : p.data.solutionIsIntegral [0, shift] tol = .ok false := by
    obtain ⟨b, hb, hb2⟩ := MipData.allIntegral_iff [0, shift] tol p.data.integerVariables
      (by rw [hints]; simp)
    have hb : p.data.solutionIsIntegral [0, shift] tol = .ok b := hb
    rw [hb]
    cases b with
    | false => rfl
    | true =>
      obtain ⟨k, hk⟩ := hb2.1 rfl 1 shift (by rw [hints]; simp) rfl
      exact absurd hk (not_le.2 (hfrac k))
  refine ⟨p.problem, p.data, o, p.start, hw, hd, finiteBounds hr, hm, ?_, (startsAt hr).1, (startsAt hr).2, ?_⟩
  · refine ⟨hc.setBounds, fun w w' hg h => ?_, fun w w' hg ha hopt h => ?_, hc.branch⟩
    · obtain ⟨e1, e2, e3⟩ := hc.solve w w' hg h
      exact ⟨e1, e2, e3.mono s3 s3⟩
    · have h : w = w' := Outcome.ok.inj h
      subst h
      exact ⟨hg, rfl, ha⟩
  -- the LP of a box that contains 0 is optimal and reports `shift`
  have zero : ∀ (b : Box) (w : World), b 1 0 →
      (∀ x, InBounds p.data id w x ↔ InRootBounds p.data x ∧ InBox p.data b x) →
      o.isOptimal w = true ∧ o.primal w = .ok [0, shift] := by
    intro b w hb hx
    have hl' : p.data.lower = [.fin 0, .fin 0] := by rw [hr.lower]; rfl
    have hu' : p.data.upper = [.fin 1, .fin 1] := by rw [hr.upper]; rfl
    have hin : InBounds p.data id w (fun _ => 0) := by
      rw [hx]
      refine ⟨?_, fun n hn => ?_⟩
      · intro n l u hl hu
        rw [hl'] at hl; rw [hu'] at hu
        match n with
        | 0 => simp at hl hu; subst hl hu; simp [Between]
        | 1 => simp at hl hu; subst hl hu; norm_num [Between]
        | n + 2 => simp at hl
      · rw [integerVariables hr] at hn
        obtain rfl : n = 1 := by omega
        exact hb
    obtain ⟨h00, hb1, hb2⟩ := (inBounds hr w _).1 hin
    obtain ⟨ho, hn⟩ := optimal_iff p w
    have hl : Dbl.le (p.low w) (.fin 0) = true := (low_le p w _).2 ⟨hb1, by norm_num [p]⟩
    have hh : Dbl.le (.fin 0) (p.high w) = true := (le_high p w _).2 ⟨hb2, by norm_num [p]⟩
    have hopt : Dbl.le (p.low w) (p.high w) = true := by
      by_contra hc
      exact hn (by simpa using hc) _ ⟨hl, hh⟩
    refine ⟨hopt, ?_⟩
    obtain ⟨⟨e1, e2⟩, h2⟩ := ho hopt
    have h3 : p.value w ≤ 0 := h2 _ hl hh
    have h4 : InBounds p.data id w (fun j => if j = 1 then p.value w else 0) := by
      refine (inBounds hr w _).2 ⟨h00, ?_, ?_⟩
      · simpa using ((low_le p w _).1 e1).1
      · simpa using ((le_high p w _).1 e2).1
    have h5 := ((hx _).1 h4).1 1 (.fin 0) (.fin 1) (by rw [hl']; rfl) (by rw [hu']; rfl)
    have h5 : 0 ≤ p.value w := by simpa using h5.1
    have h6 : p.value w = 0 := le_antisymm h3 h5
    show Outcome.ok [0, p.shifted shift w] = _
    have h7 : p.shifted shift w = shift := by
      unfold shifted
      rw [h6, if_pos (by show 2 * (0 + shift) ≤ 10; linarith), zero_add]
    rw [h7]
  have hresp : Responsive o p.data { tol := tol } := by
    refine ⟨?_, fun w => ⟨w, rfl⟩, fun w _ => ⟨w, rfl⟩, fun w _ => ⟨_, rfl⟩, ?_⟩
    · intro w j hj l u
      rw [integerVariables hr] at hj
      exact ⟨_, if_pos hj⟩
    · intro w values hv hi
      obtain ⟨col, up, v, h1, h2, -⟩ := maxFractional_fractional hdd hshape hm h0 hv hi
      exact ⟨w, col, up, h1, hdd.ints _ h2⟩
  have inv : ∀ s, Reach o p.data { tol := tol } (initial p.start) s → ∃ bs sols,
      Inv p.data Good id s bs sols ∧ ∃ b ∈ bs, b 1 0 := by
    intro s h
    induction h with
    | refl =>
      obtain ⟨b, hb, hi⟩ := inv_init (d := p.data) (startsAt hr).1 (startsAt hr).2
      exact ⟨_, _, hi, b, by simp, hb 1 0⟩
    | step _ hs ih =>
      obtain ⟨bs, sols, hi, b0, hb0, hz⟩ := ih
      obtain ⟨bs', sols', hi', ht⟩ := (iterate_trans hdd hshape hc hi).1 _ hs
      refine ⟨bs', sols', hi', ?_⟩
      cases ht with
      | drop h1 h2 h3 h4 =>
        rcases List.mem_cons.1 (h1.mem_iff.1 hb0) with rfl | hb0
        · rw [(zero _ _ hz h3).1] at h4; cases h4
        · exact ⟨b0, hb0, hz⟩
      | record h1 h2 h3 h4 h5 h6 =>
        rcases List.mem_cons.1 (h1.mem_iff.1 hb0) with rfl | hb0
        · rw [(zero _ _ hz h3).2] at h5
          have h5 := Outcome.ok.inj h5
          subst h5
          rw [hnot] at h6; cases h6
        · exact ⟨b0, hb0, hz⟩
      | split h1 h2 h3 h4 h5 h6 h7 h8 =>
        rename_i b bs1 w w' values col up v
        rcases List.mem_cons.1 (h1.mem_iff.1 hb0) with rfl | hb0
        · obtain ⟨col', up', v', e1, e2, -⟩ := maxFractional_fractional hdd hshape hm h0 h5 h6
          rw [h7] at e1
          simp only [Outcome.ok.injEq, Prod.mk.injEq] at e1
          rw [integerVariables hr] at e2
          obtain rfl : col = 1 := by omega
          rw [(zero _ _ hz h3).2] at h5
          have h5 := Outcome.ok.inj h5
          subst h5
          have h8 : shift = v := by simpa using h8
          subst h8
          have hchild : childBox b0 1 shift true 1 0 := ⟨hz, fun _ => by
            rw [if_pos rfl, hfl]; simp⟩
          cases up with
          | true => exact ⟨_, by simp, hchild⟩
          | false => exact ⟨_, by simp, hchild⟩
        · exact ⟨b0, by simp [hb0], hz⟩
  have again : ∀ s, Reach o p.data { tol := tol } (initial p.start) s →
      ∃ s', iterate o p.data { tol := tol } s = .ok (.again s') := by
    intro s h
    obtain ⟨bs, sols, hi, b, hb, hz⟩ := inv s h
    obtain ⟨-, hstop, herr⟩ := iterate_trans (prm := { tol := tol }) hdd hshape hc hi
    have hroot : ∀ w, (∀ x, InBounds p.data id w x ↔ InRootBounds p.data x) →
        o.isOptimal w = true ∧ o.primal w = .ok [0, shift] := fun w hx =>
      zero (fun _ _ => True) w trivial (fun x => by
        rw [hx x]; exact ⟨fun h => ⟨h, fun _ _ => trivial⟩, fun h => h.1⟩)
    rcases C38_never_aborts hdd hshape hresp h with ⟨res, hres⟩ | hres
    · cases res with
      | again s' => exact ⟨s', hres⟩
      | stop s' =>
        obtain ⟨sols', -, hf⟩ := hstop s' hres
        cases hf with
        | empty => simp at hb
        | root _ hx _ hv hint =>
          rw [(hroot _ hx).2] at hv
          have hv := Outcome.ok.inj hv
          subst hv
          rw [hnot] at hint; cases hint
    · obtain ⟨w, -, hopt, hx⟩ := herr _ hres
      rw [(hroot w hx).1] at hopt; cases hopt
  have gen : ∀ fuel s, Reach o p.data { tol := tol } (initial p.start) s →
      solveFuel o p.data { tol := tol } fuel s = none := by
    intro fuel
    induction fuel with
    | zero => intro s _; rfl
    | succ n ih =>
      intro s h
      obtain ⟨s', hs'⟩ := again s h
      unfold solveFuel
      rw [hs']
      exact ih s' (h.step hs')
  exact fun fuel => gen fuel _ .refl

/-- The hypotheses of `C89_approximate` and `C89_ends_partial` are met by `exampleLine` and an LP solver with values too large by
`10⁻⁷`; `Solve` returns `x = 1 + 10⁻⁷` with the objective value `-1`. -/
example :
    let d := exampleLine.data
    let o := exampleLine.offOracle ({} : Params).tol (1 / 10 ^ 7)
    d.Represents exampleLine.problem ∧ PrimalShape o exampleLine.problem.vars.length ∧ DataOk d ∧
    FiniteIntegerBounds d ∧ Contract o Good id (ApproximateAnswer o d id (1 / 10 ^ 7) (1 / 10 ^ 7)) ∧
    Contract o Good id (NearlyBoundedAnswer o d id (1 / 10 ^ 7)) ∧ UsesMaxFractional o d {} ∧
    Good exampleLine.start ∧ StartsAt d id exampleLine.start ∧
    (solveFuel o d {} 4 (initial exampleLine.start)).map (fun out => out >>= fun s => .ok s.result) =
      some (.ok { solveStatus := some 2, best := ⟨[0, 1 + 1 / 10 ^ 7], .fin (-1)⟩ }) := by
  have hr := exampleLine_represents
  have hints : exampleLine.data.integerVariables = [1] := by decide +kernel
  have hc := offContract hr ({} : Params).tol (shift := 1 / 10 ^ 7) (by norm_num)
  refine ⟨hr, (offShape hr _ _).1, dataOk_of_represents hr, finiteBounds hr, hc, ?_, ?_, (startsAt hr).1,
    (startsAt hr).2, by decide +kernel⟩
  · refine ⟨hc.setBounds, fun w w' hg h => ?_, fun w w' hg ha hopt h => ?_, hc.branch⟩
    · obtain ⟨e1, e2, e3⟩ := hc.solve w w' hg h
      exact ⟨e1, e2, fun ho v hv => (e3.1 ho v hv).1⟩
    · have h : w = w' := Outcome.ok.inj h
      subst h
      exact ⟨hg, rfl, ha⟩
  · exact ⟨-1, .unspecified, fun _ => .id, fun w values hv => by rw [hints, ← hv]; rfl⟩

end Solver
end MiniMip
