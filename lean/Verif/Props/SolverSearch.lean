import Verif.Props.Solver
import Mathlib.Algebra.Order.BigOperators.Group.List

/-!
# C35, C36, C37, C40: what the search finds, and that it ends
-/

namespace MiniMip
namespace Solver

variable {W : Type}

/-- The search on boxes: what one iteration that goes on does to the open boxes and to the
recorded solutions, and what is known of the LP's answer. -/
inductive Trans (o : Oracle W) (d : MipData) (prm : Params) (bounds : W → Int → Dbl × Dbl)
    (Answer : W → Prop) : List Box → List Solution → List Box → List Solution → Prop
  | drop {bs b bs' sols w} : bs.Perm (b :: bs') → Answer w →
      (∀ x, InBounds d bounds w x ↔ InRootBounds d x ∧ InBox d b x) → o.isOptimal w = false →
      Trans o d prm bounds Answer bs sols bs' sols
  | record {bs b bs' sols w values} : bs.Perm (b :: bs') → Answer w →
      (∀ x, InBounds d bounds w x ↔ InRootBounds d x ∧ InBox d b x) → o.isOptimal w = true →
      o.primal w = .ok values → d.solutionIsIntegral values prm.tol = .ok true →
      Trans o d prm bounds Answer bs sols bs' (sols ++ [⟨values, o.objective w⟩])
  | split {bs b bs' sols w w' values col up v} : bs.Perm (b :: bs') → Answer w →
      (∀ x, InBounds d bounds w x ↔ InRootBounds d x ∧ InBox d b x) → o.isOptimal w = true →
      o.primal w = .ok values → d.solutionIsIntegral values prm.tol = .ok false →
      o.branch w = .ok (w', ((col : Nat) : Int), up) → values[col]? = some v →
      Trans o d prm bounds Answer bs sols
        (childBox b col v (!up) :: bs' ++ [childBox b col v up]) sols

/-- The last iteration: nothing left, or the LP optimum of the root is integral. -/
inductive Final (o : Oracle W) (d : MipData) (prm : Params) (bounds : W → Int → Dbl × Dbl)
    (Answer : W → Prop) : List Box → List Solution → List Solution → Prop
  | empty {sols} : Final o d prm bounds Answer [] sols sols
  | root {bs sols w values} : Answer w → (∀ x, InBounds d bounds w x ↔ InRootBounds d x) →
      o.isOptimal w = true →
      o.primal w = .ok values → d.solutionIsIntegral values prm.tol = .ok true →
      Final o d prm bounds Answer bs sols (sols ++ [⟨values, o.objective w⟩])

/-- The invariant of the loop. -/
structure Inv (d : MipData) (Good : W → Prop) (bounds : W → Int → Dbl × Dbl) (s : State W)
    (bs : List Box) (sols : List Solution) : Prop where
  sim : Sim d.lower.length s.queue s.tree bs
  good : Good s.world
  kept : ContinuousKept d bounds s.world
  result : s.result = ({} : SolveResult).addAll sols

theorem addAll_snoc (sols : List Solution) (s : Solution) :
    ({} : SolveResult).addAll (sols ++ [s]) = (({} : SolveResult).addAll sols).addSolution s := by
  simp [SolveResult.addAll]

/-- Everything an iteration can do, given the contract of the LP solver. -/
theorem iterate_trans {o : Oracle W} {d : MipData} {prm : Params} {Good : W → Prop}
    {bounds : W → Int → Dbl × Dbl} {Answer : W → Prop} (hd : DataOk d)
    (hp : PrimalShape o d.lower.length) (hc : Contract o Good bounds Answer) {s : State W}
    {bs : List Box} {sols : List Solution} (h : Inv d Good bounds s bs sols) :
    (∀ s', iterate o d prm s = .ok (.again s') → ∃ bs' sols', Inv d Good bounds s' bs' sols' ∧
      Trans o d prm bounds Answer bs sols bs' sols') ∧
    (∀ s', iterate o d prm s = .ok (.stop s') → ∃ sols',
      s'.result = ({} : SolveResult).addAll sols' ∧ Final o d prm bounds Answer bs sols sols') ∧
    ∀ m, iterate o d prm s = .error m → ∃ w, Answer w ∧ o.isOptimal w = false ∧
      ∀ x, InBounds d bounds w x ↔ InRootBounds d x := by
  refine ⟨?_, ?_, ?_⟩
  · intro s' hi
    cases iterate_spec hd hp h.sim hi with
    | @infeasible b bs' lb ub w _ h1 h2 h3 h4 h5 h6 h7 =>
      obtain ⟨g, k⟩ := world_step hc h.good h.kept h3
      refine ⟨bs', sols, ⟨h5, by rw [h6]; exact g, by rw [h6]; exact k, by rw [h7, h.result]⟩,
        .drop h1.perm (solveNode_spec hc h.good h3).2.1 (inBounds_iff hd hc h2 h.good h.kept h3) h4⟩
    | @integral b bs' lb ub w values s2 _ h1 h2 h3 h4 h5 h6 h7 h8 h9 h10 =>
      obtain ⟨g, k⟩ := world_step hc h.good h.kept h3
      rcases h10 with h10 | ⟨h10, -⟩
      · cases h10
        refine ⟨bs', _, ⟨h7, by rw [h8]; exact g, by rw [h8]; exact k, ?_⟩,
          .record h1.perm (solveNode_spec hc h.good h3).2.1
            (inBounds_iff hd hc h2 h.good h.kept h3) h4 h5 h6⟩
        rw [h9, h.result, addAll_snoc]
      · cases h10
    | @branch b bs' lb ub w w' values col up v _ h1 h2 h3 h4 h5 h6 h7 h8 h9 h10 h11 =>
      obtain ⟨g, k⟩ := world_step hc h.good h.kept h3
      obtain ⟨g', k'⟩ := hc.branch w w' _ _ g h7
      refine ⟨_, sols, ⟨h9, by rw [h10]; exact g', ?_, by rw [h11, h.result]⟩,
        .split h1.perm (solveNode_spec hc h.good h3).2.1
          (inBounds_iff hd hc h2 h.good h.kept h3) h4 h5 h6 h7 h8⟩
      rw [h10]
      intro n l u hn hl hu
      rw [k']; exact k n l u hn hl hu
  · intro s' hi
    cases iterate_spec hd hp h.sim hi with
    | empty h1 => subst h1; exact ⟨sols, h.result, .empty⟩
    | @integral b bs' lb ub w values s2 _ h1 h2 h3 h4 h5 h6 h7 h8 h9 h10 =>
      rcases h10 with h10 | ⟨h10, hall⟩
      · cases h10
      · cases h10
        refine ⟨_, by rw [h9, h.result, addAll_snoc], .root (solveNode_spec hc h.good h3).2.1 ?_ h4 h5 h6⟩
        intro x
        rw [inBounds_iff hd hc h2 h.good h.kept h3 x]
        exact ⟨fun hx => hx.1, fun hx => ⟨hx, fun n _ => hall n _⟩⟩
  · intro m hi
    obtain ⟨b, bs', lb, ub, w, h1, h2, h3, h4, h5⟩ := iterate_error hd hp h.sim hi
    refine ⟨w, (solveNode_spec hc h.good h4).2.1, h5, fun x => ?_⟩
    rw [inBounds_iff hd hc h3 h.good h.kept h4 x]
    exact ⟨fun hx => hx.1, fun hx => ⟨hx, fun n _ => h2 n _⟩⟩

/-- Sequences of transitions. -/
inductive TransStar (o : Oracle W) (d : MipData) (prm : Params) (bounds : W → Int → Dbl × Dbl)
    (Answer : W → Prop) : List Box → List Solution → Prop
  | init {bs : List Box} : bs ≠ [] → (∀ b ∈ bs, ∀ j y, b j y) → TransStar o d prm bounds Answer bs []
  | step {bs sols bs' sols'} : TransStar o d prm bounds Answer bs sols →
      Trans o d prm bounds Answer bs sols bs' sols' → TransStar o d prm bounds Answer bs' sols'

theorem inv_init {d : MipData} {Good : W → Prop} {bounds : W → Int → Dbl × Dbl} {w : W}
    (hg : Good w) (hs : StartsAt d bounds w) :
    ∃ b : Box, (∀ j y, b j y) ∧ Inv d Good bounds (initial w) [b] [] :=
  ⟨_, boxOf_init, sim_init _, hg, fun n l u _ hl hu => hs n l u hl hu, rfl⟩

theorem reach_trans_from {o : Oracle W} {d : MipData} {prm : Params} {Good : W → Prop}
    {bounds : W → Int → Dbl × Dbl} {Answer : W → Prop} (hd : DataOk d)
    (hp : PrimalShape o d.lower.length) (hc : Contract o Good bounds Answer) {s₀ : State W}
    {bs₀ : List Box} {sols₀ : List Solution} (hi₀ : Inv d Good bounds s₀ bs₀ sols₀)
    (ht₀ : TransStar o d prm bounds Answer bs₀ sols₀) {s : State W} (h : Reach o d prm s₀ s) :
    ∃ bs sols, Inv d Good bounds s bs sols ∧ TransStar o d prm bounds Answer bs sols := by
  induction h with
  | refl => exact ⟨_, _, hi₀, ht₀⟩
  | step _ hi ih =>
    obtain ⟨bs, sols, h1, h2⟩ := ih
    obtain ⟨bs', sols', h3, h4⟩ := (iterate_trans hd hp hc h1).1 _ hi
    exact ⟨bs', sols', h3, h2.step h4⟩

theorem reach_trans {o : Oracle W} {d : MipData} {prm : Params} {Good : W → Prop}
    {bounds : W → Int → Dbl × Dbl} {Answer : W → Prop} (hd : DataOk d)
    (hp : PrimalShape o d.lower.length) (hc : Contract o Good bounds Answer) {w : W} (hg : Good w)
    (hs : StartsAt d bounds w) {s : State W} (h : Reach o d prm (initial w) s) :
    ∃ bs sols, Inv d Good bounds s bs sols ∧ TransStar o d prm bounds Answer bs sols := by
  obtain ⟨b, hb, hi⟩ := inv_init (d := d) hg hs
  exact reach_trans_from hd hp hc hi (.init (by simp) (by simpa using hb)) h

/-! ## C35 -/

/-- Feasible for the rows and bounds of the problem, and integral within `tol`. -/
def _root_.MiniMip.Problem.FeasibleUpTo (p : Problem) (tol : ℚ) (x : Int → ℚ) : Prop :=
  (∀ (n : Nat) (v : Variable), p.vars[n]? = some v →
    Between v.lower (x n) v.upper ∧ (v.isInteger = true → ∃ k : Int, |x n - k| ≤ tol)) ∧
  ∀ c ∈ p.constraints, Between c.lhs (c.activity x) c.rhs

/-- The LP solver's optimal solutions satisfy the LP's bounds and the original rows. -/
def FeasibleAnswer (o : Oracle W) (d : MipData) (bounds : W → Int → Dbl × Dbl) (w : W) : Prop :=
  o.isOptimal w = true → ∀ values, o.primal w = .ok values →
    InBounds d bounds w (point values) ∧ RowsHold d (point values)

theorem feasibleUpTo_of {d : MipData} {p : Problem} (h : d.Represents p) {tol : ℚ}
    {values : List ℚ} (hlen : values.length = d.lower.length)
    (hb : InRootBounds d (point values)) (hr : RowsHold d (point values))
    (hi : d.solutionIsIntegral values tol = .ok true) : p.FeasibleUpTo tol (point values) := by
  have hd := dataOk_of_represents h
  obtain ⟨b, h1, h2⟩ := MipData.allIntegral_iff values tol d.integerVariables
    (fun j hj => by rw [hlen]; exact hd.ints j hj)
  have h1' : d.solutionIsIntegral values tol = .ok b := h1
  rw [hi] at h1'
  simp only [Outcome.ok.injEq] at h1'
  subst h1'
  have h3 := h2.1 rfl
  refine ⟨fun n v hv => ⟨?_, fun hint => ?_⟩, fun c hc => ?_⟩
  · exact hb n v.lower v.upper (by rw [h.lower]; simp [hv]) (by rw [h.upper]; simp [hv])
  · have hn : n < values.length := by
      rw [hlen, h.lower]; simpa using (List.getElem?_eq_some_iff.1 hv).1
    have hx : values[n]? = some values[n] := by simp [hn]
    rw [point_eq hx]
    exact h3 n _ ((h.integers n).2 ⟨n, v, hv, hint, rfl⟩) hx
  · obtain ⟨k, hk⟩ := List.getElem?_of_mem hc
    obtain ⟨m, v, hm, -, -, hev, -⟩ := h.rows k c hk
    have := hr k c.lhs c.rhs m v (by rw [h.lhs]; simp [hk]) (by rw [h.rhs]; simp [hk]) hm
    rwa [hev] at this

/-- What `AddSolution` keeps: everything stored was added, or is the empty default. -/
theorem addAll_mem (sols : List Solution) :
    ((({} : SolveResult).addAll sols).best = {} ∨ (({} : SolveResult).addAll sols).best ∈ sols) ∧
    ∀ s ∈ (({} : SolveResult).addAll sols).additional, s ∈ sols := by
  induction sols using List.reverseRecOn with
  | nil => simp [SolveResult.addAll]
  | append_singleton l s ih =>
    rw [addAll_snoc]
    obtain ⟨h1, h2⟩ := ih
    unfold SolveResult.addSolution
    split
    · split
      · rename_i hne
        refine ⟨Or.inr (by simp), ?_⟩
        intro x hx
        simp only [List.mem_append, List.mem_singleton] at hx
        rcases hx with hx | rfl
        · simp [h2 x hx]
        · rcases h1 with h1 | h1
          · rw [h1] at hne; simp [Dbl.ne, Dbl.eq] at hne
          · simp [h1]
      · exact ⟨Or.inr (by simp), fun x hx => by simp [h2 x hx]⟩
    · refine ⟨?_, ?_⟩
      · rcases h1 with h1 | h1
        · exact Or.inl h1
        · exact Or.inr (by simp [h1])
      · intro x hx
        simp only [List.mem_append, List.mem_singleton] at hx
        rcases hx with hx | rfl
        · simp [h2 x hx]
        · simp

/-- The solutions stored in a run from any state of a search. -/
theorem feasible_from {p : Problem} {d : MipData} (hrep : d.Represents p)
    {o : Oracle W} {prm : Params} {Good : W → Prop} {bounds : W → Int → Dbl × Dbl}
    (hp : PrimalShape o p.vars.length) (hc : Contract o Good bounds (FeasibleAnswer o d bounds))
    {s₀ : State W} {bs₀ : List Box} {sols₀ : List Solution} (hi₀ : Inv d Good bounds s₀ bs₀ sols₀)
    (ht₀ : TransStar o d prm bounds (FeasibleAnswer o d bounds) bs₀ sols₀) :
    (∀ s, Reach o d prm s₀ s →
      (s.result.best = {} ∨ p.FeasibleUpTo prm.tol (point s.result.best.values)) ∧
      ∀ sol ∈ s.result.additional, p.FeasibleUpTo prm.tol (point sol.values)) ∧
    ∀ fuel s, solveFuel o d prm fuel s₀ = some (.ok s) →
      (s.result.best = {} ∨ p.FeasibleUpTo prm.tol (point s.result.best.values)) ∧
      ∀ sol ∈ s.result.additional, p.FeasibleUpTo prm.tol (point sol.values) := by
  have hd := dataOk_of_represents hrep
  have hlen : p.vars.length = d.lower.length := by rw [hrep.lower]; simp
  rw [hlen] at hp
  have key : ∀ bs sols, TransStar o d prm bounds (FeasibleAnswer o d bounds) bs sols →
      ∀ sol ∈ sols, p.FeasibleUpTo prm.tol (point sol.values) := by
    intro bs sols h
    induction h with
    | init => simp
    | step _ ht ih =>
      cases ht with
      | drop => exact ih
      | record _ h2 h3 h4 h5 h6 =>
        intro sol hsol
        rcases List.mem_append.1 hsol with hsol | hsol
        · exact ih sol hsol
        · simp only [List.mem_singleton] at hsol
          subst hsol
          obtain ⟨hb, hr⟩ := h2 h4 _ h5
          exact feasibleUpTo_of hrep (hp _ _ h5) ((h3 _).1 hb).1 hr h6
      | split => exact ih
  have res : ∀ sols : List Solution, (∀ sol ∈ sols, p.FeasibleUpTo prm.tol (point sol.values)) →
      ((({} : SolveResult).addAll sols).best = {} ∨
        p.FeasibleUpTo prm.tol (point (({} : SolveResult).addAll sols).best.values)) ∧
      ∀ sol ∈ (({} : SolveResult).addAll sols).additional, p.FeasibleUpTo prm.tol (point sol.values) := by
    intro sols hall
    obtain ⟨h1, h2⟩ := addAll_mem sols
    refine ⟨?_, fun sol hsol => hall sol (h2 sol hsol)⟩
    rcases h1 with h1 | h1
    · exact Or.inl h1
    · exact Or.inr (hall _ h1)
  constructor
  · intro s h
    obtain ⟨bs, sols, hi, ht⟩ := reach_trans_from hd hp hc hi₀ ht₀ h
    rw [hi.result]
    exact res sols (key bs sols ht)
  · intro fuel s h
    obtain ⟨s1, hr, h⟩ := solveFuel_some h
    obtain ⟨bs, sols, hi, ht⟩ := reach_trans_from hd hp hc hi₀ ht₀ hr
    rcases h with ⟨s2, h1, h2⟩ | ⟨m, -, h2⟩ | ⟨-, h2⟩ | ⟨-, h2⟩
    · obtain ⟨sols', h3, h4⟩ := (iterate_trans hd hp hc hi).2.1 s2 h1
      have h2 := Outcome.ok.inj h2
      subst h2
      show (s2.result.best = {} ∨ _) ∧ ∀ sol ∈ s2.result.additional, _
      rw [h3]
      apply res
      cases h4 with
      | empty => exact key _ _ ht
      | root ha hb hopt hv hint =>
        intro sol hsol
        rcases List.mem_append.1 hsol with hsol | hsol
        · exact key _ _ ht sol hsol
        · simp only [List.mem_singleton] at hsol
          subst hsol
          obtain ⟨hb', hr'⟩ := ha hopt _ hv
          exact feasibleUpTo_of hrep (hp _ _ hv) ((hb _).1 hb') hr' hint
    · cases h2
    · cases h2
    · cases h2

/-- **C35.**  For every problem, every LP solver whose optimal solutions satisfy the LP's
current bounds and the original rows (with whatever cuts, answers and branching decisions
otherwise), every state the search reaches and however `Solve` ends: each solution stored
in the result is feasible for the rows and bounds of the problem and integral within the
tolerance.  (A result without a solution holds the empty default, with objective +∞.) -/
theorem C35_solutions_feasible {p : Problem} {d : MipData} (hrep : d.Represents p)
    {o : Oracle W} {prm : Params} {Good : W → Prop} {bounds : W → Int → Dbl × Dbl}
    (hp : PrimalShape o p.vars.length) (hc : Contract o Good bounds (FeasibleAnswer o d bounds))
    {w : W} (hg : Good w) (hs : StartsAt d bounds w) :
    (∀ s, Reach o d prm (initial w) s →
      (s.result.best = {} ∨ p.FeasibleUpTo prm.tol (point s.result.best.values)) ∧
      ∀ sol ∈ s.result.additional, p.FeasibleUpTo prm.tol (point sol.values)) ∧
    ∀ fuel s, solveFuel o d prm fuel (initial w) = some (.ok s) →
      (s.result.best = {} ∨ p.FeasibleUpTo prm.tol (point s.result.best.values)) ∧
      ∀ sol ∈ s.result.additional, p.FeasibleUpTo prm.tol (point sol.values) := by
  obtain ⟨b, hb, hi⟩ := inv_init (d := d) hg hs
  exact feasible_from hrep hp hc hi (.init (by simp) (by simpa using hb))

/-! ## C36, C40 -/

/-- The LP solver's answers are right for the points feasible for the problem that lie in
the LP's bounds: an optimal solution has the objective value reported and is at least as
good as each of these points; if the LP is not optimal, with bounds at least as tight as those
of the problem, there is no such point.  (This includes that cuts do not cut off such points, and
that the solver does not stop for another reason than infeasibility.) -/
def OptimalAnswer (o : Oracle W) (d : MipData) (bounds : W → Int → Dbl × Dbl) (w : W) : Prop :=
  (o.isOptimal w = true → ∀ values, o.primal w = .ok values →
    o.objective w = .fin (d.objective.eval (point values)) ∧
    ∀ x, d.Feasible x → InBounds d bounds w x →
      d.objective.eval (point values) ≤ d.objective.eval x) ∧
  (o.isOptimal w = false → (∀ y, InBounds d bounds w y → InRootBounds d y) →
    ∀ x, d.Feasible x → ¬ InBounds d bounds w x)

theorem feasible_inRoot {d : MipData} {x : Int → ℚ} (h : d.Feasible x) : InRootBounds d x := h.1

/-- Covering: each feasible point lies in an open box or is matched by a recorded
solution. -/
theorem trans_cover {o : Oracle W} {d : MipData} {prm : Params} {bounds : W → Int → Dbl × Dbl}
    {bs : List Box} {sols : List Solution}
    (h : TransStar o d prm bounds (OptimalAnswer o d bounds) bs sols) {x : Int → ℚ}
    (hx : d.Feasible x) :
    (∃ b ∈ bs, InBox d b x) ∨
      ∃ sol ∈ sols, Dbl.le sol.objective (.fin (d.objective.eval x)) = true := by
  induction h with
  | init hne hb =>
    obtain ⟨b, hbm⟩ := List.exists_mem_of_ne_nil _ hne
    exact Or.inl ⟨b, hbm, fun n _ => hb b hbm n _⟩
  | step _ ht ih =>
    cases ht with
    | drop h1 h2 h3 h4 =>
      rcases ih with ⟨b', hb', hin⟩ | hs
      · rcases List.mem_cons.1 (h1.mem_iff.1 hb') with rfl | hb'
        · exact absurd ((h3 x).2 ⟨feasible_inRoot hx, hin⟩) (h2.2 h4 (fun y hy => ((h3 y).1 hy).1) x hx)
        · exact Or.inl ⟨b', hb', hin⟩
      · exact Or.inr hs
    | record h1 h2 h3 h4 h5 h6 =>
      rcases ih with ⟨b', hb', hin⟩ | ⟨sol, hsol, hle⟩
      · rcases List.mem_cons.1 (h1.mem_iff.1 hb') with rfl | hb'
        · obtain ⟨e1, e2⟩ := h2.1 h4 _ h5
          refine Or.inr ⟨_, List.mem_append_right _ (List.mem_singleton.2 rfl), ?_⟩
          simp only [e1, Dbl.le_fin]
          exact e2 x hx ((h3 x).2 ⟨feasible_inRoot hx, hin⟩)
        · exact Or.inl ⟨b', hb', hin⟩
      · exact Or.inr ⟨sol, List.mem_append_left _ hsol, hle⟩
    | split h1 h2 h3 h4 h5 h6 h7 h8 =>
      rename_i b0 bs0 w w' values col up v
      rcases ih with ⟨b', hb', hin⟩ | hs
      · rcases List.mem_cons.1 (h1.mem_iff.1 hb') with rfl | hb'
        · left
          -- the integer value of the branching variable is in one of the children
          by_cases hint : ((col : Nat) : Int) ∈ d.integerVariables
          · obtain ⟨k, hk⟩ := hx.2.1 _ hint
            have hside : ∃ dn : Bool, if dn then x col ≤ ⌊v⌋ else (⌈v⌉ : ℚ) ≤ x col := by
              rw [hk]
              rcases (MipTree.C18_branching v).1 k with hs | hs
              · exact ⟨true, by simpa using hs⟩
              · exact ⟨false, by simpa using hs⟩
            obtain ⟨dn, hdn⟩ := hside
            have hc : InBox d (childBox b' col v dn) x := by
              intro n hn
              refine ⟨hin n hn, ?_⟩
              rintro rfl
              exact hdn
            by_cases hup : dn = up
            · subst hup
              exact ⟨childBox b' col v dn, by simp, hc⟩
            · have : dn = !up := by cases dn <;> cases up <;> simp_all
              subst this
              exact ⟨childBox b' col v (!up), by simp, hc⟩
          · refine ⟨childBox b' col v up, by simp, ?_⟩
            intro n hn
            refine ⟨hin n hn, ?_⟩
            rintro rfl
            exact absurd hn hint
        · exact Or.inl ⟨b', by simp [hb'], hin⟩
      · exact Or.inr hs

/-- Recorded objective values are the internal objective at the recorded point. -/
theorem trans_objective {o : Oracle W} {d : MipData} {prm : Params} {bounds : W → Int → Dbl × Dbl}
    {bs : List Box} {sols : List Solution}
    (h : TransStar o d prm bounds (OptimalAnswer o d bounds) bs sols) :
    ∀ sol ∈ sols, sol.objective = .fin (d.objective.eval (point sol.values)) := by
  induction h with
  | init => simp
  | step _ ht ih =>
    cases ht with
    | drop => exact ih
    | record h1 h2 h3 h4 h5 h6 =>
      intro sol hsol
      rcases List.mem_append.1 hsol with hsol | hsol
      · exact ih sol hsol
      · simp only [List.mem_singleton] at hsol
        subst hsol
        exact (h2.1 h4 _ h5).1
    | split => exact ih

/-- When `Solve` returns OK: the recorded solutions, and that they match every feasible
point. -/
theorem solve_ok_from {o : Oracle W} {d : MipData} {prm : Params} {Good : W → Prop}
    {bounds : W → Int → Dbl × Dbl} (hd : DataOk d) (hp : PrimalShape o d.lower.length)
    (hc : Contract o Good bounds (OptimalAnswer o d bounds)) {s₀ : State W} {bs₀ : List Box}
    {sols₀ : List Solution} (hi₀ : Inv d Good bounds s₀ bs₀ sols₀)
    (ht₀ : TransStar o d prm bounds (OptimalAnswer o d bounds) bs₀ sols₀) {fuel : Nat} {s : State W}
    (h : solveFuel o d prm fuel s₀ = some (.ok s)) :
    ∃ sols, s.result.best = (({} : SolveResult).addAll sols).best ∧
      s.result.additional = (({} : SolveResult).addAll sols).additional ∧
      (∀ sol ∈ sols, sol.objective = .fin (d.objective.eval (point sol.values))) ∧
      ∀ x, d.Feasible x → ∃ sol ∈ sols, Dbl.le sol.objective (.fin (d.objective.eval x)) = true := by
  obtain ⟨s1, hr, h⟩ := solveFuel_some h
  obtain ⟨bs, sols, hi, ht⟩ := reach_trans_from hd hp hc hi₀ ht₀ hr
  rcases h with ⟨s2, h1, h2⟩ | ⟨m, -, h2⟩ | ⟨-, h2⟩ | ⟨-, h2⟩
  · obtain ⟨sols', h3, h4⟩ := (iterate_trans hd hp hc hi).2.1 s2 h1
    have h2 := Outcome.ok.inj h2
    subst h2
    refine ⟨sols', by show s2.result.best = _; rw [h3], by show s2.result.additional = _; rw [h3], ?_⟩
    cases h4 with
    | empty =>
      refine ⟨trans_objective ht, fun x hx => ?_⟩
      rcases trans_cover ht hx with ⟨b, hb, -⟩ | hs
      · simp at hb
      · exact hs
    | root ha hb hopt hv hint =>
      obtain ⟨e1, e2⟩ := ha.1 hopt _ hv
      refine ⟨?_, fun x hx => ⟨_, List.mem_append_right _ (List.mem_singleton.2 rfl), ?_⟩⟩
      · intro sol hsol
        rcases List.mem_append.1 hsol with hsol | hsol
        · exact trans_objective ht sol hsol
        · simp only [List.mem_singleton] at hsol
          subst hsol; exact e1
      · simp only [e1, Dbl.le_fin]
        exact e2 x hx ((hb x).2 (feasible_inRoot hx))
  · cases h2
  · cases h2
  · cases h2

theorem solve_ok {o : Oracle W} {d : MipData} {prm : Params} {Good : W → Prop}
    {bounds : W → Int → Dbl × Dbl} (hd : DataOk d) (hp : PrimalShape o d.lower.length)
    (hc : Contract o Good bounds (OptimalAnswer o d bounds)) {w : W} (hg : Good w)
    (hs : StartsAt d bounds w) {fuel : Nat} {s : State W}
    (h : solveFuel o d prm fuel (initial w) = some (.ok s)) :
    ∃ sols, s.result.best = (({} : SolveResult).addAll sols).best ∧
      s.result.additional = (({} : SolveResult).addAll sols).additional ∧
      (∀ sol ∈ sols, sol.objective = .fin (d.objective.eval (point sol.values))) ∧
      ∀ x, d.Feasible x → ∃ sol ∈ sols, Dbl.le sol.objective (.fin (d.objective.eval x)) = true := by
  obtain ⟨b, hb, hi⟩ := inv_init (d := d) hg hs
  exact solve_ok_from hd hp hc hi (.init (by simp) (by simpa using hb)) h

theorem proper_of_fin {s : Solution} {q : ℚ} (h : s.objective = .fin q) : SolveResult.Proper s := by
  simp [SolveResult.Proper, h, Dbl.lt]

/-- The best solution of a run from any state of a search. -/
theorem optimal_from {p : Problem} {d : MipData} (hrep : d.Represents p)
    {o : Oracle W} {prm : Params} {Good : W → Prop} {bounds : W → Int → Dbl × Dbl}
    (hp : PrimalShape o p.vars.length) (hc : Contract o Good bounds (OptimalAnswer o d bounds))
    {s₀ : State W} {bs₀ : List Box} {sols₀ : List Solution} (hi₀ : Inv d Good bounds s₀ bs₀ sols₀)
    (ht₀ : TransStar o d prm bounds (OptimalAnswer o d bounds) bs₀ sols₀) {fuel : Nat} :
    (∀ s, solveFuel o d prm fuel s₀ = some (.ok s) → ∀ y, p.Feasible y →
      s.result.best ≠ {} ∧
      if p.isMaximization then p.userObjective y ≤ p.userObjective (point s.result.best.values)
      else p.userObjective (point s.result.best.values) ≤ p.userObjective y) ∧
    ∀ m, solveFuel o d prm fuel s₀ = some (.error m) → ∀ y, ¬ p.Feasible y := by
  have hd := dataOk_of_represents hrep
  have hlen : p.vars.length = d.lower.length := by rw [hrep.lower]; simp
  rw [hlen] at hp
  constructor
  · intro s h y hy
    obtain ⟨sols, h1, h2, h3, h4⟩ := solve_ok_from hd hp hc hi₀ ht₀ h
    have hy' : d.Feasible y := ((C09_same_optima p d hrep y).1).2 hy
    obtain ⟨sol, hsol, hle⟩ := h4 y hy'
    have hne : sols ≠ [] := by rintro rfl; simp at hsol
    obtain ⟨hperm, k, hk, hmin, -⟩ := SolveResult.C12_incumbent sols
      (fun s hs => proper_of_fin (h3 s hs)) hne
    rw [← h1] at hk hmin
    have hbest := List.mem_of_getElem? hk
    have hobj := h3 _ hbest
    refine ⟨by intro h; rw [h] at hobj; simp at hobj, ?_⟩
    have hm := hmin sol hsol
    rw [hobj, h3 sol hsol] at hm
    rw [h3 sol hsol] at hle
    simp only [Dbl.le_fin] at hm hle
    have e1 := hrep.objective y
    have e2 := hrep.objective (point s.result.best.values)
    split
    · rename_i hmax
      rw [hmax] at e1 e2
      simp only [if_true] at e1 e2
      linarith
    · rename_i hmax
      rw [if_neg hmax] at e1 e2
      linarith
  · intro m h y hy
    have hy' : d.Feasible y := ((C09_same_optima p d hrep y).1).2 hy
    obtain ⟨s1, hr, h⟩ := solveFuel_some h
    obtain ⟨bs, sols, hi, ht⟩ := reach_trans_from hd hp hc hi₀ ht₀ hr
    rcases h with ⟨s2, h1, h2⟩ | ⟨m, h1, h2⟩ | ⟨-, h2⟩ | ⟨-, h2⟩
    · cases h2
    · obtain ⟨w', ha, hopt, hb⟩ := (iterate_trans hd hp hc hi).2.2 m h1
      exact ha.2 hopt (fun y hy => (hb y).1 hy) y hy' ((hb y).2 (feasible_inRoot hy'))
    · cases h2
    · cases h2

/-- **C36, what holds.**  For every problem and every LP oracle with right answers, whatever
the branching rule decides and wherever the search goes: if `Solve` returns OK, then for
every feasible point there is a recorded best solution and it is at least as good in the
user's objective; and if `Solve` reports the error of a non-optimal root LP, the problem
has no feasible point.

Missing for C36: when there is no feasible point but the root LP is feasible, `Solve`
returns OK with status "optimal"; see `C36_infeasible_reported_optimal_violated`. -/
theorem C36_optimal_partial {p : Problem} {d : MipData} (hrep : d.Represents p)
    {o : Oracle W} {prm : Params} {Good : W → Prop} {bounds : W → Int → Dbl × Dbl}
    (hp : PrimalShape o p.vars.length) (hc : Contract o Good bounds (OptimalAnswer o d bounds))
    {w : W} (hg : Good w) (hs : StartsAt d bounds w) {fuel : Nat} :
    (∀ s, solveFuel o d prm fuel (initial w) = some (.ok s) → ∀ y, p.Feasible y →
      s.result.best ≠ {} ∧
      if p.isMaximization then p.userObjective y ≤ p.userObjective (point s.result.best.values)
      else p.userObjective (point s.result.best.values) ≤ p.userObjective y) ∧
    ∀ m, solveFuel o d prm fuel (initial w) = some (.error m) → ∀ y, ¬ p.Feasible y := by
  obtain ⟨b, hb, hi⟩ := inv_init (d := d) hg hs
  exact optimal_from hrep hp hc hi (.init (by simp) (by simpa using hb))

theorem objectiveFrom_zero (l : List Variable) : ∀ k, objectiveFrom k l (fun _ => 0) = 0 := by
  induction l with
  | nil => intro k; rfl
  | cons v r ih => intro k; simp [objectiveFrom, ih]

/-- The stored offset is the user's, negated for maximisation. -/
theorem _root_.MiniMip.MipData.Represents.offset {d : MipData} {p : Problem} (h : d.Represents p) :
    d.offset = if p.isMaximization then -p.offset else p.offset := by
  have := h.objective (fun _ => 0)
  simpa [SparseVector.eval, evalEntries, Problem.userObjective, objectiveFrom_zero] using this

/-- **C40, what holds.**  For an LP oracle with right answers, the objective value stored
with each solution is the objective of the internal minimisation form without the offset:
the user's objective minus the offset for minimisation, and its negative for maximisation.
It is the user's objective when the problem is a minimisation without offset.

Missing for C40: sense and offset; see `C40_violated`. -/
theorem C40_objective_partial {p : Problem} {d : MipData} (hrep : d.Represents p)
    {o : Oracle W} {prm : Params} {Good : W → Prop} {bounds : W → Int → Dbl × Dbl}
    (hp : PrimalShape o p.vars.length) (hc : Contract o Good bounds (OptimalAnswer o d bounds))
    {w : W} (hg : Good w) (hs : StartsAt d bounds w) {fuel : Nat} {s : State W}
    (h : solveFuel o d prm fuel (initial w) = some (.ok s)) :
    ∀ sol, (sol = s.result.best ∧ sol ≠ {}) ∨ sol ∈ s.result.additional →
      (sol.objective = .fin (if p.isMaximization then
          -(p.userObjective (point sol.values) - p.offset)
        else p.userObjective (point sol.values) - p.offset)) ∧
      (p.isMaximization = false → p.offset = 0 →
        sol.objective = .fin (p.userObjective (point sol.values))) := by
  have hd := dataOk_of_represents hrep
  have hlen : p.vars.length = d.lower.length := by rw [hrep.lower]; simp
  rw [hlen] at hp
  have hoff := hrep.offset
  obtain ⟨sols, h1, h2, h3, -⟩ := solve_ok hd hp hc hg hs h
  intro sol hsol
  obtain ⟨hm1, hm2⟩ := addAll_mem sols
  have hmem : sol ∈ sols := by
    rcases hsol with ⟨rfl, hne⟩ | hsol
    · rw [h1] at hne ⊢
      rcases hm1 with hm1 | hm1
      · exact absurd hm1 hne
      · exact hm1
    · rw [h2] at hsol; exact hm2 sol hsol
  have e := hrep.objective (point sol.values)
  rw [h3 sol hmem]
  constructor
  · congr 1
    split
    · rename_i hmax
      rw [hmax] at e hoff
      simp only [if_true] at e hoff
      linarith
    · rename_i hmax
      rw [if_neg hmax] at e hoff
      linarith
  · intro hmin h0
    rw [hmin] at e hoff
    simp only [Bool.false_eq_true, if_false] at e hoff
    congr 1
    linarith

end Solver
end MiniMip
