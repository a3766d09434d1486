import Verif.Props.ProgramRegistry
import Verif.Props.ProgramTolerance

/-!
# C108: LP solves that stop at a limit

`Solve` asks only whether the LP is optimal (solver.cc:77-96).  An LP whose solve stopped at the time, iteration or
objective limit is not, and its node is closed as if it were infeasible.
-/

namespace MiniMip

namespace Solver

variable {W : Type}

/-- If no LP of an open node is answered, the loop closes them all and ends with the solutions it has. -/
theorem closes_all {o : Oracle W} {d : MipData} {prm : Params} {Good : W → Prop} {bounds : W → Int → Dbl × Dbl}
    {Answer : W → Prop} (hd : DataOk d) (hp : PrimalShape o d.lower.length) (hc : Contract o Good bounds Answer)
    (hroot : ∀ w, Answer w → (∀ x, InBounds d bounds w x ↔ InRootBounds d x) → o.isOptimal w = true ∧
      ∀ values, o.primal w = .ok values → d.solutionIsIntegral values prm.tol ≠ .ok true) (k : Nat) :
    ∀ {s : State W} {bs : List Box} {sols : List Solution}, bs.length = k → Inv d Good bounds s bs sols →
      (∀ b ∈ bs, ∀ w, Answer w → (∀ x, InBounds d bounds w x ↔ InRootBounds d x ∧ InBox d b x) →
        o.isOptimal w = false) →
      (solveFuel o d prm (k + 1) s = none ∨ (∃ s', solveFuel o d prm (k + 1) s = some (.ok s')) ∨
        solveFuel o d prm (k + 1) s = some (.error "The problem is infeasible or unbounded")) →
      ∃ s', solveFuel o d prm (k + 1) s = some (.ok s') ∧
        s'.result = { ({} : SolveResult).addAll sols with solveStatus := some SolveStatus.optimal } := by
  induction k with
  | zero =>
    intro s bs sols hlen hi _ hnever
    obtain rfl := List.length_eq_zero_iff.1 hlen
    obtain ⟨t1, t2, t3⟩ := iterate_trans (prm := prm) hd hp hc hi
    unfold solveFuel at hnever ⊢
    cases hit : iterate o d prm s with
    | ub => rw [hit] at hnever; simp at hnever
    | abort => rw [hit] at hnever; simp at hnever
    | error m =>
      obtain ⟨w, ha, hno, hx⟩ := t3 m hit
      rw [(hroot w ha hx).1] at hno; cases hno
    | ok st =>
      cases st with
      | stop s' =>
        obtain ⟨sols', hres, hf⟩ := t2 s' hit
        cases hf with
        | empty => exact ⟨_, rfl, by rw [hres]⟩
        | root ha hx hopt hv hin => exact absurd hin ((hroot _ ha hx).2 _ hv)
      | again s' =>
        obtain ⟨bs', sols', -, ht⟩ := t1 s' hit
        cases ht with
        | drop hperm => simp at hperm
        | split hperm => simp at hperm
        | record hperm => simp at hperm
  | succ k ih =>
    intro s bs sols hlen hi hall hnever
    obtain ⟨t1, t2, t3⟩ := iterate_trans (prm := prm) hd hp hc hi
    rw [solveFuel] at hnever ⊢
    cases hit : iterate o d prm s with
    | ub => rw [hit] at hnever; simp at hnever
    | abort => rw [hit] at hnever; simp at hnever
    | error m =>
      obtain ⟨w, ha, hno, hx⟩ := t3 m hit
      rw [(hroot w ha hx).1] at hno; cases hno
    | ok st =>
      cases st with
      | stop s' =>
        obtain ⟨sols', hres, hf⟩ := t2 s' hit
        cases hf with
        | empty => simp at hlen
        | root ha hx hopt hv hin => exact absurd hin ((hroot _ ha hx).2 _ hv)
      | again s' =>
        rw [hit] at hnever
        obtain ⟨bs', sols', hi', ht⟩ := t1 s' hit
        cases ht with
        | drop hperm ha hx hno =>
          refine ih ?_ hi' (fun b hb => hall b (hperm.mem_iff.2 (List.mem_cons_of_mem _ hb))) hnever
          have := hperm.length_eq
          simp only [List.length_cons] at this
          omega
        | split hperm ha hx hopt =>
          rw [hall _ (hperm.mem_iff.2 List.mem_cons_self) _ ha hx] at hopt; cases hopt
        | record hperm ha hx hopt =>
          rw [hall _ (hperm.mem_iff.2 List.mem_cons_self) _ ha hx] at hopt; cases hopt

/-- A fractional value at the root, and then no answer in either child. -/
theorem stops_below_root {o : Oracle W} {d : MipData} {prm : Params} {Good : W → Prop} {bounds : W → Int → Dbl × Dbl}
    {Answer : W → Prop} (hd : DataOk d) (hp : PrimalShape o d.lower.length) (hc : Contract o Good bounds Answer)
    (hroot : ∀ w, Answer w → (∀ x, InBounds d bounds w x ↔ InRootBounds d x) → o.isOptimal w = true ∧
      ∀ values, o.primal w = .ok values → d.solutionIsIntegral values prm.tol ≠ .ok true)
    (hchild : ∀ w w' values col up v, Answer w → (∀ x, InBounds d bounds w x ↔ InRootBounds d x) →
      o.primal w = .ok values → d.solutionIsIntegral values prm.tol = .ok false →
      o.branch w = .ok (w', ((col : Nat) : Int), up) → values[col]? = some v → ∀ (b : Box), (∀ j y, b j y) →
      ∀ down r, Answer r → (∀ x, InBounds d bounds r x ↔ InRootBounds d x ∧ InBox d (childBox b col v down) x) →
      o.isOptimal r = false)
    {w : W} (hg : Good w) (hs : StartsAt d bounds w)
    (hnever : solveFuel o d prm 4 (initial w) = none ∨ (∃ s', solveFuel o d prm 4 (initial w) = some (.ok s')) ∨
      solveFuel o d prm 4 (initial w) = some (.error "The problem is infeasible or unbounded")) :
    ∃ s', solveFuel o d prm 4 (initial w) = some (.ok s') ∧
      s'.result = { ({} : SolveResult) with solveStatus := some SolveStatus.optimal } := by
  obtain ⟨b, hb, hi⟩ := inv_init (d := d) hg hs
  have hbox : ∀ r, (∀ x, InBounds d bounds r x ↔ InRootBounds d x ∧ InBox d b x) →
      ∀ x, InBounds d bounds r x ↔ InRootBounds d x :=
    fun r hx x => by rw [hx x]; exact ⟨fun h => h.1, fun h => ⟨h, fun n _ => hb n _⟩⟩
  obtain ⟨t1, t2, t3⟩ := iterate_trans (prm := prm) hd hp hc hi
  rw [solveFuel] at hnever ⊢
  cases hit : iterate o d prm (initial w) with
  | ub => rw [hit] at hnever; simp at hnever
  | abort => rw [hit] at hnever; simp at hnever
  | error m =>
    obtain ⟨w, ha, hno, hx⟩ := t3 m hit
    rw [(hroot w ha hx).1] at hno; cases hno
  | ok st =>
    cases st with
    | stop s' =>
      obtain ⟨sols', hres, hf⟩ := t2 s' hit
      cases hf with
      | root ha hx hopt hv hin => exact absurd hin ((hroot _ ha hx).2 _ hv)
    | again s' =>
      rw [hit] at hnever
      obtain ⟨bs', sols', hi', ht⟩ := t1 s' hit
      cases ht with
      | drop hperm ha hx hno =>
        obtain ⟨rfl, -⟩ := List.cons_eq_cons.1 (List.singleton_perm.1 hperm)
        rw [(hroot _ ha (hbox _ hx)).1] at hno; cases hno
      | record hperm ha hx hopt hv hin =>
        obtain ⟨rfl, -⟩ := List.cons_eq_cons.1 (List.singleton_perm.1 hperm)
        exact absurd hin ((hroot _ ha (hbox _ hx)).2 _ hv)
      | split hperm ha hx hopt hv hin hbr hval =>
        obtain ⟨rfl, rfl⟩ := List.cons_eq_cons.1 (List.singleton_perm.1 hperm)
        refine closes_all hd hp hc hroot 2 rfl hi' ?_ hnever
        intro b' hb' r har hxr
        simp only [List.cons_append, List.nil_append, List.mem_cons, List.not_mem_nil, or_false] at hb'
        rcases hb' with rfl | rfl
        · exact hchild _ _ _ _ _ _ ha (hbox _ hx) hv hin hbr hval _ hb _ _ har hxr
        · exact hchild _ _ _ _ _ _ ha (hbox _ hx) hv hin hbr hval _ hb _ _ har hxr

end Solver

namespace Program

open Glop (LinearProgram Refines Extends)
open Solver (Oracle Contract guard filtered point InBounds InRootBounds InBox childBox ApproximateAt)

variable {generators : List (World → CutRegistry → Outcome (World × List CutData))}
  {select : World → CutRegistry → List CutData → Outcome (World × List CutData)}

/-- The LP code is right up to tolerances where it claims to be optimal: the first half of `ApproximateAnswer`.  Nothing is
said of its other answers: it may stop at a limit, or give up. -/
structure Engine.Honest (e : Engine) (eps delta : ℚ) : Prop where
  glop : ∀ n s, (e.glop n s).2.1 = .optimal → Program.NearlyFeasible s.iface.lp eps (e.glop n s).2.2.2.point ∧
    ∃ z, (e.glop n s).2.2.2.objective = .fin z ∧ |z - s.iface.lp.value (e.glop n s).2.2.2.point| ≤ delta ∧
      ∀ y, s.iface.lp.Feasible y →
        if s.iface.lp.maximize then s.iface.lp.value y ≤ z + delta else z ≤ s.iface.lp.value y + delta
  soplex : ∀ n g, (e.soplex n g).2.1.status = .optimal → Program.NearlyFeasible g.lp eps (e.soplex n g).2.2.point ∧
    ∃ z, (e.soplex n g).2.2.objective = .fin z ∧ |z - g.lp.value (e.soplex n g).2.2.point| ≤ delta ∧
      ∀ y, g.lp.Feasible y →
        if g.lp.maximize then g.lp.value y ≤ z + delta else z ≤ g.lp.value y + delta

/-- The LP code does not claim to be optimal on this LP, some time when it is asked. -/
def Engine.GivesUpOn (e : Engine) (lp : LinearProgram) : Prop :=
  (∃ n s, s.iface.lp = lp ∧ (e.glop n s).2.1 ≠ .optimal) ∨ ∃ n g, g.lp = lp ∧ (e.soplex n g).2.1.status ≠ .optimal

theorem Engine.Honest.solve {e : Engine} {eps delta : ℚ} (he : e.Honest eps delta) {w w' : World}
    (h : w.solve e = .ok w') (ho : w'.lp.isOptimal = true) :
    ∃ z, w'.report.objective = .fin z ∧ |z - w'.lp.program.value w'.report.point| ≤ delta ∧
      ∀ y, w'.lp.program.Feasible y →
        if w'.lp.program.maximize then w'.lp.program.value y ≤ z + delta else z ≤ w'.lp.program.value y + delta := by
  obtain ⟨h1, -, -, h2⟩ := solve_world h
  rw [h1]
  cases hl : w.lp with
  | glop s =>
    rw [hl] at h2
    rw [h2.1]
    exact (he.glop _ _ (h2.2.mp ho)).2
  | soplex g =>
    rw [hl] at h2
    rw [h2.1]
    exact (he.soplex _ _ (h2.2.mp ho)).2

theorem gives_up {e : Engine} {w w' : World} (h : w.solve e = .ok w') (ho : w'.lp.isOptimal = false) :
    e.GivesUpOn w'.lp.program := by
  obtain ⟨h1, -, -, h2⟩ := solve_world h
  rw [h1]
  cases hl : w.lp with
  | glop s =>
    rw [hl] at h2
    exact Or.inl ⟨_, s, rfl, fun h => by rw [h2.2.mpr h] at ho; cases ho⟩
  | soplex g =>
    rw [hl] at h2
    exact Or.inr ⟨_, g, rfl, fun h => by rw [h2.2.mpr h] at ho; cases ho⟩

/-- What honest answers mean for a point that is feasible for no LP on which the LP code gives up. -/
theorem approximateAt_of_honest {e : Engine} {eps delta : ℚ} (he : e.Honest eps delta) {p : Problem}
    (hp : p.WellFormed) {c : Setup.Created} (hd : c.data.Represents p) {lp₀ : LinearProgram}
    (h₀ : Refines lp₀ p.relaxation) {y : Int → ℚ}
    (hy : ∀ lp, Extends lp₀ lp → lp.Feasible y → ¬ e.GivesUpOn lp) (w w' : World) (hw : SoundAt lp₀ y w)
    (hs : w.solve e = .ok w') : ApproximateAt (oracle e c) c.data bounds delta y { world := w' } := by
  have hpr := (solve_world hs).1
  have hgood : Extends lp₀ w'.lp.program := by rw [hpr]; exact hw.good
  have hvalid := hw.valid
  rw [← hpr] at hvalid
  have hlen : w'.lp.program.cols.length = c.data.lower.length := by
    rw [hgood.numCols, h₀.numCols, hd.lower, List.length_map]; rfl
  have hval : ∀ y, w'.lp.program.value y = c.data.objective.eval y := by
    intro y
    rw [hgood.value, h₀.value, (relaxation_points p hp y).2]
    have := hd.objective y
    have ho := hd.offset
    split <;> rename_i hm <;> simp only [hm, if_true, if_false, Bool.false_eq_true] at this ho <;> linarith
  have hin : InBounds c.data bounds { world := w' } y → w'.lp.program.Feasible y := by
    intro hb
    refine ⟨fun n col hcol => ?_, hvalid⟩
    have hlt := (List.getElem?_eq_some_iff.mp hcol).1
    have := hb n (by rw [← hlen]; exact hlt)
    rw [bounds_nat] at this
    simp only [hcol] at this
    exact this
  have hsense : w'.lp.program.maximize = false := by
    rw [hgood.sense, h₀.sense]; rfl
  constructor
  · intro ho values hv
    obtain ⟨z, h2, h3, h5⟩ := he.solve hs ho
    obtain ⟨-, h4, -⟩ := w'.lp.program.congr (primal_spec hv).2
    rw [← h4, hval] at h3
    refine ⟨z, h2, h3, fun hyb => ?_⟩
    have := h5 y (hin hyb)
    rw [hsense, if_neg (by simp), hval] at this
    exact this
  · intro ho _ hyb
    exact hy _ hgood (hin hyb) (gives_up hs ho)

/-- **C108**, the part that holds.  For every well-formed problem, all parameters that `Create` takes, both LP interfaces,
whatever cut generators and cut selector that only read the LP, and whatever LP code that is right up to tolerances when
it claims to be optimal: if `Solve` returns OK, and a feasible point of the user's problem that satisfies the cuts in the
registry is more than `2 * delta` better than the best solution, or there is no solution at all, then the LP code gives up on an LP
that has this point among its feasible ones.  That LP consists of the rows of the first one and further rows, with other
bounds.  So nothing but LPs given up on makes `Solve` call a wrong answer optimal.  The full property fails: the
LPs given up on are not taken into account (`C108_stopped_violated`). -/
theorem C108_lost_where_stopped_partial {e : Engine} {eps delta : ℚ} (he : e.Honest eps delta) {x : Setup.External}
    {p : Problem} (hp : p.WellFormed) {user : Setup.ParamsMsg} {c : Setup.Created}
    (h : Setup.create x p user = .ok c)
    (hgen : ∀ g ∈ generators, ∀ w reg w' cuts, g w reg = .ok (w', cuts) → w' = w)
    (hsel : ∀ w reg l w' cuts, select w reg l = .ok (w', cuts) → w' = w)
    {fuel : Nat} {s : Solver.State (Runner World)} (hs : customSolve e c generators select fuel = some (.ok s))
    {y : Int → ℚ} (hy : p.Feasible y)
    (hcuts : ∀ cut ∈ s.world.registry.cuts, SparseVector.Clean cut.row.entries ∧ cut.row.eval y ≤ cut.rhs)
    (hbetter : s.result.best = {} ∨
      if p.isMaximization then p.userObjective (point s.result.best.values) + 2 * delta < p.userObjective y
      else p.userObjective y + 2 * delta < p.userObjective (point s.result.best.values)) :
    ∃ lp, Extends (start c.lpi).program lp ∧ lp.Feasible y ∧ e.GivesUpOn lp := by
  by_contra hno
  obtain ⟨hd, h₀⟩ := created_refines hp h
  obtain ⟨h1, h2⟩ := registry_accounts_of hp h hgen hsel
    (approximateAt_of_honest he hp hd h₀ fun lp ha hb hc => hno ⟨lp, ha, hb, hc⟩) hs hy hcuts
  rcases hbetter with hb | hb
  · exact h1 hb
  · cases hm : p.isMaximization <;>
      simp only [hm, Bool.false_eq_true, if_false, if_true] at h2 hb <;> linarith

/-- The LP code solves the relaxation itself, and stops at a limit in every other LP, that is, without an optimal
point and without a claim that there is none. -/
structure Engine.StopsBelow (e : Engine) (p : Problem) : Prop where
  glopRoot : ∀ n s, (∀ y, s.iface.lp.Feasible y ↔ p.RelaxedFeasible y) →
    RightAnswer s.iface.lp ((e.glop n s).2.1 = .optimal) (e.glop n s).2.2.2
  glopElse : ∀ n s, ¬ (∀ y, s.iface.lp.Feasible y ↔ p.RelaxedFeasible y) →
    (e.glop n s).2.1 = .dualFeasible ∨ (e.glop n s).2.1 = .primalFeasible
  soplexRoot : ∀ n g, (∀ y, g.lp.Feasible y ↔ p.RelaxedFeasible y) →
    RightAnswer g.lp ((e.soplex n g).2.1.status = .optimal) (e.soplex n g).2.2
  soplexElse : ∀ n g, ¬ (∀ y, g.lp.Feasible y ↔ p.RelaxedFeasible y) →
    (e.soplex n g).2.1.status = .abortTime ∨ (e.soplex n g).2.1.status = .abortIter ∨
      (e.soplex n g).2.1.status = .abortValue

theorem Engine.StopsBelow.solve {e : Engine} {p : Problem} (he : e.StopsBelow p) {w w' : World}
    (h : w.solve e = .ok w') :
    ((∀ y, w'.lp.program.Feasible y ↔ p.RelaxedFeasible y) →
      RightAnswer w'.lp.program (w'.lp.isOptimal = true) w'.report) ∧
    (¬ (∀ y, w'.lp.program.Feasible y ↔ p.RelaxedFeasible y) → w'.lp.isOptimal = false) := by
  obtain ⟨h1, -, -, h2⟩ := solve_world h
  rw [h1]
  cases hl : w.lp with
  | glop s =>
    rw [hl] at h2
    rw [h2.1, h2.2]
    refine ⟨he.glopRoot _ _, fun hn => ?_⟩
    have := he.glopElse w.solves s hn
    rw [Bool.eq_false_iff, Ne, h2.2]
    rcases this with h | h <;> rw [h] <;> simp
  | soplex g =>
    rw [hl] at h2
    rw [h2.1, h2.2]
    refine ⟨he.soplexRoot _ _, fun hn => ?_⟩
    have := he.soplexElse w.solves g hn
    rw [Bool.eq_false_iff, Ne, h2.2]
    rcases this with h | h | h <;> rw [h] <;> simp

theorem Engine.StopsBelow.feasible {e : Engine} {p : Problem} (he : e.StopsBelow p) : e.Feasible := by
  constructor
  · intro n s ho
    by_cases hn : ∀ y, s.iface.lp.Feasible y ↔ p.RelaxedFeasible y
    · exact ((he.glopRoot n s hn).1 ho).1
    · rcases he.glopElse n s hn with h | h <;> rw [h] at ho <;> cases ho
  · intro n g ho
    by_cases hn : ∀ y, g.lp.Feasible y ↔ p.RelaxedFeasible y
    · exact ((he.soplexRoot n g hn).1 ho).1
    · rcases he.soplexElse n g hn with h | h | h <;> rw [h] at ho <;> cases ho

/-- **C108 fails.**  For every well-formed problem with a feasible relaxation, an objective bounded on it, and only fractional
optima of the relaxation, all parameters with the max-fractional rule and without cuts, and both interfaces: if the LP
code solves the relaxation rightly and then stops at a limit in every further LP, `Solve` returns OK, says that the problem
is solved to optimality, and has no solution, although the LP code never claims that an LP is infeasible.  The
problem may have as many feasible points as it likes. -/
theorem C108_stopped_violated {e : Engine} {x : Setup.External} {p : Problem} (he : e.StopsBelow p)
    (hp : p.WellFormed) (hB : Bounded p) (hfeas : ∃ y, p.RelaxedFeasible y) {user : Setup.ParamsMsg}
    (hnonneg : 0 ≤ user.integralityTolerance.getD (1 / 10 ^ 6))
    (hfr : FractionalOptima p (user.integralityTolerance.getD (1 / 10 ^ 6))) {c : Setup.Created}
    (h : Setup.create x p user = .ok c) {dir : Setup.Direction} (hrule : c.rule = .maxFractional dir)
    (hl : ((∃ s g, c.lpi = .glop s g) ∧ e.GlopReturns) ∨ (∃ g, c.lpi = .soplex g) ∧ e.SoplexReturns ∧ IntegralIntegers p)
    (hn : NoCuts c.runner.params) :
    ∃ s, solve e c 4 = some (.ok s) ∧ s.result.solveStatus = some SolveStatus.optimal ∧ s.result.best = {} ∧
      s.result.additional = [] := by
  have hnever : solve e c 4 = none ∨ (∃ s, solve e c 4 = some (.ok s)) ∨
      solve e c 4 = some (.error "The problem is infeasible or unbounded") := by
    rcases hl with ⟨hl, hret⟩ | ⟨hl, hret, hI⟩
    · exact C77_glop_never_aborts_partial hret hp h hl hn hnonneg 4
    · exact C77_soplex_never_aborts_partial hret he.feasible hp hI h hl hn hrule hnonneg 4
  obtain ⟨hd, h₀⟩ := created_refines hp h
  obtain ⟨-, -, -, -, -, h6, -⟩ := Setup.create_ok h
  have htol : (params c).tol = user.integralityTolerance.getD (1 / 10 ^ 6) := h6
  have hlen₀ : (start c.lpi).program.cols.length = c.data.lower.length := by
    rw [h₀.numCols, hd.lower, List.length_map]; rfl
  have hs := primalShape (e := e) (c := c) (Good' := Plain (start c.lpi).program)
    (lp₀ := (start c.lpi).program) (fun _ h => h.good)
  rw [hlen₀] at hs
  have hg := plain_start c
  have heq : solve e c 4 = Solver.solveFuel (guard (oracle e c) (Plain (start c.lpi).program)) c.data
      (params c) 4 (Solver.initial { world := { lp := start c.lpi } }) :=
    (Solver.guard_solveFuel (keeps_plain hn) _ _ (by exact hg)).symm
  rw [heq] at hnever ⊢
  have hdata := Solver.dataOk_of_represents hd
  have hc := contract_plain_of (e := e) (fun _ _ h => he.solve h) hn (lp₀ := (start c.lpi).program)
  -- the root
  have hbox : ∀ r : Runner World, (∀ x, InBounds c.data bounds r x ↔ InRootBounds c.data x) →
      ∀ x, InBounds c.data bounds r x ↔ InRootBounds c.data x ∧ InBox c.data (fun _ _ => True) x :=
    fun r hx x => by rw [hx x]; exact ⟨fun h => ⟨h, fun _ _ => trivial⟩, fun h => h.1⟩
  have hright : ∀ r : Runner World, Plain (start c.lpi).program r →
      (((∀ y, r.world.lp.program.Feasible y ↔ p.RelaxedFeasible y) →
        RightAnswer r.world.lp.program (r.world.lp.isOptimal = true) r.world.report) ∧
      (¬ (∀ y, r.world.lp.program.Feasible y ↔ p.RelaxedFeasible y) → r.world.lp.isOptimal = false)) →
      (∀ x, InBounds c.data bounds r x ↔ InRootBounds c.data x) →
      (guard (oracle e c) (Plain (start c.lpi).program)).isOptimal r = true ∧
      ∀ values, (guard (oracle e c) (Plain (start c.lpi).program)).primal r = .ok values →
        values.length = c.data.lower.length ∧ RelaxedOptimal p (point values) := by
    intro r hr hans hbd
    obtain ⟨y, hy⟩ := hfeas
    have hall : ∀ y, r.world.lp.program.Feasible y ↔ p.RelaxedFeasible y := fun y =>
      (node_points hp hd h₀ hr (hbox r hbd) y).trans ⟨fun h => h.1, fun h => ⟨h, fun _ _ => trivial⟩⟩
    obtain ⟨h1, h2⟩ := node_optimal (e := e) (b := fun _ _ => True) hp hB hd ⟨y, hy, fun _ _ => trivial⟩ h₀ hr
      (hans.1 hall) (hbox r hbd)
    refine ⟨h1, fun values hv => ?_⟩
    obtain ⟨g1, g2, -, g3⟩ := h2 values hv
    exact ⟨g1, g2, fun z hz => g3 z hz fun _ _ => trivial⟩
  suffices hsuff : ∃ s', Solver.solveFuel (guard (oracle e c) (Plain (start c.lpi).program)) c.data (params c) 4
      (Solver.initial { world := { lp := start c.lpi } }) = some (.ok s') ∧
      s'.result = { ({} : SolveResult) with solveStatus := some SolveStatus.optimal } by
    obtain ⟨s', h1, h2⟩ := hsuff
    exact ⟨s', h1, by rw [h2], by rw [h2], by rw [h2]⟩
  refine Solver.stops_below_root (prm := params c) hdata hs hc ?_ ?_ hg (startsAt hd h₀) hnever
  · rintro r ⟨hr, hans⟩ hbd
    obtain ⟨h1, h2⟩ := hright r hr hans hbd
    refine ⟨h1, fun values hv hin => ?_⟩
    obtain ⟨hlv, h3, h4⟩ := h2 values hv
    obtain ⟨n, v, hv', hi, hk⟩ := hfr _ h3 h4
    obtain ⟨b, h5, h6⟩ := MipData.allIntegral_iff values (params c).tol c.data.integerVariables
      (fun j hj => by rw [hlv]; exact hdata.ints j hj)
    rw [MipData.solutionIsIntegral, h5] at hin
    have hb : b = true := Outcome.ok.inj hin
    have hnlt : n < values.length := by
      rw [hlv, hd.lower, List.length_map]; exact (List.getElem?_eq_some_iff.1 hv').1
    have hj : (n : Int) ∈ c.data.integerVariables := (hd.integers n).2 ⟨n, v, hv', hi, rfl⟩
    obtain ⟨k, hk'⟩ := h6.1 hb n values[n] hj (List.getElem?_eq_getElem hnlt)
    rw [htol] at hk'
    have := hk k
    rw [Solver.point_eq (List.getElem?_eq_getElem hnlt)] at this
    exact absurd hk' (not_le.2 this)
  · rintro w w' values col up v ⟨hr, hans⟩ hbd hv hin hbr hval b hb down r ⟨hr', hans'⟩ hbd'
    obtain ⟨-, h2⟩ := hright w hr hans hbd
    obtain ⟨hlv, hopt⟩ := h2 values hv
    obtain ⟨col', up', v', g1, g2, g3, g4⟩ := Solver.maxFractional_fractional hdata hs
      (usesMaxFractional (e := e) hrule) (by rw [htol]; exact hnonneg) hv hin
    rw [g1] at hbr
    have hcol : col' = col := by
      have : (col' : Int) = col := congrArg Prod.fst (congrArg Prod.snd (Outcome.ok.inj hbr))
      exact_mod_cast this
    subst hcol
    obtain rfl : v' = v := by rw [hval] at g3; exact (Option.some.inj g3).symm
    have hno : (guard (oracle e c) (Plain (start c.lpi).program)).isOptimal r = r.world.lp.isOptimal := if_pos hr'
    rw [hno]
    refine hans'.2 fun hall => ?_
    have hyb := ((node_points hp hd h₀ hr' hbd' (point values)).1 ((hall _).2 hopt.1)).2 col' g2
    have hp' : point values col' = v' := Solver.point_eq hval
    have hfrac : (⌊v'⌋ : ℚ) < v' ∧ v' < ⌈v'⌉ := by
      have hne : ∀ k : Int, v' ≠ k := fun k hk => by
        have h1 := g4 k
        rw [hk, sub_self, abs_zero, htol] at h1
        exact absurd h1 (not_lt.2 hnonneg)
      exact ⟨lt_of_le_of_ne (Int.floor_le v') (hne _).symm, lt_of_le_of_ne (Int.le_ceil v') (hne _)⟩
    have := hyb.2 rfl
    rw [hp'] at this
    cases down <;> simp only [Bool.false_eq_true, if_false, if_true] at this <;> linarith [hfrac.1, hfrac.2]

/-- **C108 fails**, at the root.  For every well-formed problem, feasible and bounded or not, and both interfaces: if the LP code
stops in every LP, `Solve` returns the error "The problem is infeasible or unbounded". -/
theorem C108_root_stopped_violated {e : Engine} {x : Setup.External} {p : Problem}
    (hglop : ∀ n s, (e.glop n s).2.1 = .dualFeasible ∨ (e.glop n s).2.1 = .primalFeasible)
    (hsoplex : ∀ n g, (e.soplex n g).2.1.status = .abortTime ∨ (e.soplex n g).2.1.status = .abortIter ∨
      (e.soplex n g).2.1.status = .abortValue)
    (hp : p.WellFormed) {user : Setup.ParamsMsg} (hnonneg : 0 ≤ user.integralityTolerance.getD (1 / 10 ^ 6))
    {c : Setup.Created} (h : Setup.create x p user = .ok c) {dir : Setup.Direction} (hrule : c.rule = .maxFractional dir)
    (hl : ((∃ s g, c.lpi = .glop s g) ∧ e.GlopReturns) ∨ (∃ g, c.lpi = .soplex g) ∧ e.SoplexReturns ∧ IntegralIntegers p)
    (hn : NoCuts c.runner.params) (n : Nat) :
    solve e c (n + 1) = some (.error "The problem is infeasible or unbounded") := by
  have hg1 : ∀ n s, (e.glop n s).2.1 ≠ .optimal := fun n s ho => by
    rcases hglop n s with h | h <;> rw [h] at ho <;> cases ho
  have hs1 : ∀ n g, (e.soplex n g).2.1.status ≠ .optimal := fun n g ho => by
    rcases hsoplex n g with h | h | h <;> rw [h] at ho <;> cases ho
  have hfe : e.Feasible := ⟨fun n s ho => absurd ho (hg1 n s), fun n g ho => absurd ho (hs1 n g)⟩
  have hnever : solve e c (n + 1) = none ∨ (∃ s, solve e c (n + 1) = some (.ok s)) ∨
      solve e c (n + 1) = some (.error "The problem is infeasible or unbounded") := by
    rcases hl with ⟨hl, hret⟩ | ⟨hl, hret, hI⟩
    · exact C77_glop_never_aborts_partial hret hp h hl hn hnonneg _
    · exact C77_soplex_never_aborts_partial hret hfe hp hI h hl hn hrule hnonneg _
  obtain ⟨hd, h₀⟩ := created_refines hp h
  have hdata := Solver.dataOk_of_represents hd
  have hg := plain_start c
  have hc := contract_plain_of (e := e) (A := fun w => w.lp.isOptimal = false) (fun w w' hs => by
    obtain ⟨-, -, -, h2⟩ := solve_world hs
    rw [Bool.eq_false_iff]
    cases hl : w.lp with
    | glop s => rw [hl] at h2; exact fun h => hg1 _ _ (h2.2.mp h)
    | soplex g => rw [hl] at h2; exact fun h => hs1 _ _ (h2.2.mp h)) hn (lp₀ := (start c.lpi).program)
  have heq : solve e c (n + 1) = Solver.solveFuel (guard (oracle e c) (Plain (start c.lpi).program)) c.data
      (params c) (n + 1) (Solver.initial { world := { lp := start c.lpi } }) :=
    (Solver.guard_solveFuel (keeps_plain hn) _ _ (by exact hg)).symm
  rw [heq] at hnever ⊢
  rw [Solver.solveFuel] at hnever ⊢
  cases hit : Solver.iterate (guard (oracle e c) (Plain (start c.lpi).program)) c.data (params c)
      (Solver.initial { world := { lp := start c.lpi } }) with
  | ub => rw [hit] at hnever; simp at hnever
  | abort => rw [hit] at hnever; simp at hnever
  | error m => rw [hit] at hnever; simpa using hnever
  | ok res =>
    obtain ⟨r, ⟨hr, hans⟩, hopt, -⟩ := Solver.iterate_first hdata hc hg (startsAt hd h₀) hit
    have hopt : r.world.lp.isOptimal = true := (if_pos hr).symm.trans hopt
    rw [hans] at hopt; cases hopt

/-! ### LP code that stops -/

open Classical in
/-- LP code that solves the relaxation of `p`, and stops at its iteration limit in every other LP. -/
noncomputable def tired (p : Problem) : Engine :=
  { perfect with
    glop := fun n s => if ∀ y, s.iface.lp.Feasible y ↔ p.RelaxedFeasible y then perfect.glop n s else
      (fun _ => ⟨true, false, true, false, 0, []⟩, .dualFeasible, false, {})
    soplex := fun n g => if ∀ y, g.lp.Feasible y ↔ p.RelaxedFeasible y then perfect.soplex n g else
      (false, ⟨false, .abortIter, .regular, 0, 0, [], []⟩, {}) }

theorem Engine.Approximate.honest {e : Engine} {eps delta : ℚ} (he : e.Approximate eps delta) : e.Honest eps delta :=
  ⟨fun n s => (he.glop n s).1, fun n g => (he.soplex n g).1⟩

theorem tired_spec (p : Problem) : (tired p).StopsBelow p ∧ (tired p).Honest 0 0 ∧ (tired p).GlopReturns ∧
    (tired p).SoplexReturns := by
  have hps := perfect_soplex
  refine ⟨⟨fun n s h => ?_, fun n s h => ?_, fun n g h => ?_, fun n g h => ?_⟩, ⟨fun n s ho => ?_, fun n g ho => ?_⟩,
    fun n s k => ?_, ?_⟩
  · simp only [tired, if_pos h]; exact perfect_spec.1.glop n s
  · simp only [tired, if_neg h]; exact Or.inl trivial
  · simp only [tired, if_pos h]; exact perfect_spec.1.soplex n g
  · simp only [tired, if_neg h]; exact Or.inr (Or.inl trivial)
  · by_cases h : ∀ y, s.iface.lp.Feasible y ↔ p.RelaxedFeasible y
    · simp only [tired, if_pos h] at ho ⊢; exact (perfect_spec.1.approximate le_rfl le_rfl).honest.glop n s ho
    · simp only [tired, if_neg h] at ho; cases ho
  · by_cases h : ∀ y, g.lp.Feasible y ↔ p.RelaxedFeasible y
    · simp only [tired, if_pos h] at ho ⊢; exact (perfect_spec.1.approximate le_rfl le_rfl).honest.soplex n g ho
    · simp only [tired, if_neg h] at ho; cases ho
  · simp only [tired]; split
    · exact perfect_spec.2 n s k
    · rfl
  · refine ⟨hps.eps, fun n g => ?_, fun n g => ?_, fun n g => ?_, fun n g => ?_, hps.time, fun n g => ?_⟩ <;>
      simp only [tired] <;> split
    · exact hps.clear n g
    · rfl
    · exact hps.throws n g
    · exact fun h => Bool.noConfusion h
    · exact hps.iterations n g
    · show _ ∨ (0 : Int) ≤ _
      omega
    · exact hps.fine n g
    · rfl
    · exact hps.values n g
    · exact fun h => nomatch h

/-- The hypotheses of `C108_stopped_violated` and `C108_lost_where_stopped_partial` are met together: LP code that stops in the
children of the root, a problem with a feasible point, and a run that loses it. -/
example : behind.WellFormed ∧ Bounded behind ∧ behind.Feasible (fun _ => 0) ∧ (tired behind).Honest 0 0 ∧
    (tired behind).StopsBelow behind ∧
    ∀ x, ∃ c s, Setup.create x behind exUser = .ok c ∧
      customSolve (tired behind) c (plugins (tired behind) c).generators (plugins (tired behind) c).select 4 = some (.ok s) ∧
      s.result.solveStatus = some SolveStatus.optimal ∧ s.world.registry.cuts = [] ∧ s.result.best = {} ∧
      ∃ lp, Extends (start c.lpi).program lp ∧ lp.Feasible (fun _ => 0) ∧ (tired behind).GivesUpOn lp := by
  obtain ⟨h1, -, h3, h4, h5, -⟩ := behind_spec
  obtain ⟨t1, t2, t3, -⟩ := tired_spec behind
  refine ⟨h1, h3, h4, t2, t1, fun x => ?_⟩
  obtain ⟨c, hc⟩ := (Setup.C73_glop_partial x behind h1 exUser _ (Setup.lpWins _) rfl).1
    (by refine ⟨⟨?_, ?_, ?_, ?_, ?_, ?_, ?_, ?_⟩, rfl, ?_, ?_, rfl, rfl⟩ <;>
      simp [exUser, Setup.LpMsg.read, ToleranceOk])
  obtain ⟨hn, dir, hrule⟩ := rule_of h1 hc ⟨0, le_refl _, rfl⟩ (by simp [exUser])
  obtain ⟨s, hs, g1, g2, -⟩ := C108_stopped_violated t1 h1 h3 ⟨_, fun n v hv => (h4.1 n v hv).1, h4.2⟩
    (by norm_num [exUser]) (by simpa [exUser] using h5) hc hrule (Or.inl ⟨created_glop hc rfl, t3⟩) hn
  have hreg := registry_empty hn hs
  have hro := readsOnly (tired behind) c
  exact ⟨c, s, hc, hs, g1, hreg, g2, C108_lost_where_stopped_partial t2 h1 hc hro.generators hro.select hs h4
    (by rw [hreg]; simp) (Or.inl g2)⟩

/-- LP code that stops in every LP. -/
noncomputable def idle : Engine :=
  { perfect with
    glop := fun _ _ => (fun _ => ⟨true, false, true, false, 0, []⟩, .dualFeasible, false, {})
    soplex := fun _ _ => (false, ⟨false, .abortTime, .regular, 0, 0, [], []⟩, {}) }

/-- The hypotheses of `C108_root_stopped_violated` are met by a feasible and bounded problem, with both interfaces. -/
example : behind.WellFormed ∧ Bounded behind ∧ behind.Feasible (fun _ => 0) ∧ IntegralIntegers behind ∧ idle.GlopReturns ∧
    idle.SoplexReturns ∧ (∀ n s, (idle.glop n s).2.1 = .dualFeasible) ∧
    (∀ n g, (idle.soplex n g).2.1.status = .abortTime) ∧
    ∀ x, ∃ c, Setup.create x behind exUser = .ok c ∧ (∃ dir, c.rule = .maxFractional dir) ∧ (∃ s g, c.lpi = .glop s g) ∧
      NoCuts c.runner.params := by
  obtain ⟨h1, -, h3, h4, -, -⟩ := behind_spec
  have hps := perfect_soplex
  refine ⟨h1, h3, h4, ?_, fun _ _ _ => rfl, ⟨hps.eps, fun _ _ => rfl, fun _ _ h => Bool.noConfusion h, fun n g => ?_,
    fun _ _ => rfl, hps.time, fun _ _ h => nomatch h⟩, fun _ _ => rfl, fun _ _ => rfl, fun x => ?_⟩
  · intro v hv hi
    simp only [behind, Solver.Line.problem, List.mem_cons, List.not_mem_nil, or_false] at hv
    rcases hv with rfl | rfl
    · cases hi
    · exact ⟨Or.inr ⟨0, by norm_num⟩, Or.inr ⟨1, by norm_num⟩⟩
  · show _ ∨ (0 : Int) ≤ _
    omega
  · obtain ⟨c, hc⟩ := (Setup.C73_glop_partial x behind h1 exUser _ (Setup.lpWins _) rfl).1
      (by refine ⟨⟨?_, ?_, ?_, ?_, ?_, ?_, ?_, ?_⟩, rfl, ?_, ?_, rfl, rfl⟩ <;>
        simp [exUser, Setup.LpMsg.read, ToleranceOk])
    obtain ⟨hn, hrule⟩ := rule_of h1 hc ⟨0, le_refl _, rfl⟩ (by simp [exUser])
    exact ⟨c, hc, hrule, created_glop hc rfl, hn⟩

end Program
end MiniMip
