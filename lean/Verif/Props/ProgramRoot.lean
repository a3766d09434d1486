import Verif.Props.ProgramApprox

/-!
# The root of the tree

The first LP is the relaxation, with or without cuts.  If the relaxation is unbounded, `Solve` fails there, whatever is done
in the cutting loop.
-/

namespace MiniMip
namespace Program

open Glop (LinearProgram Refines Extends)
open Solver (Contract guard point InBounds InRootBounds InBox)

theorem contract_plain_of {e : Engine} {A : World → Prop} (hA : ∀ w w' : World, w.solve e = .ok w' → A w')
    {c : Setup.Created} (hn : NoCuts c.runner.params)
    {lp₀ : LinearProgram} : Contract (guard (oracle e c) (Plain lp₀)) (Plain lp₀) bounds
      fun r => Plain lp₀ r ∧ A r.world := by
  have hk := keeps_plain (e := e) hn (d := c.data) (lp₀ := lp₀)
  apply Contract.guard
  constructor
  · intro r j l u r' hg h
    obtain ⟨-, -, h1, h2, h3⟩ := setBounds_spec h
    refine ⟨⟨?_, by rw [h1]; exact hg.numRows, by rw [h3]; exact hg.rounds, by rw [h3]; exact hg.added⟩, h2⟩
    show Extends lp₀ r'.world.lp.program
    rw [h1]
    exact Extends.withBounds hg.good _ _ _
  · intro r r' hg h
    have := hk.solve r r' hg h
    exact ⟨this, (solve_spec h).2.2.1, this, hA _ _ (solve_spec h).1⟩
  · intro r r' hg ha _ h
    have : r = r' := Outcome.ok.inj ((separate_plain hn hg).symm.trans h)
    rw [← this]; exact ⟨hg, rfl, ha⟩
  · intro r r' col up hg h
    exact ⟨hk.branch r r' col up hg h, bounds_congr fun c => by rw [(branch_spec h).1]⟩

/-- The feasible points of the LP of a node, without cuts. -/
theorem node_points {p : Problem} (hp : p.WellFormed) {c : Setup.Created} (hd : c.data.Represents p)
    (h₀ : Refines (start c.lpi).program p.relaxation) {r : Runner World} (hr : Plain (start c.lpi).program r)
    {b : Solver.Box} (hbd : ∀ x, InBounds c.data bounds r x ↔ InRootBounds c.data x ∧ InBox c.data b x) (y : Int → ℚ) :
    r.world.lp.program.Feasible y ↔ p.RelaxedFeasible y ∧ InBox c.data b y := by
  have hlen : r.world.lp.program.cols.length = c.data.lower.length := by
    rw [hr.good.numCols, h₀.numCols, hd.lower, List.length_map]; rfl
  have hroot : InRootBounds c.data y ↔
      ∀ (n : Nat) (v : Variable), p.vars[n]? = some v → Between v.lower (y n) v.upper := by
    constructor
    · intro h n v hv
      exact h n v.lower v.upper (by rw [hd.lower]; simp [hv]) (by rw [hd.upper]; simp [hv])
    · intro h n l u h1 h2
      rw [hd.lower, List.getElem?_map] at h1
      rw [hd.upper, List.getElem?_map] at h2
      cases hv : p.vars[n]? with
      | none => rw [hv] at h1; cases h1
      | some v =>
        rw [hv] at h1 h2
        cases h1
        cases h2
        exact h n v hv
  constructor
  · intro hy
    have hyb := (hbd y).1 (inBounds_of hlen hy.1)
    refine ⟨⟨hroot.1 hyb.1, fun k hk => ?_⟩, hyb.2⟩
    obtain ⟨i, hi⟩ := List.getElem?_of_mem hk
    have hlt : i < p.relaxation.numRows := (List.getElem?_eq_some_iff.mp hi).1
    have hlt' : i < (start c.lpi).program.rows.length := by rw [h₀.numRows]; exact hlt
    have h3 := h₀.rows i _ (List.getElem?_eq_getElem hlt')
    have h4 := hr.good.holds hy (List.getElem?_eq_getElem hlt')
    rw [h3.1, h3.2, h₀.activity hlt, relaxation_activity hp hi] at h4
    simpa [Problem.relaxation, hi] using h4
  · rintro ⟨⟨h1, h2⟩, hyb⟩
    refine rows_hold hp h₀ hr.good hr.numRows h2 fun n col hcol => ?_
    have hlt := (List.getElem?_eq_some_iff.mp hcol).1
    have := (hbd y).2 ⟨hroot.2 h1, hyb⟩ n (by rw [← hlen]; exact hlt)
    rw [bounds_nat, hcol] at this
    exact this

/-! ### The root -/

/-- The same solver with cuts switched off and tolerance zero. -/
def withoutCuts (c : Setup.Created) : Setup.Created :=
  { c with integralityTolerance := 0, runner := { c.runner with params := { c.runner.params with maxIterations := 0 } } }

theorem withoutCuts_noCuts (c : Setup.Created) : NoCuts (withoutCuts c).runner.params := Or.inl (le_refl _)

theorem applyBounds_congr {W : Type} {o o' : Solver.Oracle W} (h : o.setBounds = o'.setBounds) (lb ub : List Dbl) (l : List Int) :
    ∀ w, Solver.applyBounds o lb ub w l = Solver.applyBounds o' lb ub w l := by
  induction l with
  | nil => intro w; rfl
  | cons j l ih => intro w; unfold Solver.applyBounds; simp only [ih, h]

/-- The oracle of the program with any cutting loop. -/
noncomputable def separating (e : Engine) (c : Setup.Created) (sep : Runner World → Outcome (Runner World)) :
    Solver.Oracle (Runner World) :=
  { oracle e c with separate := sep }

theorem applyBounds_withoutCuts (e : Engine) (c : Setup.Created) (sep : Runner World → Outcome (Runner World)) (lb ub : List Dbl) (l : List Int) (w : Runner World) :
    Solver.applyBounds (oracle e (withoutCuts c)) lb ub w l = Solver.applyBounds (separating e c sep) lb ub w l :=
  applyBounds_congr (o := oracle e (withoutCuts c)) (o' := separating e c sep) rfl lb ub l w

/-- The LP of the root, with or without cuts: how it relates to the LP without cuts. -/
theorem solveNode_withoutCuts {e : Engine} {c : Setup.Created} {sep : Runner World → Outcome (Runner World)} {lb ub : List Dbl} {w r : Runner World}
    (hw : Plain (start c.lpi).program w) (h : Solver.solveNode (oracle e (withoutCuts c)) c.data lb ub w = .ok r) :
    (separating e c sep).isOptimal r = false → Solver.solveNode (separating e c sep) c.data lb ub w = .ok r := by
  intro hopt
  have hk := keeps_plain (e := e) (withoutCuts_noCuts c) (d := c.data) (lp₀ := (start c.lpi).program)
  unfold Solver.solveNode at h ⊢
  simp only [Outcome.bind_eq_ok] at h
  obtain ⟨w1, h1, w2, h2, h3⟩ := h
  have g1 := (Solver.guard_applyBounds hk lb ub c.data.integerVariables (fun _ h => h) w hw).2 w1 h1
  have h2' : (oracle e (withoutCuts c)).solve w1 = .ok w2 := Solver.orAbort_eq_ok.1 h2
  have g2 := hk.solve w1 w2 g1 h2'
  rw [applyBounds_withoutCuts e c sep] at h1
  have hsep : (oracle e (withoutCuts c)).separate w2 = .ok w2 := separate_plain (withoutCuts_noCuts c) g2
  rw [hsep] at h3
  have hr : w2 = r := by
    split at h3
    · exact Outcome.ok.inj h3
    · exact Outcome.ok.inj h3
  subst hr
  rw [h1, Outcome.bind_ok, show (separating e c sep).solve w1 = .ok w2 from h2']
  simp [Outcome.orAbort, hopt]

theorem solveNode_withCuts {e : Engine} {c : Setup.Created} {sep : Runner World → Outcome (Runner World)} {lb ub : List Dbl} {w r : Runner World}
    (hw : Plain (start c.lpi).program w) (h : Solver.solveNode (separating e c sep) c.data lb ub w = .ok r) :
    ∃ r', Solver.solveNode (oracle e (withoutCuts c)) c.data lb ub w = .ok r' ∧
      ((separating e c sep).isOptimal r' = false → r' = r) := by
  have hk := keeps_plain (e := e) (withoutCuts_noCuts c) (d := c.data) (lp₀ := (start c.lpi).program)
  unfold Solver.solveNode at h ⊢
  simp only [Outcome.bind_eq_ok] at h
  obtain ⟨w1, h1, w2, h2, h3⟩ := h
  rw [← applyBounds_withoutCuts e c sep] at h1
  have g1 := (Solver.guard_applyBounds hk lb ub c.data.integerVariables (fun _ h => h) w hw).2 w1 h1
  have h2' : (oracle e (withoutCuts c)).solve w1 = .ok w2 := Solver.orAbort_eq_ok.1 h2
  have g2 := hk.solve w1 w2 g1 h2'
  have hsep : (oracle e (withoutCuts c)).separate w2 = .ok w2 := separate_plain (withoutCuts_noCuts c) g2
  refine ⟨w2, ?_, fun hopt => ?_⟩
  · rw [h1, Outcome.bind_ok, h2']
    simp [Outcome.orAbort, hsep]
  · rw [if_neg (by rw [hopt]; simp)] at h3
    exact Outcome.ok.inj h3

/-- The objective of an LP is bounded on its feasible points. -/
def BoundedLp (lp : LinearProgram) : Prop :=
  ∃ B : ℚ, ∀ y, lp.Feasible y → if lp.maximize then lp.value y ≤ B else B ≤ lp.value y

/-- The LP code never calls an LP with an unbounded objective optimal. -/
structure Engine.SeesUnbounded (e : Engine) : Prop where
  glop : ∀ n s, (e.glop n s).2.1 = .optimal → BoundedLp s.iface.lp
  soplex : ∀ n g, (e.soplex n g).2.1.status = .optimal → BoundedLp g.lp

theorem Engine.Right.seesUnbounded {e : Engine} (he : e.Right) : e.SeesUnbounded :=
  ⟨fun n s h => ⟨_, ((he.glop n s).1 h).2.2⟩, fun n g h => ⟨_, ((he.soplex n g).1 h).2.2⟩⟩

theorem Engine.Approximate.seesUnbounded {e : Engine} {eps delta : ℚ} (he : e.Approximate eps delta) : e.SeesUnbounded := by
  have key : ∀ {lp : LinearProgram} {r : Report} {P : Prop}, ApproximateAnswer lp eps delta P r → P → BoundedLp lp := by
    intro lp r P h hP
    obtain ⟨-, z, -, -, hz⟩ := h.1 hP
    by_cases hm : lp.maximize = true
    · exact ⟨z + delta, fun y hy => by simpa [hm] using hz y hy⟩
    · refine ⟨z - delta, fun y hy => ?_⟩
      have := hz y hy
      simp only [hm, if_false, Bool.false_eq_true] at this ⊢
      linarith
  exact ⟨fun n s h => key (he.glop n s) h, fun n g h => key (he.soplex n g) h⟩

theorem Engine.SeesUnbounded.solve {e : Engine} (he : e.SeesUnbounded) {w w' : World}
    (h : w.solve e = .ok w') : w'.lp.isOptimal = true → BoundedLp w'.lp.program := by
  obtain ⟨h1, -, -, h2⟩ := solve_world h
  rw [h1]
  cases hl : w.lp with
  | glop s =>
    rw [hl] at h2
    rw [h2.2]
    exact he.glop _ _
  | soplex g =>
    rw [hl] at h2
    rw [h2.2]
    exact he.soplex _ _

/-- If the LP of the root before cuts is bounded, so is the relaxation. -/
theorem root_bounded {p : Problem} (hp : p.WellFormed) {c : Setup.Created}
    (hd : c.data.Represents p) (h₀ : Refines (start c.lpi).program p.relaxation) {r : Runner World}
    (hr : Plain (start c.lpi).program r) (hlp : BoundedLp r.world.lp.program)
    (hbd : ∀ x, InBounds c.data bounds r x ↔ InRootBounds c.data x) : Bounded p := by
  have hall : ∀ y, r.world.lp.program.Feasible y ↔ p.RelaxedFeasible y := fun y =>
    (node_points (b := fun _ _ => True) hp hd h₀ hr
      (fun x => by rw [hbd x]; exact ⟨fun h => ⟨h, fun _ _ => trivial⟩, fun h => h.1⟩) y).trans
      ⟨fun h => h.1, fun h => ⟨h, fun _ _ => trivial⟩⟩
  have hsense : r.world.lp.program.maximize = false := by rw [hr.good.sense, h₀.sense]; rfl
  have hval : ∀ y, r.world.lp.program.value y =
      if p.isMaximization then -(p.userObjective y - p.offset) else p.userObjective y - p.offset := fun y => by
    rw [hr.good.value, h₀.value, (relaxation_points p hp y).2]
  obtain ⟨B, hB⟩ := hlp
  refine ⟨if p.isMaximization then p.offset - B else B + p.offset, fun y hy => ?_⟩
  have := hB y ((hall y).2 hy)
  rw [hsense, if_neg (by simp), hval] at this
  split <;> rename_i hm <;> simp only [hm, if_true, if_false, Bool.false_eq_true] at this ⊢ <;> linarith

/-- What the LP code may say about the LP of the root of a problem with an unbounded relaxation. -/
theorem root_not_optimal {e : Engine} (he : e.SeesUnbounded) {p : Problem} (hp : p.WellFormed) (hB : ¬ Bounded p)
    {c : Setup.Created} (hd : c.data.Represents p) (h₀ : Refines (start c.lpi).program p.relaxation)
    {lb ub : List Dbl} (h1 : MipTree.init.retrieveLower 0 c.data.lower = .ok lb)
    (h2 : MipTree.init.retrieveUpper 0 c.data.upper = .ok ub) {r : Runner World}
    (h3 : Solver.solveNode (oracle e (withoutCuts c)) c.data lb ub { world := { lp := start c.lpi } } = .ok r) :
    r.world.lp.isOptimal = false := by
  have hn := withoutCuts_noCuts c
  have hdata := Solver.dataOk_of_represents hd
  have hg := plain_start c
  have hk := keeps_plain (e := e) hn (d := c.data) (lp₀ := (start c.lpi).program)
  have hc := contract_plain_of (e := e) (fun _ _ h => he.solve h) hn (lp₀ := (start c.lpi).program)
  obtain ⟨heq, hgood⟩ := Solver.guard_solveNode hk lb ub hg
  have hr := hgood r h3
  rw [← heq] at h3
  -- the bounds of the root
  obtain ⟨t, q, hinv, -⟩ := Solver.sim_init c.data.lower.length
  have hq : q = [0] := by
    have h0 := hinv.queue
    rcases q with _ | ⟨n, _ | ⟨m, q⟩⟩
    · simp at h0
    · simpa [eq_comm] using h0
    · simp at h0
  subst hq
  obtain ⟨hlive, -, -, -, lb', ub', hlb, hub, hbs⟩ := Solver.pop_node (bj := false) (n := 0) (q' := []) hinv c.data hdata rfl
    (by simp [Solver.PopSpec])
  obtain ⟨st, hex⟩ := hinv.exec
  have e1 : lb' = lb := Outcome.ok.inj (hlb.symm.trans h1)
  have e2 : ub' = ub := Outcome.ok.inj (hub.symm.trans h2)
  subst e1 e2
  obtain ⟨-, ha, -⟩ := Solver.solveNode_spec hc hg h3
  rw [← Bool.not_eq_true]
  intro hopt
  refine hB (root_bounded hp hd h₀ hr (ha.2 hopt) (fun x => ?_))
  rw [Solver.inBounds_iff hdata hc hbs hg (fun n l u _ hl hu => startsAt hd h₀ n l u hl hu) h3 x]
  exact ⟨fun hx => hx.1, fun hx => ⟨hx, fun n _ => Solver.boxOf_root hex hinv.recs hlive _ _⟩⟩

/-- The first iteration on a problem with an unbounded relaxation fails. -/
theorem iterate_unbounded {e : Engine} (he : e.SeesUnbounded) {p : Problem} (hp : p.WellFormed) (hB : ¬ Bounded p)
    {c : Setup.Created} (sep : Runner World → Outcome (Runner World)) (hd : c.data.Represents p) (h₀ : Refines (start c.lpi).program p.relaxation) :
    (∀ res, Solver.iterate (separating e c sep) c.data (params c) (Solver.initial { world := { lp := start c.lpi } }) ≠ .ok res) ∧
    ((∃ s g, c.lpi = .glop s g) → e.GlopReturns →
      Solver.iterate (separating e c sep) c.data (params c) (Solver.initial { world := { lp := start c.lpi } }) =
        .error "The problem is infeasible or unbounded") := by
  have hg := plain_start c
  have hpop : Solver.pop (Solver.initial ({ world := { lp := start c.lpi } } : Runner World)).backjump
      (Solver.initial ({ world := { lp := start c.lpi } } : Runner World)).queue = some (0, []) := rfl
  constructor
  · intro res h
    unfold Solver.iterate at h
    rw [hpop] at h
    simp only [Outcome.bind_eq_ok] at h
    obtain ⟨lb, h1, ub, h2, r, h3, h⟩ := h
    obtain ⟨r', h4, h5⟩ := solveNode_withCuts hg h3
    have hno := root_not_optimal he hp hB hd h₀ h1 h2 h4
    obtain rfl := h5 hno
    rw [if_neg (by rw [show (separating e c sep).isOptimal r' = r'.world.lp.isOptimal from rfl, hno]; simp)] at h
    simp [Solver.infeasibleNode] at h
  · rintro ⟨s, g, hl⟩ hret
    have hn := withoutCuts_noCuts c
    have hdata := Solver.dataOk_of_represents hd
    obtain ⟨⟨lb, ub, h1, h2, h3, h4⟩, -⟩ := Solver.tree_calls hdata
      (s := Solver.initial ({ world := { lp := start c.lpi } } : Runner World)) ⟨_, Solver.sim_init _⟩ hpop
    have hgg : PlainGlop (start c.lpi).program ({ world := { lp := start c.lpi } } : Runner World) :=
      ⟨hg, by rw [hl]; exact ⟨_, rfl⟩⟩
    have hresp := responsive hret hn (c := withoutCuts c) hd (le_refl _) h₀
    obtain ⟨r, hr⟩ := Solver.solveNode_ok (d := c.data) hdata hresp h3 h4 { world := { lp := start c.lpi } }
    rw [(Solver.guard_solveNode (keeps_plainGlop hn) lb ub hgg).1] at hr
    have hno := root_not_optimal he hp hB hd h₀ h1 h2 hr
    have hr' := solveNode_withoutCuts (sep := sep) hg hr hno
    unfold Solver.iterate
    rw [hpop]
    simp only [h1, h2, Outcome.bind_ok]
    rw [show (Solver.initial ({ world := { lp := start c.lpi } } : Runner World)).world = { world := { lp := start c.lpi } } from rfl,
      hr', Outcome.bind_ok, if_neg (by rw [show (separating e c sep).isOptimal r = r.world.lp.isOptimal from rfl, hno]; simp)]
    simp [Solver.infeasibleNode]

/-- If the branch and bound returns OK, the objective is bounded on the relaxation, whatever is done in the cutting loop. -/
theorem bounded_of_separating {e : Engine} (he : e.SeesUnbounded) {x : Setup.External} {p : Problem} (hp : p.WellFormed)
    {user : Setup.ParamsMsg} {c : Setup.Created} (h : Setup.create x p user = .ok c)
    {sep : Runner World → Outcome (Runner World)} {fuel : Nat} {s : Solver.State (Runner World)}
    (hs : Solver.solveFuel (separating e c sep) c.data (params c) fuel
      (Solver.initial { world := { lp := start c.lpi } }) = some (.ok s)) : Bounded p := by
  by_contra hB
  obtain ⟨hd, h₀⟩ := created_refines hp h
  have h1 := (iterate_unbounded he hp hB sep hd h₀).1
  cases fuel with
  | zero => cases hs
  | succ fuel =>
    rw [Solver.solveFuel] at hs
    split at hs
    · rename_i hi; exact h1 _ hi
    · rename_i hi; exact h1 _ hi
    all_goals cases hs

end Program
end MiniMip
