import Verif.Lemmas.Program

/-!
# The whole program (C74–)

`Solver::Create` on a problem of the user, followed by `Solve`, with the LP code as the only unknown.
-/

namespace MiniMip
namespace Program

open Glop (LinearProgram Extends Refines)
open Solver (Oracle Contract guard point InBounds RowsHold FeasibleAnswer StartsAt)

/-! ### What `Create` hands to `Solve` -/

/-- The LP of a solver just created is the relaxation of the user's problem. -/
theorem created_refines {x : Setup.External} {p : Problem} (hp : p.WellFormed) {user : Setup.ParamsMsg}
    {c : Setup.Created} (h : Setup.create x p user = .ok c) :
    c.data.Represents p ∧ Refines (start c.lpi).program p.relaxation := by
  obtain ⟨-, hd, ⟨l, hl, hl'⟩, -⟩ := Setup.create_ok h
  obtain ⟨d, h1, hrep, -⟩ := MipData.ofProblem_spec x.order p hp
  rw [hd] at h1
  rw [← Outcome.ok.inj h1] at hrep
  refine ⟨hrep, ?_⟩
  have hf := (Setup.createLp_reports hl).2
  cases l with
  | glop s g =>
    obtain ⟨g', h1, h2, -⟩ := Glop.populate_refines p hp _ hd g
    simp only [Setup.Lpi.populate, h1, Outcome.bind_ok, Outcome.pure_eq] at hl'
    rw [← Outcome.ok.inj hl']
    exact h2
  | soplex g =>
    obtain ⟨g', h1, h2, -⟩ := Soplex.populate_refines p hp _ hd g hf
    simp only [Setup.Lpi.populate, h1, Outcome.bind_ok, Outcome.pure_eq] at hl'
    rw [← Outcome.ok.inj hl']
    exact h2

/-! ### The calls of the loop -/

theorem bounds_nat (r : Runner World) (n : Nat) :
    bounds r n = (r.world.lp.program.cols[n]?.map fun c => (c.lower, c.upper)).getD (.nan, .nan) := by
  simp [bounds]

theorem bounds_congr {r r' : Runner World}
    (h : ∀ c : Nat, (r'.world.lp.program.cols[c]?.map fun x => (x.lower, x.upper)) =
      r.world.lp.program.cols[c]?.map fun x => (x.lower, x.upper)) : bounds r' = bounds r := by
  funext j
  unfold bounds
  rw [h]

theorem setBounds_spec {e : Engine} {c : Setup.Created} {r r' : Runner World} {j : Int} {l u : Dbl}
    (h : (oracle e c).setBounds r j l u = .ok r') :
    0 ≤ j ∧ j < r.world.lp.program.cols.length ∧
    r'.world.lp.program = r.world.lp.program.withBounds j.toNat l u ∧
    bounds r' = Function.update (bounds r) j (l, u) ∧
    r' = { r with world := { r.world with lp := r'.world.lp } } := by
  simp only [oracle, Outcome.bind_eq_ok] at h
  obtain ⟨lp, h1, h2⟩ := h
  obtain ⟨h3, h4, h5⟩ := setColumnBounds_program h1
  cases h2
  refine ⟨h3, h4, h5, ?_, rfl⟩
  funext i
  unfold bounds
  rw [h5]
  by_cases hi : 0 ≤ i
  · rw [if_pos hi, LinearProgram.withBounds_col, Option.map_map]
    by_cases hij : i = j
    · subst hij
      have hlt : i.toNat < r.world.lp.program.cols.length := by omega
      rw [Function.update_self, List.getElem?_eq_getElem hlt]
      simp
    · rw [Function.update_of_ne hij, if_pos hi]
      have : ¬ j.toNat = i.toNat := by omega
      simp [this, Function.comp_def]
  · rw [if_neg hi, Function.update_of_ne (by omega), if_neg hi]

theorem solve_spec {e : Engine} {c : Setup.Created} {r r' : Runner World}
    (h : (oracle e c).solve r = .ok r') :
    r.world.solve e = .ok r'.world ∧ r'.world.lp.program = r.world.lp.program ∧
    bounds r' = bounds r ∧ r' = { r with world := r'.world } := by
  simp only [oracle, Outcome.bind_eq_ok] at h
  obtain ⟨w, h1, h2⟩ := h
  cases h2
  have hp := (solve_world h1).1
  refine ⟨h1, hp, ?_, rfl⟩
  apply bounds_congr
  intro c
  rw [hp]

theorem branch_spec {e : Engine} {c : Setup.Created} {r r' : Runner World} {col : Int} {up : Bool}
    (h : (oracle e c).branch r = .ok (r', col, up)) :
    r'.world.lp = r.world.lp ∧ r' = { r with world := r'.world } := by
  simp only [oracle, Outcome.bind_eq_ok] at h
  obtain ⟨⟨w, col', up'⟩, h1, h2⟩ := h
  cases h2
  refine ⟨?_, rfl⟩
  unfold branch at h1
  split at h1 <;> simp only [Outcome.bind_eq_ok] at h1 <;> obtain ⟨x, -, h1⟩ := h1 <;> cases h1 <;> rfl

/-- Separation keeps the first LP with the current bounds, and whatever each solve establishes. -/
theorem separate_spec {e : Engine} {c : Setup.Created} {lp₀ : LinearProgram} {A : World → Prop}
    (hA : ∀ w w' : World, Extends lp₀ w.lp.program → w.solve e = .ok w' → A w')
    {r r' : Runner World} (h : (oracle e c).separate r = .ok r')
    (hr : Extends lp₀ r.world.lp.program) :
    Extends lp₀ r'.world.lp.program ∧ bounds r' = bounds r ∧ (A r.world → A r'.world) := by
  have key : ∀ A : World → Prop,
      (∀ w w' : World, Extends lp₀ w.lp.program → w.solve e = .ok w' → A w') → A r.world →
      (Extends lp₀ r'.world.lp.program ∧ bounds r' = bounds r) ∧ A r'.world := by
    intro A hA ha
    simp only [oracle, separate] at h
    split at h
    · rename_i x hx
      rw [h] at hx
      refine Runner.separateFuel_keeps (readsOnly e c)
        (I := fun w => Extends lp₀ w.lp.program ∧ bounds { r' with world := w } = bounds r) (A := A)
        ?_ ?_ _ r r' hx ⟨hr, rfl⟩ ha
      · rintro w row w' ⟨h1, h2⟩ hw
        simp only [plugins, Outcome.bind_eq_ok] at hw
        obtain ⟨l, hl, hw⟩ := hw
        cases hw
        obtain ⟨name, hs⟩ := addRow_program hl
        obtain ⟨g1, -, g2⟩ := h1.addRow _ _ hs
        exact ⟨g1, (bounds_congr g2).trans h2⟩
      · rintro w w' ⟨h1, h2⟩ hw
        have hw' : w.solve e = .ok w' := hw
        have hp := (solve_world hw').1
        refine ⟨⟨by rw [hp]; exact h1, (bounds_congr fun c => ?_).trans h2⟩, hA w w' h1 hw'⟩
        show w'.lp.program.cols[c]?.map _ = w.lp.program.cols[c]?.map _
        rw [hp]
    · cases h
  refine ⟨(key (fun _ => True) (fun _ _ _ _ => trivial) trivial).1.1,
    (key (fun _ => True) (fun _ _ _ _ => trivial) trivial).1.2, fun ha => (key A hA ha).2⟩

theorem primal_spec {w : World} {values : List ℚ} (h : w.primal = .ok values) :
    values.length = w.lp.program.cols.length ∧
    ∀ c : Nat, c < w.lp.program.cols.length → point values c = w.report.point c := by
  have key : ∀ (n : Nat) (f : Nat → ℚ), (((List.range n).map f).length = n) ∧
      ∀ c : Nat, c < n → point ((List.range n).map f) c = f c := by
    intro n f
    refine ⟨by simp, fun c hc => ?_⟩
    simp [point, hc]
  unfold World.primal at h
  split at h
  · rename_i s hs
    cases h
    rw [hs]
    exact key _ _
  · rename_i g hs
    simp only [Soplex.getPrimalValues, Outcome.bind_eq_ok] at h
    obtain ⟨_, -, _, -, h⟩ := h
    unfold Soplex.fetch at h
    split at h
    · cases h
    · rename_i f hf
      cases h
      rw [hs]
      refine ⟨(key _ f).1, fun c hc => ?_⟩
      exact ((key _ f).2 c hc).trans (by simp [Report.point, hf])

/-! ### C74: solutions are feasible -/

/-- The LP code reports a point of the stored LP whenever it claims to be optimal. -/
structure Engine.Feasible (e : Engine) : Prop where
  glop : ∀ n s, (e.glop n s).2.1 = .optimal → s.iface.lp.Feasible (e.glop n s).2.2.2.point
  soplex : ∀ n g, (e.soplex n g).2.1.status = .optimal → g.lp.Feasible (e.soplex n g).2.2.point

theorem Engine.Feasible.solve {e : Engine} (he : e.Feasible) {w w' : World} (h : w.solve e = .ok w')
    (ho : w'.lp.isOptimal = true) : w'.lp.program.Feasible w'.report.point := by
  obtain ⟨h1, -, -, h2⟩ := solve_world h
  rw [h1]
  cases hl : w.lp with
  | glop s =>
    rw [hl] at h2
    rw [h2.1]
    exact he.glop _ _ (h2.2.mp ho)
  | soplex g =>
    rw [hl] at h2
    rw [h2.1]
    exact he.soplex _ _ (h2.2.mp ho)

/-- The states of the program: its LP is the first one with other bounds and more rows. -/
def Good (lp₀ : LinearProgram) (r : Runner World) : Prop := Extends lp₀ r.world.lp.program

theorem inBounds_of {d : MipData} {r : Runner World} {x : Int → ℚ}
    (hlen : r.world.lp.program.cols.length = d.lower.length)
    (hx : ∀ (c : Nat) (col : Glop.Column), r.world.lp.program.cols[c]? = some col →
      Between col.lower (x c) col.upper) : InBounds d bounds r x := by
  intro n hn
  have hn' : n < r.world.lp.program.cols.length := by omega
  rw [bounds_nat, List.getElem?_eq_getElem hn']
  exact hx n _ (List.getElem?_eq_getElem hn')

theorem relaxation_activity {p : Problem} (hp : p.WellFormed) {r : Nat} {k : Constraint}
    (hk : p.constraints[r]? = some k) {x : Int → ℚ} :
    ∑ j ∈ Finset.range p.relaxation.numCols, p.relaxation.coef r j * x j = k.activity x := by
  obtain ⟨-, -, -, -, h5⟩ := hp.2 k (List.mem_of_getElem? hk)
  rw [Constraint.activity, ← zip_sum p.vars.length]
  · apply Finset.sum_congr rfl
    intro j _
    simp [Problem.relaxation, hk, Constraint.coefficientOf]
  · intro t ht
    exact h5 t.1 (List.of_mem_zip (a := t.1) (b := t.2) ht).1

theorem rowsHold_of {p : Problem} (hp : p.WellFormed) {d : MipData} (hd : d.Represents p)
    {lp₀ : LinearProgram} (h₀ : Refines lp₀ p.relaxation) {x : Int → ℚ}
    (hx : ∀ (r : Nat) (row : Glop.Row), lp₀.rows[r]? = some row →
      Between row.lhs (lp₀.activity r x) row.rhs) : RowsHold d x := by
  intro r l u m v hl hu hv
  rw [hd.lhs, List.getElem?_map, Option.map_eq_some_iff] at hl
  obtain ⟨k, hk, rfl⟩ := hl
  rw [hd.rhs, List.getElem?_map, hk] at hu
  cases hu
  obtain ⟨m', v', h1, -, -, h2, -⟩ := hd.rows r k hk
  rw [h1] at hv
  cases hv
  have hlt := (List.getElem?_eq_some_iff.mp hk).1
  have hlt' : r < lp₀.rows.length := by rw [h₀.numRows]; exact hlt
  have h3 := h₀.rows r _ (List.getElem?_eq_getElem hlt')
  have h4 := hx r _ (List.getElem?_eq_getElem hlt')
  rw [h3.1, h3.2, h₀.activity (s := p.relaxation) hlt] at h4
  rw [h2, ← relaxation_activity hp hk]
  simpa [Problem.relaxation, hk] using h4

/-- The contract with any property of the world that each solve establishes. -/
theorem contract_of {e : Engine} {c : Setup.Created} {lp₀ : LinearProgram} {A : World → Prop}
    (hA : ∀ w w' : World, Extends lp₀ w.lp.program → w.solve e = .ok w' → A w') :
    Contract (oracle e c) (Good lp₀) bounds fun r => A r.world := by
  constructor
  · intro r j l u r' hg h
    obtain ⟨-, -, h1, h2, -⟩ := setBounds_spec h
    refine ⟨?_, h2⟩
    show Extends lp₀ r'.world.lp.program
    rw [h1]
    exact Extends.withBounds hg _ _ _
  · intro r r' hg h
    obtain ⟨h1, h2, h3, -⟩ := solve_spec h
    refine ⟨?_, h3, hA _ _ hg h1⟩
    show Extends lp₀ r'.world.lp.program
    rw [h2]; exact hg
  · intro r r' hg ha _ h
    obtain ⟨h1, h2, h3⟩ := separate_spec (A := A) hA h hg
    exact ⟨h1, h2, h3 ha⟩
  · intro r r' col up hg h
    obtain ⟨h1, -⟩ := branch_spec h
    refine ⟨?_, bounds_congr fun c => by rw [h1]⟩
    show Extends lp₀ r'.world.lp.program
    rw [h1]; exact hg

theorem answer_feasible {e : Engine} (he : e.Feasible) {p : Problem} (hp : p.WellFormed)
    {c : Setup.Created} (hd : c.data.Represents p) {lp₀ : LinearProgram}
    (h₀ : Refines lp₀ p.relaxation) (w w' : World) (hw : Extends lp₀ w.lp.program)
    (hs : w.solve e = .ok w') :
    FeasibleAnswer (guard (oracle e c) (Good lp₀)) c.data bounds { world := w' } := by
  intro ho values hv
  have hg : Good lp₀ { world := w' } := by
    show Extends lp₀ w'.lp.program
    rw [(solve_world hs).1]; exact hw
  have ho' : w'.lp.isOptimal = true := (if_pos hg).symm.trans ho
  have hv' : w'.primal = .ok values := (if_pos hg).symm.trans hv
  have hf := he.solve hs ho'
  obtain ⟨-, h2⟩ := primal_spec hv'
  have hf' := (w'.lp.program.congr h2).1.mpr hf
  refine ⟨inBounds_of ?_ hf'.1, rowsHold_of hp hd h₀ fun r row hr => hg.holds hf' hr⟩
  rw [hg.numCols, h₀.numCols, hd.lower, List.length_map]; rfl

/-- The LP code, seen through the interfaces and the runner, satisfies the contract of C35. -/
theorem contract_feasible {e : Engine} (he : e.Feasible) {p : Problem} (hp : p.WellFormed)
    {c : Setup.Created} (hd : c.data.Represents p) {lp₀ : LinearProgram}
    (h₀ : Refines lp₀ p.relaxation) :
    Contract (guard (oracle e c) (Good lp₀)) (Good lp₀) bounds
      (FeasibleAnswer (guard (oracle e c) (Good lp₀)) c.data bounds) :=
  (contract_of (A := fun w => FeasibleAnswer (guard (oracle e c) (Good lp₀)) c.data bounds { world := w })
    (answer_feasible he hp hd h₀)).guard

theorem startsAt {p : Problem} {d : MipData} (hd : d.Represents p) {r : Runner World}
    (h₀ : Refines r.world.lp.program p.relaxation) : StartsAt d bounds r := by
  intro n l u hl hu
  rw [hd.lower, List.getElem?_map, Option.map_eq_some_iff] at hl
  obtain ⟨v, hv, rfl⟩ := hl
  rw [hd.upper, List.getElem?_map, hv] at hu
  cases hu
  have hn : n < r.world.lp.program.cols.length := by
    rw [h₀.numCols]; exact (List.getElem?_eq_some_iff.mp hv).1
  have hc := h₀.cols n _ (List.getElem?_eq_getElem hn)
  rw [bounds_nat, List.getElem?_eq_getElem hn, Option.map_some, Option.getD_some, hc.lower, hc.upper]
  simp [Problem.relaxation, hv]

theorem primalShape {e : Engine} {c : Setup.Created} {lp₀ : LinearProgram} {Good' : Runner World → Prop}
    (hg : ∀ r, Good' r → Good lp₀ r) :
    Solver.PrimalShape (guard (oracle e c) Good') lp₀.cols.length := by
  intro r values h
  by_cases hr : Good' r
  · have h' : r.world.primal = .ok values := (if_pos hr).symm.trans h
    rw [(primal_spec h').1, (hg r hr).numCols]
  · have h' := (if_neg hr).symm.trans h
    cases h'

theorem keeps_good {e : Engine} {c : Setup.Created} {d : MipData} {lp₀ : LinearProgram} :
    Solver.Keeps (oracle e c) d (Good lp₀) where
  setBounds r hg j _ l u r' h := by
    obtain ⟨-, -, h1, -⟩ := setBounds_spec h
    show Extends lp₀ r'.world.lp.program
    rw [h1]
    exact Extends.withBounds hg _ _ _
  solve r r' hg h := by
    show Extends lp₀ r'.world.lp.program
    rw [(solve_spec h).2.1]; exact hg
  separate r r' hg _ h :=
    (separate_spec (A := fun _ => True) (fun _ _ _ _ => trivial) h hg).1
  branch r r' col up hg h := by
    show Extends lp₀ r'.world.lp.program
    rw [(branch_spec h).1]; exact hg

/-- **C74.**  For every well-formed problem, all parameters that `Create` takes, both LP interfaces,
with cuts or without, and whatever order the sort, the random numbers and the solves go: if the LP
code reports feasible points whenever it claims to be optimal, then every solution that `Solve` has stored at
any moment satisfies all bounds and constraints of the user's problem, and integer variables are
integral within the integrality tolerance (the user's, or 10⁻⁶). -/
theorem C74_solutions_feasible {e : Engine} (he : e.Feasible) {x : Setup.External} {p : Problem}
    (hp : p.WellFormed) {user : Setup.ParamsMsg} {c : Setup.Created} (h : Setup.create x p user = .ok c) :
    (∀ s, Solver.Reach (oracle e c) c.data (params c)
        (Solver.initial { world := { lp := start c.lpi } }) s →
      (s.result.best = {} ∨
        p.FeasibleUpTo (user.integralityTolerance.getD (1 / 10 ^ 6)) (point s.result.best.values)) ∧
      ∀ sol ∈ s.result.additional,
        p.FeasibleUpTo (user.integralityTolerance.getD (1 / 10 ^ 6)) (point sol.values)) ∧
    ∀ fuel s, solve e c fuel = some (.ok s) →
      (s.result.best = {} ∨
        p.FeasibleUpTo (user.integralityTolerance.getD (1 / 10 ^ 6)) (point s.result.best.values)) ∧
      ∀ sol ∈ s.result.additional,
        p.FeasibleUpTo (user.integralityTolerance.getD (1 / 10 ^ 6)) (point sol.values) := by
  obtain ⟨hd, h₀⟩ := created_refines hp h
  have htol : (params c).tol = user.integralityTolerance.getD (1 / 10 ^ 6) := by
    obtain ⟨-, -, -, -, -, h6, -⟩ := Setup.create_ok h
    exact h6
  have hg : Good (start c.lpi).program { world := { lp := start c.lpi } } := Extends.refl _
  have hs := primalShape (e := e) (c := c) (Good' := Good (start c.lpi).program) (fun _ h => h)
  rw [h₀.numCols] at hs
  obtain ⟨h1, h2⟩ := Solver.C35_solutions_feasible (prm := params c) hd hs
    (contract_feasible he hp hd h₀) hg (startsAt hd h₀)
  rw [htol] at h1 h2
  refine ⟨fun s hr => h1 s (Solver.guard_reach keeps_good _ hg hr).1, fun fuel s hf => h2 fuel s ?_⟩
  rw [Solver.guard_solveFuel keeps_good _ _ (by exact hg)]
  exact hf

/-! ### C75: optimality without cuts -/

/-- What a right answer of the LP code is: if it claims to be optimal, the point is feasible, at least as
good as every feasible point and has the objective value reported; if not, the LP is infeasible or
unbounded. -/
def RightAnswer (lp : LinearProgram) (optimal : Prop) (r : Report) : Prop :=
  (optimal → lp.Feasible r.point ∧ r.objective = .fin (lp.value r.point) ∧
    ∀ y, lp.Feasible y →
      if lp.maximize then lp.value y ≤ lp.value r.point else lp.value r.point ≤ lp.value y) ∧
  (¬ optimal → (∀ y, ¬ lp.Feasible y) ∨
    ∀ B : ℚ, ∃ y, lp.Feasible y ∧ if lp.maximize then B < lp.value y else lp.value y < B)

/-- The LP code answers rightly.  (In particular it does not stop at a limit.) -/
structure Engine.Right (e : Engine) : Prop where
  glop : ∀ n s, RightAnswer s.iface.lp ((e.glop n s).2.1 = .optimal) (e.glop n s).2.2.2
  soplex : ∀ n g, RightAnswer g.lp ((e.soplex n g).2.1.status = .optimal) (e.soplex n g).2.2

theorem Engine.Right.feasible {e : Engine} (he : e.Right) : e.Feasible :=
  ⟨fun n s h => ((he.glop n s).1 h).1, fun n g h => ((he.soplex n g).1 h).1⟩

theorem Engine.Right.solve {e : Engine} (he : e.Right) {w w' : World} (h : w.solve e = .ok w') :
    RightAnswer w'.lp.program (w'.lp.isOptimal = true) w'.report := by
  obtain ⟨h1, -, -, h2⟩ := solve_world h
  rw [h1]
  cases hl : w.lp with
  | glop s =>
    rw [hl] at h2
    rw [h2.1, h2.2]
    exact he.glop _ _
  | soplex g =>
    rw [hl] at h2
    rw [h2.1, h2.2]
    exact he.soplex _ _

/-- The parameters switch the cut runner off. -/
def NoCuts (p : RunnerParams) : Prop :=
  p.maxIterations ≤ 0 ∨ p.maxNumCutsPerNode ≤ 0 ∨ p.maxNumCutsTotal = 0

/-- The states of a run without cuts. -/
structure Plain (lp₀ : LinearProgram) (r : Runner World) : Prop where
  good : Good lp₀ r
  numRows : r.world.lp.program.rows.length = lp₀.rows.length
  rounds : r.numCutrounds = 0
  added : r.numCutsAdded = 0

theorem separate_plain {e : Engine} {c : Setup.Created} (hn : NoCuts c.runner.params)
    {lp₀ : LinearProgram} {r : Runner World} (h : Plain lp₀ r) : separate e c r = .ok r := by
  have hm : Runner.mayRun c.runner.params (plugins e c) r = false := by
    unfold Runner.mayRun
    rcases hn with hn | hn | hn
    · rw [h.rounds]; simp [hn]
    · rw [h.added]; simp [hn]
    · simp [hn, Runner.toSizeT]
  unfold separate Runner.separateFuel
  rw [hm]
  rfl

theorem keeps_plain {e : Engine} {c : Setup.Created} (hn : NoCuts c.runner.params) {d : MipData}
    {lp₀ : LinearProgram} : Solver.Keeps (oracle e c) d (Plain lp₀) where
  setBounds r hg j hj l u r' h := by
    obtain ⟨-, -, h1, -, h3⟩ := setBounds_spec h
    refine ⟨keeps_good.setBounds (d := d) r hg.good j hj l u r' h, ?_, by rw [h3]; exact hg.rounds,
      by rw [h3]; exact hg.added⟩
    rw [h1]; exact hg.numRows
  solve r r' hg h := by
    obtain ⟨-, h1, -, h3⟩ := solve_spec h
    refine ⟨(keeps_good (d := d)).solve r r' hg.good h, ?_, by rw [h3]; exact hg.rounds,
      by rw [h3]; exact hg.added⟩
    rw [h1]; exact hg.numRows
  separate r r' hg _ h := by
    have : r = r' := Outcome.ok.inj ((separate_plain hn hg).symm.trans h)
    rw [← this]; exact hg
  branch r r' col up hg h := by
    obtain ⟨h1, h3⟩ := branch_spec h
    refine ⟨(keeps_good (d := d)).branch r r' col up hg.good h, ?_, by rw [h3]; exact hg.rounds,
      by rw [h3]; exact hg.added⟩
    rw [h1]; exact hg.numRows

theorem plain_start (c : Setup.Created) :
    Plain (start c.lpi).program { world := { lp := start c.lpi } } :=
  ⟨Extends.refl _, rfl, rfl, rfl⟩

/-- The objective of the user's problem is bounded on the points of the relaxation. -/
def Bounded (p : Problem) : Prop :=
  ∃ B : ℚ, ∀ y, p.RelaxedFeasible y →
    if p.isMaximization then p.userObjective y ≤ B else B ≤ p.userObjective y

theorem rows_hold {p : Problem} (hp : p.WellFormed) {lp₀ lp : LinearProgram}
    (h₀ : Refines lp₀ p.relaxation) (hl : Extends lp₀ lp) (hn : lp.rows.length = lp₀.rows.length)
    {y : Int → ℚ} (hr : ∀ k ∈ p.constraints, Between k.lhs (k.activity y) k.rhs)
    (hb : ∀ (c : Nat) (col : Glop.Column), lp.cols[c]? = some col → Between col.lower (y c) col.upper) :
    lp.Feasible y := by
  refine hl.feasible hn hb fun r row hrow => ?_
  have hlt : r < p.relaxation.numRows := by
    rw [← h₀.numRows]; exact (List.getElem?_eq_some_iff.mp hrow).1
  have hk : p.constraints[r]? = some p.constraints[r] := List.getElem?_eq_getElem hlt
  have h1 := h₀.rows r row hrow
  rw [h1.1, h1.2, h₀.activity hlt, relaxation_activity hp hk]
  simpa [Problem.relaxation, hk] using hr _ (List.mem_of_getElem? hk)

theorem contract_optimal {e : Engine} (he : e.Right) {p : Problem} (hp : p.WellFormed)
    {c : Setup.Created} (hn : NoCuts c.runner.params) (hB : Bounded p) (hd : c.data.Represents p)
    {lp₀ : LinearProgram} (h₀ : Refines lp₀ p.relaxation) :
    Contract (guard (oracle e c) (Plain lp₀)) (Plain lp₀) bounds
      (Solver.OptimalAnswer (guard (oracle e c) (Plain lp₀)) c.data bounds) := by
  have hk := keeps_plain (e := e) hn (d := c.data) (lp₀ := lp₀)
  have hlen : ∀ r : Runner World, Plain lp₀ r → r.world.lp.program.cols.length = c.data.lower.length := by
    intro r hr
    rw [hr.good.numCols, h₀.numCols, hd.lower, List.length_map]; rfl
  have hval : ∀ r : Runner World, Plain lp₀ r → ∀ y,
      r.world.lp.program.value y = c.data.objective.eval y := by
    intro r hr y
    rw [hr.good.value, h₀.value, (relaxation_points p hp y).2]
    have := hd.objective y
    have ho := hd.offset
    split <;> rename_i hm <;> simp only [hm, if_true, if_false, Bool.false_eq_true] at this ho <;> linarith
  have hin : ∀ r : Runner World, Plain lp₀ r → ∀ y,
      (∀ k ∈ p.constraints, Between k.lhs (k.activity y) k.rhs) → InBounds c.data bounds r y →
      r.world.lp.program.Feasible y := by
    intro r hr y hy hb
    refine rows_hold hp h₀ hr.good hr.numRows hy fun n col hcol => ?_
    have hlt := (List.getElem?_eq_some_iff.mp hcol).1
    have := hb n (by rw [← hlen r hr]; exact hlt)
    rw [bounds_nat, hcol] at this
    exact this
  have hsense : ∀ r : Runner World, Plain lp₀ r → r.world.lp.program.maximize = false := by
    intro r hr
    rw [hr.good.sense, h₀.sense]; rfl
  have hA : ∀ r r' : Runner World, Plain lp₀ r → (oracle e c).solve r = .ok r' →
      Solver.OptimalAnswer (guard (oracle e c) (Plain lp₀)) c.data bounds r' := by
    intro r r' hr hs
    have hr' := hk.solve r r' hr hs
    have hra := he.solve (solve_spec hs).1
    constructor
    · intro ho values hv
      have ho' : r'.world.lp.isOptimal = true := (if_pos hr').symm.trans ho
      have hv' : r'.world.primal = .ok values := (if_pos hr').symm.trans hv
      obtain ⟨h1, h2, h3⟩ := hra.1 ho'
      obtain ⟨-, h4, -⟩ := r'.world.lp.program.congr (primal_spec hv').2
      rw [← h4, hval r' hr'] at h2 
      refine ⟨h2, fun y hy hyb => ?_⟩
      have hyf := ((C09_same_optima p c.data hd y).1).1 hy
      have := h3 y (hin r' hr' y hyf.2 hyb)
      rw [hsense r' hr', if_neg (by simp), ← h4, hval r' hr', hval r' hr'] at this
      exact this
    · intro ho hsub y hy hyb
      have ho' : ¬ r'.world.lp.isOptimal = true := by
        rw [← Bool.not_eq_true] at ho
        exact fun h => ho ((if_pos hr').trans h)
      have hyf := ((C09_same_optima p c.data hd y).1).1 hy
      rcases hra.2 ho' with h1 | h1
      · exact h1 y (hin r' hr' y hyf.2 hyb)
      · obtain ⟨B, hB⟩ := hB
        have hrel : ∀ z, r'.world.lp.program.Feasible z → p.RelaxedFeasible z := by
          intro z hz
          have hzb : InBounds c.data bounds r' z := inBounds_of (hlen r' hr') hz.1
          have hzr := hsub z hzb
          refine ⟨fun n v hv => hzr n v.lower v.upper (by rw [hd.lower]; simp [hv])
            (by rw [hd.upper]; simp [hv]), fun k hk => ?_⟩
          obtain ⟨i, hi⟩ := List.getElem?_of_mem hk
          have hlt : i < p.relaxation.numRows := (List.getElem?_eq_some_iff.mp hi).1
          have hlt' : i < lp₀.rows.length := by rw [h₀.numRows]; exact hlt
          have h3 := h₀.rows i _ (List.getElem?_eq_getElem hlt')
          have h4 := hr'.good.holds hz (List.getElem?_eq_getElem hlt')
          rw [h3.1, h3.2, h₀.activity hlt, relaxation_activity hp hi] at h4
          simpa [Problem.relaxation, hi] using h4
        cases hm : p.isMaximization with
        | false =>
          obtain ⟨z, hz, hlt⟩ := h1 (B - p.offset)
          have hb := hB z (hrel z hz)
          rw [hsense r' hr', hr'.good.value, h₀.value, (relaxation_points p hp z).2] at hlt
          simp only [hm, Bool.false_eq_true, if_false] at hb hlt
          linarith
        | true =>
          obtain ⟨z, hz, hlt⟩ := h1 (-(B - p.offset))
          have hb := hB z (hrel z hz)
          rw [hsense r' hr', hr'.good.value, h₀.value, (relaxation_points p hp z).2] at hlt
          simp only [hm, Bool.false_eq_true, if_false, if_true] at hb hlt
          linarith
  apply Contract.guard
  constructor
  · intro r j l u r' hg h
    obtain ⟨-, -, h1, h2, h3⟩ := setBounds_spec h
    refine ⟨⟨?_, by rw [h1]; exact hg.numRows, by rw [h3]; exact hg.rounds, by rw [h3]; exact hg.added⟩, h2⟩
    show Extends lp₀ r'.world.lp.program
    rw [h1]
    exact Extends.withBounds hg.good _ _ _
  · intro r r' hg h
    exact ⟨hk.solve r r' hg h, (solve_spec h).2.2.1, hA r r' hg h⟩
  · intro r r' hg ha _ h
    have : r = r' := Outcome.ok.inj ((separate_plain hn hg).symm.trans h)
    rw [← this]; exact ⟨hg, rfl, ha⟩
  · intro r r' col up hg h
    exact ⟨hk.branch r r' col up hg h, bounds_congr fun c => by rw [(branch_spec h).1]⟩

/-- **C75, what holds.**  For every well-formed problem with an objective bounded on the relaxation, both
LP interfaces, every branching rule and all parameters that switch the cut runner off: if the LP code
answers rightly and `Solve` returns OK, then for every feasible point of the user's problem there is a
recorded solution and the best one is at least as good; if it returns an error, there is no feasible
point.

Missing for C75: the parameters with cuts (`C33_local_bounds_violated` is a cut that cuts off feasible
points), and a status that tells "optimal" from "infeasible" (C36). -/
theorem C75_optimal_partial {e : Engine} (he : e.Right) {x : Setup.External} {p : Problem}
    (hp : p.WellFormed) (hB : Bounded p) {user : Setup.ParamsMsg} {c : Setup.Created}
    (h : Setup.create x p user = .ok c) (hn : NoCuts c.runner.params) (fuel : Nat) :
    (∀ s, solve e c fuel = some (.ok s) → ∀ y, p.Feasible y →
      s.result.best ≠ {} ∧
      if p.isMaximization then p.userObjective y ≤ p.userObjective (point s.result.best.values)
      else p.userObjective (point s.result.best.values) ≤ p.userObjective y) ∧
    ∀ m, solve e c fuel = some (.error m) → ∀ y, ¬ p.Feasible y := by
  obtain ⟨hd, h₀⟩ := created_refines hp h
  have hs := primalShape (e := e) (c := c) (Good' := Plain (start c.lpi).program) (fun _ h => h.good)
  rw [h₀.numCols] at hs
  have := Solver.C36_optimal_partial (prm := params c) hd hs (contract_optimal he hp hn hB hd h₀)
    (plain_start c) (startsAt hd h₀) (fuel := fuel)
  rwa [Solver.guard_solveFuel (keeps_plain hn) _ _ (by exact plain_start c)] at this

/-! ### C76: `Solve` ends -/

/-- The integer variables of the user's problem have finite bounds. -/
def FiniteIntegers (p : Problem) : Prop :=
  ∀ v ∈ p.vars, v.isInteger = true → ∃ l u : ℚ, v.lower = .fin l ∧ v.upper = .fin u

theorem finiteBounds {p : Problem} (hf : FiniteIntegers p) {d : MipData} (hd : d.Represents p) :
    Solver.FiniteIntegerBounds d := by
  intro n hn
  obtain ⟨m, v, hv, hi, hnm⟩ := (hd.integers n).1 hn
  have : n = m := by omega
  subst this
  obtain ⟨l, u, hl, hu⟩ := hf v (List.mem_of_getElem? hv) hi
  exact ⟨l, u, by rw [hd.lower, List.getElem?_map, hv, ← hl]; rfl,
    by rw [hd.upper, List.getElem?_map, hv, ← hu]; rfl⟩

theorem usesMaxFractional {e : Engine} {c : Setup.Created} {dir : Setup.Direction}
    (h : c.rule = .maxFractional dir) {Good' : Runner World → Prop} :
    Solver.UsesMaxFractional (guard (oracle e c) Good') c.data (params c) := by
  refine ⟨e.unset, direction dir, fun r => e.copyOrder r.world.solves, fun r values hv => ?_⟩
  by_cases hr : Good' r
  · have hv' : r.world.primal = .ok values := (if_pos hr).symm.trans hv
    refine (if_pos hr).trans ?_
    simp only [oracle, branch, h, hv']
    show _ = (Branching.maxFractional e.unset (direction dir) c.integralityTolerance
      ((e.copyOrder r.world.solves).apply c.data.integerVariables) (.ok values) >>= fun x => .ok (r, x.1, x.2))
    cases Branching.maxFractional e.unset (direction dir) c.integralityTolerance
      ((e.copyOrder r.world.solves).apply c.data.integerVariables) (.ok values) <;> rfl
  · have h' := (if_neg hr).symm.trans hv
    cases h'

/-- Twice the number of integer points within the bounds of the integer variables, the lower bounds rounded down, the
upper bounds rounded up. -/
def iterationBound (p : Problem) : Nat :=
  2 * (p.vars.map fun v => if v.isInteger then Solver.span (some v.lower) (some v.upper) else 1).prod

theorem iterationBound_eq {d : MipData} {p : Problem} (hd : d.Represents p) :
    Solver.iterationBound d = iterationBound p := by
  unfold Solver.iterationBound iterationBound
  congr 1
  have h1 : d.integerVariables.toFinset =
      ((Finset.range p.vars.length).filter fun n => ∃ v, p.vars[n]? = some v ∧ v.isInteger = true).image
        (Nat.cast : Nat → Int) := by
    ext j
    simp only [List.mem_toFinset, Finset.mem_image, Finset.mem_filter, Finset.mem_range]
    rw [hd.integers j]
    constructor
    · rintro ⟨n, v, h1, h2, rfl⟩
      exact ⟨n, ⟨(List.getElem?_eq_some_iff.1 h1).1, v, h1, h2⟩, rfl⟩
    · rintro ⟨n, ⟨-, v, h1, h2⟩, rfl⟩
      exact ⟨n, v, h1, h2, rfl⟩
  rw [h1, Finset.prod_image (fun a _ b _ h => by exact_mod_cast h), Finset.prod_filter, Finset.prod_range,
    ← Fin.prod_univ_fun_getElem]
  refine Finset.prod_congr rfl fun i _ => ?_
  have h2 : p.vars[i.1]? = some p.vars[i.1] := List.getElem?_eq_getElem i.2
  have h3 : d.lower[i.1]? = some p.vars[i.1].lower := by rw [hd.lower, List.getElem?_map, h2]; rfl
  have h4 : d.upper[i.1]? = some p.vars[i.1].upper := by rw [hd.upper, List.getElem?_map, h2]; rfl
  simp only [Int.toNat_natCast, h2, h3, h4, Option.some.injEq, exists_eq_left']

/-- **C76, what holds.**  For every well-formed problem whose integer variables have finite bounds, `Solve` has ended
within twice as many iterations as there are integer points within the bounds of the integer variables: with every
LP code that reports points within the LP whenever it claims to be optimal, both interfaces, with cuts
or without, and all parameters that `Create` takes, as long as the branching rule is the max-fractional
one and the integrality tolerance is not negative.

Missing for C76: the random rule (`C37_random_violated`). -/
theorem C76_ends_partial (p : Problem) (hp : p.WellFormed) (hf : FiniteIntegers p) (e : Engine) (x : Setup.External)
    (user : Setup.ParamsMsg) (c : Setup.Created) (dir : Setup.Direction) (he : e.Feasible)
    (h : Setup.create x p user = .ok c) (hr : c.rule = .maxFractional dir)
    (htol : 0 ≤ user.integralityTolerance.getD (1 / 10 ^ 6)) : solve e c (iterationBound p) ≠ none := by
  obtain ⟨-, -, -, -, -, h6, -⟩ := Setup.create_ok h
  obtain ⟨hrep, h₀⟩ := created_refines hp h
  have hs := primalShape (e := e) (c := c) (Good' := Good (start c.lpi).program) (fun _ h => h)
  rw [h₀.numCols] at hs
  have hs' : Solver.PrimalShape (guard (oracle e c) (Good (start c.lpi).program)) c.data.lower.length := by
    rw [hrep.lower, List.length_map]; exact hs
  have hg : Good (start c.lpi).program { world := { lp := start c.lpi } } := Extends.refl _
  have := Solver.C37_max_fractional_ends c.data (Solver.dataOk_of_represents hrep) (finiteBounds hf hrep)
    (Runner World) _ (params c) (Good (start c.lpi).program) bounds
    { world := { lp := start c.lpi } } hs'
    (contract_of (A := fun w => Solver.BoundedAnswer (guard (oracle e c) (Good (start c.lpi).program))
        c.data bounds { world := w })
      (fun w w' hw hs ho values hv => (answer_feasible he hp hrep h₀ w w' hw hs ho values hv).1)).guard
    (usesMaxFractional hr) (by rw [← h6] at htol; exact htol) hg (startsAt hrep h₀)
  rw [Solver.guard_solveFuel keeps_good _ _ (by exact hg), iterationBound_eq hrep] at this
  exact this

/-! ### C77: `Solve` does not abort -/

/-- Every call of `RevisedSimplex::Solve` returns OK. -/
def Engine.GlopReturns (e : Engine) : Prop := ∀ n s k, ((e.glop n s).1 k).ok = true

theorem solveLp_returns (g : Glop.Interface) {answers : Nat → Glop.Answer}
    (h : ∀ k, (answers k).ok = true) : (Glop.solveLp g answers).2 = true := by
  simp only [Glop.solveLp, Glop.solveInternal, h, Bool.not_true, Bool.false_eq_true, if_false, if_true]
  split <;> simp

/-- The states of a run of Glop without cuts. -/
structure PlainGlop (lp₀ : LinearProgram) (r : Runner World) : Prop extends Plain lp₀ r where
  glop : ∃ s, r.world.lp = .glop s

theorem keeps_plainGlop {e : Engine} {c : Setup.Created} (hn : NoCuts c.runner.params) {d : MipData}
    {lp₀ : LinearProgram} : Solver.Keeps (oracle e c) d (PlainGlop lp₀) where
  setBounds r hg j hj l u r' h := by
    refine ⟨(keeps_plain hn).setBounds (d := d) r hg.toPlain j hj l u r' h, ?_⟩
    obtain ⟨s, hs⟩ := hg.glop
    simp only [oracle, Outcome.bind_eq_ok] at h
    obtain ⟨lp, h1, h2⟩ := h
    cases h2
    rw [hs] at h1
    simp only [Lp.setColumnBounds, Outcome.bind_eq_ok] at h1
    obtain ⟨g, -, h1⟩ := h1
    cases h1
    exact ⟨_, rfl⟩
  solve r r' hg h := by
    refine ⟨(keeps_plain hn (d := d)).solve r r' hg.toPlain h, ?_⟩
    obtain ⟨s, hs⟩ := hg.glop
    have h1 := (solve_spec h).1
    unfold World.solve at h1
    rw [hs] at h1
    dsimp only at h1
    split at h1
    · rw [← Outcome.ok.inj h1]
      exact ⟨_, rfl⟩
    · cases h1
  separate r r' hg _ h := by
    have : r = r' := Outcome.ok.inj ((separate_plain hn hg.toPlain).symm.trans h)
    rw [← this]; exact hg
  branch r r' col up hg h := by
    refine ⟨(keeps_plain hn (d := d)).branch r r' col up hg.toPlain h, ?_⟩
    rw [(branch_spec h).1]; exact hg.glop

theorem responsive {e : Engine} (he : e.GlopReturns) {c : Setup.Created} (hn : NoCuts c.runner.params)
    {p : Problem} (hd : c.data.Represents p) (htol : 0 ≤ c.integralityTolerance) {lp₀ : LinearProgram}
    (h₀ : Refines lp₀ p.relaxation) :
    Solver.Responsive (guard (oracle e c) (PlainGlop lp₀)) c.data (params c) := by
  have hdk := Solver.dataOk_of_represents hd
  have hlen : lp₀.cols.length = c.data.lower.length := by
    rw [h₀.numCols, hd.lower, List.length_map]; rfl
  have hs := primalShape (e := e) (c := c) (Good' := PlainGlop lp₀) (lp₀ := lp₀) (fun _ h => h.good)
  rw [hlen] at hs
  constructor
  · intro r j hj l u
    by_cases hr : PlainGlop lp₀ r
    · obtain ⟨s, hs⟩ := hr.glop
      have hj' := hdk.ints j hj
      have hc := hr.good.numCols
      rw [hs, hlen] at hc
      have hj'' : 0 ≤ j ∧ j < (s.iface.lp.cols.length : Int) := by
        rw [show s.iface.lp.cols.length = c.data.lower.length from hc]; exact hj'
      have : ∃ r', (oracle e c).setBounds r j l u = .ok r' :=
        ⟨_, by simp only [oracle, hs, Lp.setColumnBounds, Glop.setColumnBounds, if_pos hj'']; rfl⟩
      exact this.imp fun _ h => (if_pos hr).trans h
    · exact ⟨r, if_neg hr⟩
  · intro r
    by_cases hr : PlainGlop lp₀ r
    · obtain ⟨s, hs⟩ := hr.glop
      have : ∃ r', (oracle e c).solve r = .ok r' :=
        ⟨_, by simp only [oracle, World.solve, hs, if_pos (show (s.solveLp true _ _ _).2 = true from solveLp_returns _ (he _ _))]; rfl⟩
      exact this.imp fun _ h => (if_pos hr).trans h
    · exact ⟨r, if_neg hr⟩
  · intro r _
    by_cases hr : PlainGlop lp₀ r
    · exact ⟨r, (if_pos hr).trans (separate_plain hn hr.toPlain)⟩
    · exact ⟨r, if_neg hr⟩
  · intro r ho
    by_cases hr : PlainGlop lp₀ r
    · obtain ⟨s, hs⟩ := hr.glop
      have : ∃ values, (oracle e c).primal r = .ok values :=
        ⟨_, by simp only [oracle, World.primal, hs]; rfl⟩
      exact this.imp fun _ h => (if_pos hr).trans h
    · have h' := (if_neg hr).symm.trans ho
      cases h'
  · intro r values hv hi
    cases hrule : c.rule with
    | maxFractional dir =>
      obtain ⟨col, up, v, h1, h2, -⟩ := Solver.maxFractional_fractional hdk hs
        (usesMaxFractional (e := e) hrule) htol hv hi
      exact ⟨r, col, up, h1, hdk.ints _ h2⟩
    | random seed dir =>
      have hne : 0 < c.data.integerVariables.length := by
        rcases hi' : c.data.integerVariables with _ | ⟨a, l⟩
        · rw [MipData.solutionIsIntegral, hi'] at hi
          cases hi
        · simp
      by_cases hr : PlainGlop lp₀ r
      · have : ∃ up, (oracle e c).branch r =
            .ok ({ r with world := { r.world with draws := r.world.draws + 1 } },
              ((e.draw r.world.draws % c.data.integerVariables.length : Nat) : Int), up) :=
          ⟨_, by simp only [oracle, branch, hrule, Branching.random, if_pos hne]; rfl⟩
        obtain ⟨up, hup⟩ := this
        refine ⟨_, _, up, (if_pos hr).trans hup, by omega, ?_⟩
        · have h1 := Nat.mod_lt (e.draw r.world.draws) hne
          have h2 : c.data.integerVariables.length ≤ c.data.lower.length := by
            have hsub : c.data.integerVariables ⊆ (List.range c.data.lower.length).map (Int.ofNat) := by
              intro j hj
              have := hdk.ints j hj
              exact List.mem_map.2 ⟨j.toNat, by rw [List.mem_range]; omega, by simp; omega⟩
            simpa using (hd.integersNodup.subperm hsub).length_le
          omega
      · have h' := (if_neg hr).symm.trans hv
        cases h'

/-- **C77, what holds.**  For every well-formed problem, with Glop, without cuts, with both branching
rules: if every call of the simplex returns, then no iteration of `Solve` aborts or runs into undefined
behaviour, and the only error it returns is the one for a root LP that is not optimal.

Missing for C77: SoPlex, which aborts when branching makes bounds cross
(`C77_soplex_crossing_bounds_violated`), and cuts (C34). -/
theorem C77_glop_never_aborts_partial {e : Engine} (he : e.GlopReturns) {x : Setup.External} {p : Problem}
    (hp : p.WellFormed) {user : Setup.ParamsMsg} {c : Setup.Created}
    (h : Setup.create x p user = .ok c) (hl : ∃ s g, c.lpi = .glop s g) (hn : NoCuts c.runner.params)
    (htol : 0 ≤ user.integralityTolerance.getD (1 / 10 ^ 6)) (fuel : Nat) :
    solve e c fuel = none ∨ (∃ s, solve e c fuel = some (.ok s)) ∨
      solve e c fuel = some (.error "The problem is infeasible or unbounded") := by
  obtain ⟨hd, h₀⟩ := created_refines hp h
  obtain ⟨-, -, -, -, -, h6, -⟩ := Setup.create_ok h
  rw [← h6] at htol
  have hlen : (start c.lpi).program.cols.length = c.data.lower.length := by
    rw [h₀.numCols, hd.lower, List.length_map]; rfl
  have hs := primalShape (e := e) (c := c) (Good' := PlainGlop (start c.lpi).program)
    (lp₀ := (start c.lpi).program) (fun _ h => h.good)
  rw [hlen] at hs
  have hg : PlainGlop (start c.lpi).program { world := { lp := start c.lpi } } := by
    obtain ⟨s, g, hl⟩ := hl
    exact ⟨plain_start c, by rw [hl]; exact ⟨_, rfl⟩⟩
  have heq : solve e c fuel = Solver.solveFuel (guard (oracle e c) (PlainGlop (start c.lpi).program)) c.data
      (params c) fuel (Solver.initial { world := { lp := start c.lpi } }) :=
    (Solver.guard_solveFuel (keeps_plainGlop hn) _ _ (by exact hg)).symm
  cases ho : solve e c fuel with
  | none => exact Or.inl rfl
  | some out =>
    right
    rw [heq] at ho
    obtain ⟨s, hr, hs'⟩ := Solver.solveFuel_some ho
    have hres := Solver.C38_never_aborts (Solver.dataOk_of_represents hd) hs
      (responsive he hn hd htol h₀) hr
    rcases hs' with ⟨s', h1, rfl⟩ | ⟨m, h1, rfl⟩ | ⟨h1, rfl⟩ | ⟨h1, rfl⟩
    · exact Or.inl ⟨_, rfl⟩
    · right
      rcases hres with ⟨r, h2⟩ | h2
      · rw [h1] at h2; cases h2
      · rw [h1] at h2; cases h2; rfl
    · rcases hres with ⟨r, h2⟩ | h2 <;> rw [h1] at h2 <;> cases h2
    · rcases hres with ⟨r, h2⟩ | h2 <;> rw [h1] at h2 <;> cases h2

end Program
end MiniMip
