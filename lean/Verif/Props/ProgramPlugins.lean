import Verif.Props.ProgramRows

/-!
# C98: cut generators and cut selectors of the user

The interfaces of generators and selectors (cuts_generator.h, cuts_selector.h) let users add their own.  Whatever these
do, `Solve` ends and returns feasible points; if the cuts are valid, the best one is optimal.  They get the solver by
constant reference, so they only read the LP.
-/

namespace MiniMip
namespace Program

open Glop (LinearProgram Refines Extends Stored)
open Solver (Oracle Contract guard point)

variable {generators : List (World → CutRegistry → Outcome (World × List CutData))}
  {select : World → CutRegistry → List CutData → Outcome (World × List CutData)}

theorem custom_separate_extends {e : Engine} {c : Setup.Created}
    (hro : Runner.ReadsOnly (customPlugins e c generators select)) {lp₀ : LinearProgram} {A : World → Prop}
    (hA : ∀ w w' : World, Extends lp₀ w.lp.program → w.solve e = .ok w' → A w') {r r' : Runner World}
    (h : (customOracle e c generators select).separate r = .ok r') (hr : Good lp₀ r) :
    Good lp₀ r' ∧ bounds r' = bounds r ∧ (A r.world → A r'.world) := by
  have key : ∀ A : World → Prop,
      (∀ w w' : World, Extends lp₀ w.lp.program → w.solve e = .ok w' → A w') → A r.world →
      (Extends lp₀ r'.world.lp.program ∧ bounds r' = bounds r) ∧ A r'.world := by
    intro A hA ha
    simp only [customOracle, customSeparate] at h
    split at h
    · rename_i x hx
      rw [h] at hx
      refine Runner.separateFuel_keeps hro
        (I := fun w => Extends lp₀ w.lp.program ∧ bounds { r' with world := w } = bounds r) (A := A)
        ?_ ?_ _ r r' hx ⟨hr, rfl⟩ ha
      · rintro w row w' ⟨h1, h2⟩ hw
        simp only [customPlugins, plugins, Outcome.bind_eq_ok] at hw
        obtain ⟨l, hl, hw⟩ := hw
        cases hw
        obtain ⟨name, hs⟩ := addRow_program hl
        obtain ⟨g1, -, g2⟩ := h1.addRow _ _ hs
        exact ⟨g1, (bounds_congr g2).trans h2⟩
      · rintro w w' ⟨h1, h2⟩ hw
        have hw' : w.solve e = .ok w' := hw
        have hp := (solve_world hw').1
        refine ⟨⟨by rw [hp]; exact h1, (bounds_congr fun c => ?_).trans h2⟩, hA w w' h1 hw'⟩
        show w'.lp.program.cols[c]?.map _ = w.lp.program.cols[c]?.map _
        rw [hp]
    · cases h
  refine ⟨(key (fun _ => True) (fun _ _ _ _ => trivial) trivial).1.1,
    (key (fun _ => True) (fun _ _ _ _ => trivial) trivial).1.2, fun ha => (key A hA ha).2⟩

theorem custom_contract_of {e : Engine} {c : Setup.Created}
    (hro : Runner.ReadsOnly (customPlugins e c generators select)) {lp₀ : LinearProgram} {A : World → Prop}
    (hA : ∀ w w' : World, Extends lp₀ w.lp.program → w.solve e = .ok w' → A w') :
    Contract (customOracle e c generators select) (Good lp₀) bounds fun r => A r.world := by
  have h := contract_of (c := c) hA
  refine ⟨h.setBounds, h.solve, ?_, h.branch⟩
  intro r r' hg ha _ h
  obtain ⟨h1, h2, h3⟩ := custom_separate_extends (A := A) hro hA h hg
  exact ⟨h1, h2, h3 ha⟩

theorem custom_keeps_good {e : Engine} {c : Setup.Created}
    (hro : Runner.ReadsOnly (customPlugins e c generators select)) {d : MipData} {lp₀ : LinearProgram} :
    Solver.Keeps (customOracle e c generators select) d (Good lp₀) where
  setBounds := (keeps_good (e := e) (c := c)).setBounds
  solve := (keeps_good (e := e) (c := c) (d := d)).solve
  separate r r' hg _ h :=
    (custom_separate_extends (A := fun _ => True) hro (fun _ _ _ _ => trivial) h hg).1
  branch := (keeps_good (e := e) (c := c) (d := d)).branch

/-- **C98, feasibility.**  For every well-formed problem, all parameters that `Create` takes, both LP interfaces and
whatever generators and selector that only read the LP: if the LP code reports points that satisfy the bounds and rows of
the LP up to `eps` whenever it claims to be optimal, then the solutions that `Solve` returns satisfy the bounds and
constraints of the user's problem up to `eps`, and integer variables are integral up to the integrality tolerance. -/
theorem C98_feasible {e : Engine} {eps : ℚ} (he : e.NearlyFeasible eps) {x : Setup.External} {p : Problem}
    (hp : p.WellFormed) {user : Setup.ParamsMsg} {c : Setup.Created} (h : Setup.create x p user = .ok c)
    (hgen : ∀ g ∈ generators, ∀ w reg w' cuts, g w reg = .ok (w', cuts) → w' = w)
    (hsel : ∀ w reg l w' cuts, select w reg l = .ok (w', cuts) → w' = w)
    {fuel : Nat} {s : Solver.State (Runner World)} (hs : customSolve e c generators select fuel = some (.ok s)) :
    (s.result.best = {} ∨
      p.FeasibleWithin eps (user.integralityTolerance.getD (1 / 10 ^ 6)) (point s.result.best.values)) ∧
    ∀ sol ∈ s.result.additional,
      p.FeasibleWithin eps (user.integralityTolerance.getD (1 / 10 ^ 6)) (point sol.values) := by
  obtain ⟨hd, h₀⟩ := created_refines hp h
  have hro : Runner.ReadsOnly (customPlugins e c generators select) := ⟨hgen, hsel⟩
  have htol : (params c).tol = user.integralityTolerance.getD (1 / 10 ^ 6) := by
    obtain ⟨-, -, -, -, -, h6, -⟩ := Setup.create_ok h
    exact h6
  have hg : Good (start c.lpi).program { world := { lp := start c.lpi } } := Extends.refl _
  have hsh : Solver.PrimalShape (guard (customOracle e c generators select) (Good (start c.lpi).program)) _ :=
    primalShape (e := e) (c := c) (Good' := Good (start c.lpi).program) (fun _ h => h)
  rw [h₀.numCols] at hsh
  rw [← htol]
  refine Solver.C89_feasible hd hsh (custom_contract_of hro (A := fun w => Solver.NearlyFeasibleAnswer
    (guard (customOracle e c generators select) (Good (start c.lpi).program)) c.data bounds eps { world := w })
      (answer_near he hp hd h₀)).guard hg (startsAt hd h₀) (fuel := fuel) ?_
  rw [Solver.guard_solveFuel (custom_keeps_good hro) _ _ (by exact hg)]
  exact hs

/-- **C98, termination.**  For every well-formed problem whose integer variables have finite bounds, both LP interfaces
and all parameters that `Create` takes with the max-fractional rule, and whatever generators and selector that only read
the LP: if the LP code's optimal points satisfy the bounds and rows of the LP up to `eps`, and `eps` is at most the
integrality tolerance, then `Solve` has ended within twice as many iterations as there are integer points within the
bounds of the integer variables. -/
theorem C98_ends (p : Problem) (hp : p.WellFormed) (hf : FiniteIntegers p) (e : Engine) (x : Setup.External)
    (user : Setup.ParamsMsg) (c : Setup.Created) (dir : Setup.Direction) (eps : ℚ) (he : e.NearlyFeasible eps)
    (h : Setup.create x p user = .ok c) (hr : c.rule = .maxFractional dir)
    (htol : 0 ≤ user.integralityTolerance.getD (1 / 10 ^ 6))
    (heps : eps ≤ user.integralityTolerance.getD (1 / 10 ^ 6))
    (hgen : ∀ g ∈ generators, ∀ w reg w' cuts, g w reg = .ok (w', cuts) → w' = w)
    (hsel : ∀ w reg l w' cuts, select w reg l = .ok (w', cuts) → w' = w) :
    customSolve e c generators select (iterationBound p) ≠ none := by
  obtain ⟨-, -, -, -, -, h6, -⟩ := Setup.create_ok h
  obtain ⟨hrep, h₀⟩ := created_refines hp h
  have hro : Runner.ReadsOnly (customPlugins e c generators select) := ⟨hgen, hsel⟩
  have hs : Solver.PrimalShape (guard (customOracle e c generators select) (Good (start c.lpi).program)) _ :=
    primalShape (e := e) (c := c) (Good' := Good (start c.lpi).program) (fun _ h => h)
  rw [h₀.numCols] at hs
  have hs' : Solver.PrimalShape (guard (customOracle e c generators select) (Good (start c.lpi).program))
      c.data.lower.length := by
    rw [hrep.lower, List.length_map]; exact hs
  have hg : Good (start c.lpi).program { world := { lp := start c.lpi } } := Extends.refl _
  rw [← h6] at htol heps
  have hu : Solver.UsesMaxFractional (guard (customOracle e c generators select) (Good (start c.lpi).program)) c.data
      (params c) := usesMaxFractional (e := e) hr
  have := Solver.C89_ends_partial c.data (Solver.dataOk_of_represents hrep) (finiteBounds hf hrep)
    (Runner World) _ (params c) (Good (start c.lpi).program) bounds
    { world := { lp := start c.lpi } } eps heps htol hs'
    (custom_contract_of hro (A := fun w => Solver.NearlyBoundedAnswer
        (guard (customOracle e c generators select) (Good (start c.lpi).program)) c.data bounds eps { world := w })
      (fun w w' hw hs ho values hv => (answer_near he hp hrep h₀ w w' hw hs ho values hv).1)).guard
    hu hg (startsAt hrep h₀)
  rw [Solver.guard_solveFuel (custom_keeps_good hro) _ _ (by exact hg), iterationBound_eq hrep] at this
  exact this

/-! ### Valid cuts -/

/-- The cut is stored clean, and no feasible point of the problem violates it. -/
def Honest (p : Problem) (cut : CutData) : Prop :=
  SparseVector.Clean cut.row.entries ∧ ∀ y, p.Feasible y → cut.row.eval y ≤ cut.rhs

/-- The LP has the columns of the problem, and no feasible point of the problem violates a row. -/
def Relaxes (p : Problem) (lp : LinearProgram) : Prop :=
  lp.cols.length = p.vars.length ∧
  ∀ y, p.Feasible y → ∀ (r : Nat) (row : Glop.Row), lp.rows[r]? = some row → Between row.lhs (lp.activity r y) row.rhs

structure HonestState (p : Problem) (lp₀ : LinearProgram) (r : Runner World) : Prop where
  good : Extends lp₀ r.world.lp.program
  sound : ∀ y, p.Feasible y → SoundAt lp₀ y r.world
  cuts : ∀ cut ∈ r.registry.cuts, Honest p cut

theorem keeps_honest {e : Engine} {c : Setup.Created} {d : MipData} {p : Problem} {lp₀ : LinearProgram}
    (hn : lp₀.cols.length = p.vars.length) (hro : Runner.ReadsOnly (customPlugins e c generators select))
    (hgen : ∀ g ∈ generators, ∀ w reg w' cuts, Relaxes p w.lp.program → g w reg = .ok (w', cuts) →
      ∀ cut ∈ cuts, Honest p cut)
    (hsel : ∀ w reg l w' cuts, select w reg l = .ok (w', cuts) → (∀ cut ∈ l, Honest p cut) → ∀ cut ∈ cuts, Honest p cut) :
    Solver.Keeps (customOracle e c generators select) d (HonestState p lp₀) where
  setBounds r hr j _ l u r' h := by
    have h : (oracle e c).setBounds r j l u = .ok r' := h
    simp only [oracle, Outcome.bind_eq_ok] at h
    obtain ⟨lp, h1, h4⟩ := h
    cases h4
    obtain ⟨-, -, h2⟩ := setColumnBounds_program h1
    refine ⟨?_, fun y hy => (hr.sound y hy).setBounds h1, hr.cuts⟩
    show Extends lp₀ lp.program
    rw [h2]; exact hr.good.withBounds _ _ _
  solve r r' hr h := by
    have h : (oracle e c).solve r = .ok r' := h
    obtain ⟨h1, h2, -, h4⟩ := solve_spec h
    exact ⟨by rw [h2]; exact hr.good, fun y hy => (hr.sound y hy).congr h2, by rw [h4]; exact hr.cuts⟩
  separate r r' hr _ h := by
    simp only [customOracle, customSeparate] at h
    split at h
    · rename_i x hx
      rw [h] at hx
      have hm : Runner.Makes (customPlugins e c generators select)
          (fun w => Extends lp₀ w.lp.program ∧ ∀ y, p.Feasible y → SoundAt lp₀ y w) (Honest p) := by
        refine ⟨fun g hg w reg w' cuts hw hh => hgen g hg w reg w' cuts ?_ hh, hsel, fun cut i hc => hc⟩
        exact ⟨by rw [hw.1.numCols, hn], fun y hy => (hw.2 y hy).valid⟩
      have key := Runner.separateFuel_cuts hro (A := fun _ => True) hm (fun w cut w' hw hcut h => by
          obtain ⟨g1, g2⟩ := hw
          simp only [customPlugins, plugins, Outcome.bind_eq_ok] at h
          obtain ⟨l, hl, h⟩ := h
          cases h
          rw [readLhs_neg] at hl
          obtain ⟨name, k1⟩ := addRow_program hl
          exact ⟨(g1.addRow _ _ k1).1, fun y hy => ((g2 y hy).addRow ⟨hcut.1, hcut.2 y hy⟩ hl).1⟩)
        (fun w w' hw h => by
          obtain ⟨g1, g2⟩ := hw
          have hw' : w.solve e = .ok w' := h
          have hp := (solve_world hw').1
          exact ⟨⟨by rw [hp]; exact g1, fun y hy => (g2 y hy).congr hp⟩, trivial⟩) _ r r' hx
        ⟨hr.good, hr.sound⟩ hr.cuts trivial
      exact ⟨key.1.1, key.1.2, key.2.1⟩
    · cases h
  branch r r' col up hr h := by
    have h : (oracle e c).branch r = .ok (r', col, up) := h
    obtain ⟨h1, h2⟩ := branch_spec h
    exact ⟨by rw [h1]; exact hr.good, fun y hy => (hr.sound y hy).congr (by rw [h1]), by rw [h2]; exact hr.cuts⟩

/-- **C98, optimality.**  For every well-formed problem, all parameters that `Create` takes, both LP interfaces and whatever generators and selector that only read the LP: suppose the generators
return clean cuts that no feasible point violates whenever they are called on an LP with the columns of the problem and
rows that no feasible point violates, whatever the bounds of that LP are (the cuts stay in the LP when its bounds change),
and the selector returns such cuts when given such cuts.  If the LP code answers rightly up to tolerances and `Solve`
returns OK, then every feasible point is at most `2 * delta` better than the best solution, and there is one if there is a
feasible point. -/
theorem C98_optimal {e : Engine} {eps delta : ℚ} (he : e.Approximate eps delta) {x : Setup.External}
    {p : Problem} (hp : p.WellFormed) {user : Setup.ParamsMsg} {c : Setup.Created}
    (h : Setup.create x p user = .ok c)
    (hgen : ∀ g ∈ generators, ∀ w reg w' cuts, g w reg = .ok (w', cuts) →
      w' = w ∧ (Relaxes p w.lp.program → ∀ cut ∈ cuts, Honest p cut))
    (hsel : ∀ w reg l w' cuts, select w reg l = .ok (w', cuts) →
      w' = w ∧ ((∀ cut ∈ l, Honest p cut) → ∀ cut ∈ cuts, Honest p cut))
    {fuel : Nat} {s : Solver.State (Runner World)} (hs : customSolve e c generators select fuel = some (.ok s))
    {y : Int → ℚ} (hy : p.Feasible y) :
    s.result.best ≠ {} ∧
      if p.isMaximization then p.userObjective y ≤ p.userObjective (point s.result.best.values) + 2 * delta
      else p.userObjective (point s.result.best.values) ≤ p.userObjective y + 2 * delta := by
  obtain ⟨hd, h₀⟩ := created_refines hp h
  have hro : Runner.ReadsOnly (customPlugins e c generators select) :=
    ⟨fun g hg w reg w' cuts hh => (hgen g hg w reg w' cuts hh).1, fun w reg l w' cuts hh => (hsel w reg l w' cuts hh).1⟩
  have hk : HonestState p (start c.lpi).program s.world := by
    refine keeps_solveFuel (keeps_honest (by rw [h₀.numCols]; rfl) hro
      (fun g hg w reg w' cuts hw hh => (hgen g hg w reg w' cuts hh).2 hw)
      fun w reg l w' cuts hh => (hsel w reg l w' cuts hh).2) _ _ hs ⟨Extends.refl _, fun y hy => ?_, ?_⟩
    · refine ⟨Extends.refl _, h₀.stored, fun r row hr => ?_⟩
      have hlt : r < p.relaxation.numRows := by
        rw [← h₀.numRows]; exact (List.getElem?_eq_some_iff.mp hr).1
      have hk : p.constraints[r]? = some p.constraints[r] := List.getElem?_eq_getElem hlt
      obtain ⟨h1, h2⟩ := h₀.rows r row hr
      show Between row.lhs ((start c.lpi).program.activity r y) row.rhs
      rw [h1, h2, h₀.activity hlt, relaxation_activity hp hk]
      simpa [Problem.relaxation, hk] using hy.2 _ (List.mem_of_getElem? hk)
    · simp [Solver.initial]
  exact C96_registry_accounts he hp h hro.generators hro.select hs hy fun cut hc =>
    ⟨(hk.cuts cut hc).1, (hk.cuts cut hc).2 y hy⟩

/-! ### Non-vacuity -/

/-- The LP of `thirds` with the cut `x ≤ 1`. -/
def unitLp (name : String) : LinearProgram :=
  { cols := [⟨.fin 0, .fin 9, -1, "x", [⟨0, 3⟩, ⟨1, 1⟩]⟩]
    rows := [⟨.ninf, .fin 4, "c"⟩, ⟨.ninf, .fin 1, name⟩] }

theorem unit_feasible (name : String) (y : Int → ℚ) :
    ((unitLp name).Feasible y ↔ 0 ≤ y 0 ∧ y 0 ≤ 1) ∧ (unitLp name).value y = -y 0 := by
  have hact : (unitLp name).activity 0 y = 3 * y 0 := by
    simp [LinearProgram.activity, LinearProgram.coefficient, unitLp, SparseVector.sumAt]
  have hact1 : (unitLp name).activity 1 y = y 0 := by
    simp [LinearProgram.activity, LinearProgram.coefficient, unitLp, SparseVector.sumAt]
  refine ⟨⟨fun ⟨h1, h2⟩ => ?_, fun ⟨h1, h2⟩ => ⟨?_, ?_⟩⟩, by simp [LinearProgram.value, unitLp]⟩
  · have h1 := h1 0 _ rfl
    have h2 := h2 1 _ rfl
    rw [hact1] at h2
    simp only [Between, Dbl.le_fin] at h1 h2
    exact ⟨h1.1, by linarith [h2.2]⟩
  · intro n col hn
    match n with
    | 0 =>
      cases hn
      simp only [Between, Dbl.le_fin]
      exact ⟨h1, by push_cast; linarith⟩
    | n + 1 => simp [unitLp] at hn
  · intro n row hn
    match n with
    | 0 =>
      cases hn
      rw [hact]
      simp only [Between, Dbl.le_fin]
      exact ⟨rfl, by linarith⟩
    | 1 =>
      cases hn
      rw [hact1]
      simp only [Between, Dbl.le_fin]
      exact ⟨rfl, by linarith⟩
    | n + 2 => simp [unitLp] at hn

/-- A generator that makes the cut `x ≤ 1` once. -/
noncomputable def unitGenerator (w : World) (reg : CutRegistry) : Outcome (World × List CutData) :=
  .ok (w, if reg.cuts.isEmpty then [thirdsCut 1 1 "user"] else [])

/-- A selector that takes all cuts. -/
def allSelector (w : World) (_ : CutRegistry) (l : List CutData) : Outcome (World × List CutData) := .ok (w, l)

theorem unit_separate {e : Engine} (hret : e.GlopReturns) (hin : e.GlopInTime) (he : e.Right)
    {c : Setup.Created} (hc : ThirdsCreated c) {w : World} (h : Solved thirdsLp (4 / 3) w) :
    ∃ r, customSeparate e c [unitGenerator] allSelector { world := w } = .ok r ∧
      Nonempty (Solved (unitLp "user") 1 r.world) := by
  have hadd : ∃ s', Lp.addRow w.lp ⟨(thirdsCut 1 1 "user").row, .ninf, .fin (thirdsCut 1 1 "user").rhs,
      (thirdsCut 1 1 "user").name⟩ = .ok (.glop s') ∧ s'.iface.lp = unitLp "user" ∧
      s'.settings = h.session.settings := by
    have h1 := h.program
    have h2 : ∃ g, Glop.addRow h.session.iface (thirdsCut 1 1 "user").row .ninf
        (.fin (thirdsCut 1 1 "user").rhs) (thirdsCut 1 1 "user").name = .ok g ∧ g.lp = unitLp "user" := by
      simp only [Glop.addRow, h1]
      exact ⟨_, rfl, rfl⟩
    obtain ⟨g, hg, hlp⟩ := h2
    refine ⟨{ h.session with iface := g }, ?_, hlp, rfl⟩
    simp only [Lp.addRow, h.glop, hg, Outcome.bind_ok, Outcome.pure_eq]
  obtain ⟨s', hadd, hs1, hs2⟩ := hadd
  obtain ⟨s3, hsol, hp3, hset3, hsolved3, hst3, hgo3, hans⟩ := glop_solve hret hin he
    (w := { w with lp := .glop s' }) (s := s') rfl (by rw [hs2]; exact h.limit)
  rw [hp3, hs1] at hans
  obtain ⟨ho, hpt, hv⟩ := (line_optimum (fun y => (unit_feasible "user" y).1) (fun y => (unit_feasible "user" y).2) rfl
    hans).1 (by norm_num)
  have hround : ∃ r, Runner.round (customPlugins e c [unitGenerator] allSelector) { world := w } = .ok (r, true) ∧
      r.numCutrounds = 1 ∧ r.numCutsAdded = 0 ∧ r.registry.activeIndices.length ≤ 1 ∧ r.registry.cuts.isEmpty = false ∧
      r.world = { w with lp := .glop s3, report := (e.glop w.solves s').2.2.2, solves := w.solves + 1 } := by
    have hrow : (customPlugins e c [unitGenerator] allSelector).addRow w ⟨(thirdsCut 1 1 "user").row,
        (customPlugins e c [unitGenerator] allSelector).infinity.neg, .fin (thirdsCut 1 1 "user").rhs,
        (thirdsCut 1 1 "user").name⟩ = .ok { w with lp := .glop s' } := by
      simp only [customPlugins, plugins, readLhs_neg, hadd, Outcome.bind_ok, Outcome.pure_eq]
    simp only [Runner.round, show (customPlugins e c [unitGenerator] allSelector).generators = [unitGenerator] from rfl,
      show (customPlugins e c [unitGenerator] allSelector).select = allSelector from rfl,
      Runner.generate, unitGenerator, allSelector, List.isEmpty_nil, if_true, Outcome.bind_ok, Outcome.pure_eq,
      List.isEmpty_cons, Bool.false_eq_true, if_false, Runner.addAll, CutRegistry.addCut, CutData.setIndex,
      CutData.getIndex, List.append_nil, Runner.addRows, CutRegistry.getCut, List.nil_append, List.length_nil,
      Nat.cast_zero, lt_irrefl, Int.toNat_zero, List.getElem?_cons_zero, hrow]
    rw [show (customPlugins e c [unitGenerator] allSelector).solve = World.solve e from rfl, hsol]
    exact ⟨_, rfl, rfl, rfl, by simp, rfl, rfl⟩
  obtain ⟨r, hr1, hr2, hr3, hr4, hr6, hr5⟩ := hround
  have hS : Solved (unitLp "user") 1 r.world := by
    rw [hr5]
    exact ⟨s3, rfl, hp3.trans hs1, by rw [hset3, hs2]; exact h.tolerance, by rw [hset3, hs2]; exact h.limit, hsolved3,
      ho, hgo3 ho, hpt, hv⟩
  have hround2 : Runner.round (customPlugins e c [unitGenerator] allSelector) r = .ok (r, false) := by
    simp only [Runner.round, show (customPlugins e c [unitGenerator] allSelector).generators = [unitGenerator] from rfl,
      Runner.generate, unitGenerator, hr6, Outcome.bind_ok, Outcome.pure_eq, Bool.false_eq_true, if_false,
      List.isEmpty_nil, if_true]
  have hmay1 : Runner.mayRun c.runner.params (customPlugins e c [unitGenerator] allSelector) { world := w } = true :=
    default_mayRun (e := e) hc (by show w.lp.stop = false; rw [h.glop]; exact h.go)
      (by show w.lp.isSolved = true; rw [h.glop]; exact h.solved) (by norm_num) (by norm_num) (by simp)
  have hmay2 : Runner.mayRun c.runner.params (customPlugins e c [unitGenerator] allSelector) r = true :=
    default_mayRun (e := e) hc (by rw [hS.glop]; exact hS.go) (by rw [hS.glop]; exact hS.solved) (by omega) (by omega)
      (by omega)
  refine ⟨r, ?_, ⟨hS⟩⟩
  unfold customSeparate
  rw [hc.params, show ((({} : RunnerParams).maxIterations - ({ world := w } : Runner World).numCutrounds).toNat + 1) = 101 from rfl]
  rw [hc.params] at hmay1 hmay2
  simp [Runner.separateFuel, hmay1, hmay2, hr1, hround2]

theorem unit_run {e : Engine} (hret : e.GlopReturns) (hin : e.GlopInTime) (he : e.Right)
    {c : Setup.Created} (hc : ThirdsCreated c) {set : Glop.Settings} {g : Glop.Interface} (hl : c.lpi = .glop set g)
    (hg : g.lp = thirdsLp) (htol : set.primalTolerance = .fin (1 / 10 ^ 8)) (hlim : set.maxIterations = -1) :
    ∃ s, customSolve e c [unitGenerator] allSelector 1 = some (.ok s) ∧ s.result.best = ⟨[1], .fin (-1)⟩ := by
  set o := customOracle e c [unitGenerator] allSelector with ho'
  obtain ⟨s1, hb1, hs1, hset1⟩ := glop_bounds (e := e) (c := c) (r := { world := { lp := start c.lpi } })
    (s := { iface := g, settings := set }) (by rw [hl]; rfl) (by show g.lp.cols.length = 1; rw [hg]; rfl) (.fin 0) (.fin 9)
  rw [show (Glop.Interface.lp _) = thirdsLp from hg, show thirdsLp.withBounds 0 (.fin 0) (.fin 9) = thirdsLp from rfl] at hs1
  have hb1' : Solver.applyBounds o [.fin 0] [.fin 9] { world := { lp := start c.lpi } } [0] = _ := hb1
  obtain ⟨s2, hsol, hp2, hset2, hsolved2, hst2, hgo2, hans⟩ := glop_solve hret hin he
    (w := { lp := .glop s1 }) (s := s1) rfl (by rw [hset1]; exact hlim)
  rw [hp2, hs1] at hans
  obtain ⟨ho, hpt, hv⟩ := (line_optimum (fun y => (thirds_feasible y).1) (fun y => (thirds_feasible y).2) rfl hans).1
    (by norm_num)
  obtain ⟨r3, hsep, ⟨h3⟩⟩ := unit_separate hret hin he hc
    (w := { lp := .glop s2, report := (e.glop 0 s1).2.2.2, solves := 1 })
    ⟨s2, rfl, hp2.trans hs1, by rw [hset2, hset1]; exact htol, by rw [hset2, hset1]; exact hlim, hsolved2, ho, hgo2 ho,
      hpt, hv⟩
  have hnode : Solver.solveNode o c.data [.fin 0] [.fin 9] { world := { lp := start c.lpi } } = .ok r3 := by
    have hs : o.solve { world := { lp := .glop s1 } } =
        .ok { world := { lp := .glop s2, report := (e.glop 0 s1).2.2.2, solves := 1 } } := by
      simp only [o, customOracle, oracle, hsol, Outcome.bind_ok, Outcome.pure_eq]
    have hopt : o.isOptimal
        { world := { lp := .glop s2, report := (e.glop 0 s1).2.2.2, solves := 1 } } = true := by
      simp [o, customOracle, oracle, Lp.isOptimal, Glop.Session.isOptimal, ho]
    unfold Solver.solveNode
    rw [hc.integers, hb1']
    simp only [Outcome.bind_ok, hs, Outcome.orAbort, hopt, if_true]
    rw [show o.separate = customSeparate e c [unitGenerator] allSelector from rfl, hsep]
  have hopt3 : o.isOptimal r3 = true := by
    simp [o, customOracle, oracle, h3.glop, Lp.isOptimal, Glop.Session.isOptimal, h3.optimal]
  have hprim3 : o.primal r3 = .ok [1] := h3.primal rfl
  have hobj3 : o.objective r3 = .fin (-1) := h3.value
  have hone : c.data.solutionIsIntegral [1] (1 / 10 ^ 6) = .ok true := by
    unfold MipData.solutionIsIntegral
    rw [hc.integers]
    decide +kernel
  have htol' : (params c).tol = 1 / 10 ^ 6 := hc.tol
  obtain ⟨t1, ht1⟩ : ∃ t1, MipTree.init.setLpData 0 (.fin (-1)) = .ok t1 := by
    have h : (match MipTree.init.setLpData 0 (.fin (-1)) with
      | .ok _ => true
      | _ => false) = true := by decide +kernel
    split at h
    · rename_i t ht; exact ⟨t, ht⟩
    · cases h
  have hi1 : Solver.iterate o c.data (params c)
      (Solver.initial { world := { lp := start c.lpi } }) =
      .ok (.stop { queue := [], backjump := false, infeasible := 0, tree := t1, result := { best := ⟨[1], .fin (-1)⟩ }, world := r3 }) := by
    have hl0 : MipTree.init.retrieveLower 0 [.fin 0] = .ok [.fin 0] := by decide +kernel
    have hu0 : MipTree.init.retrieveUpper 0 [.fin 9] = .ok [.fin 9] := by decide +kernel
    unfold Solver.iterate
    simp only [Solver.initial, Solver.pop, if_true, List.getLast?_singleton, List.dropLast_singleton, hc.lower,
      hc.upper, hl0, hu0, Outcome.bind_ok, hnode, hopt3]
    unfold Solver.optimalNode
    simp only [hobj3, ht1, Outcome.bind_ok, hprim3, Outcome.orAbort, htol', hone, if_true]
    rfl
  refine ⟨⟨[], false, 0, t1, { best := ⟨[1], .fin (-1)⟩, solveStatus := some .optimal }, r3⟩, ?_, rfl⟩
  simp only [customSolve, Solver.solveFuel]
  rw [← ho', hi1]

/-- The hypotheses of C98 are met by `max x`, `3 x ≤ 4` with the default parameters, a generator that makes the cut
`x ≤ 1` and a selector that takes everything; `Solve` finds `x = 1` without branching. -/
example : ∃ x c s, Setup.create x thirds {} = .ok c ∧
    customSolve perfect c [unitGenerator] allSelector 1 = some (.ok s) ∧ s.result.best.values = [1] ∧
    (∀ g ∈ [unitGenerator], ∀ w reg w' cuts, g w reg = .ok (w', cuts) →
      w' = w ∧ (Relaxes thirds w.lp.program → ∀ cut ∈ cuts, Honest thirds cut)) ∧
    (∀ w reg l w' cuts, allSelector w reg l = .ok (w', cuts) →
      w' = w ∧ ((∀ cut ∈ l, Honest thirds cut) → ∀ cut ∈ cuts, Honest thirds cut)) ∧
    c.rule = .maxFractional .unspecified ∧ perfect.NearlyFeasible 0 ∧ perfect.Approximate 0 0 := by
  have htakes : Setup.GlopTakes ((({} : Setup.ParamsMsg).lp).getD {}).read := by
    refine ⟨⟨?_, ?_, ?_, ?_, ?_, ?_, ?_, ?_⟩, rfl, ?_, ?_, rfl, rfl⟩ <;>
      simp [Setup.LpMsg.read, ToleranceOk]
  obtain ⟨c, hc⟩ := (Setup.C73_glop_partial Setup.exExternal thirds thirds_spec.1 {} _ (Setup.lpWins _) rfl).1 htakes
  obtain ⟨-, hd, -, hrun, hrule, htol, hback⟩ := Setup.create_ok hc
  obtain ⟨hlo, hup, hint, hintc, hobj, hlp⟩ := thirds_created hd
  obtain ⟨set, g, hl, hg, htol', hmax⟩ := default_glop hc rfl
  have hT : ThirdsCreated c := by
    refine ⟨hlo, hup, hint, hintc, hobj, htol, ?_, ?_, ?_⟩
    · rw [hrun]; rfl
    · rw [hrun]
    · rw [hrun]; rfl
  obtain ⟨s, h1, h2⟩ := unit_run perfect_spec.2 perfect_inTime perfect_spec.1 hT hl (hlp _ _ hg) htol' hmax
  refine ⟨_, c, s, hc, h1, by rw [h2], ?_, ?_, hrule, ?_, perfect_spec.1.approximate le_rfl le_rfl⟩
  · intro g hg w reg w' cuts h
    simp only [List.mem_singleton] at hg
    subst hg
    simp only [unitGenerator, Outcome.ok.injEq, Prod.mk.injEq] at h
    refine ⟨h.1.symm, fun _ cut hcut => ?_⟩
    rw [← h.2] at hcut
    split at hcut
    · simp only [List.mem_singleton] at hcut
      subst hcut
      refine ⟨by simp [thirdsCut, createCut, SparseVector.Clean], fun y hy => ?_⟩
      have h0 := hy.1 0 _ rfl
      have h3 := hy.2 _ (List.mem_singleton.2 rfl)
      obtain ⟨n, hn⟩ := h0.2 rfl
      simp [Between, Dbl.le, Constraint.activity] at h3
      have h1 : y 0 = n := hn
      have h2 : n ≤ 1 := by
        by_contra hlt
        have : (2 : ℚ) ≤ n := by exact_mod_cast (by omega : 2 ≤ n)
        linarith
      have h4 : (n : ℚ) ≤ 1 := by exact_mod_cast h2
      have h5 : (thirdsCut 1 1 "user").row.eval y = y 0 := by
        simp [thirdsCut, createCut, SparseVector.eval, evalEntries]
      rw [h5, h1]
      exact h4
    · simp at hcut
  · intro w reg l w' cuts h
    simp only [allSelector, Outcome.ok.injEq, Prod.mk.injEq] at h
    exact ⟨h.1.symm, fun hl => by rw [← h.2]; exact hl⟩
  · exact (perfect_spec.1.approximate le_rfl le_rfl : perfect.Approximate 0 0).nearly

end Program
end MiniMip
