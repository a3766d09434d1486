import Verif.Lemmas.SolverOpen
import Verif.Lemmas.ProgramPerfect

/-!
# C77 for SoPlex

The SoPlex interface aborts if bounds cross (lpi_soplex.cc:111).
-/

namespace MiniMip
namespace Program

open Glop (LinearProgram Extends Refines)
open Solver (Oracle Contract guard point InBounds FeasibleAnswer StartsAt)

/-- The CHECK in `IsOptimal` of the SoPlex interface (lpi_soplex.cc:1082-1089) never fails, as used in
`Lp.isOptimal`. -/
theorem soplex_isOptimal (g : Soplex.Interface) :
    Soplex.isOptimal g = .ok (Lp.isOptimal (.soplex g)) := by
  unfold Soplex.isOptimal Soplex.isPrimalFeasible Soplex.isDualFeasible Lp.isOptimal
  cases g.basisStatus <;> rfl

/-- The calls of SoPlex return: `clearBasis` does not throw, `optimize` ends with one of the statuses of
lpi_soplex.cc:191-202 (not `OPTIMAL` if it throws) within the iteration limit, the time limit that is set is
accepted again, and after `OPTIMAL` there are primal values. -/
structure Engine.SoplexReturns (e : Engine) : Prop where
  eps : 0 ≤ e.epsilonZero
  clear : ∀ n g, (e.soplex n g).1 = false
  throws : ∀ n g, (e.soplex n g).2.1.throws = true → (e.soplex n g).2.1.status ≠ .optimal
  iterations : ∀ n g, g.settings.iterlimit < 0 ∨ (e.soplex n g).2.1.iterations ≤ g.settings.iterlimit
  fine : ∀ n g, (e.soplex n g).2.1.status.isFine = true
  time : ∀ g : Soplex.Interface, e.accepts.real .timelimit g.settings.timelimit = true
  values : ∀ n g, (e.soplex n g).2.1.status = .optimal → (e.soplex n g).2.2.primal.isSome = true

/-- Every integer variable has integral bounds, or infinite ones. -/
def IntegralIntegers (p : Problem) : Prop :=
  ∀ v ∈ p.vars, v.isInteger = true →
    (v.lower = .ninf ∨ ∃ k : Int, v.lower = .fin k) ∧ (v.upper = .pinf ∨ ∃ k : Int, v.upper = .fin k)

theorem between_round {l u : Dbl} (hl : l = .ninf ∨ ∃ k : Int, l = .fin k)
    (hu : u = .pinf ∨ ∃ k : Int, u = .fin k) {y : ℚ} (h : Between l y u) :
    Between l (⌊y⌋ : Int) u ∧ Between l (⌈y⌉ : Int) u := by
  obtain ⟨h1, h2⟩ := h
  refine ⟨⟨?_, ?_⟩, ?_, ?_⟩
  · rcases hl with rfl | ⟨k, rfl⟩
    · rfl
    · rw [Dbl.le_fin] at h1 ⊢; exact_mod_cast Int.le_floor.2 h1
  · rcases hu with rfl | ⟨k, rfl⟩
    · rfl
    · rw [Dbl.le_fin] at h2 ⊢; exact (Int.floor_le y).trans h2
  · rcases hl with rfl | ⟨k, rfl⟩
    · rfl
    · rw [Dbl.le_fin] at h1 ⊢; exact h1.trans (Int.le_ceil y)
  · rcases hu with rfl | ⟨k, rfl⟩
    · rfl
    · rw [Dbl.le_fin] at h2 ⊢; exact_mod_cast Int.ceil_le.2 h2

theorem between_exists {l u : Dbl} (hl : l = .ninf ∨ ∃ k : Int, l = .fin k)
    (hu : u = .pinf ∨ ∃ k : Int, u = .fin k) (h : Dbl.le l u = true) : ∃ k : Int, Between l k u := by
  rcases hl with rfl | ⟨k, rfl⟩
  · rcases hu with rfl | ⟨k, rfl⟩
    · exact ⟨0, rfl, rfl⟩
    · exact ⟨k, rfl, by rw [Dbl.le_fin]⟩
  · exact ⟨k, by rw [Dbl.le_fin], h⟩

theorem ordered_bounds {p : Problem} (hp : p.WellFormed) {d : MipData} (hd : d.Represents p) (n : Nat)
    (l u : Dbl) (hl : d.lower[n]? = some l) (hu : d.upper[n]? = some u) : Dbl.le l u = true := by
  rw [hd.lower, List.getElem?_map, Option.map_eq_some_iff] at hl
  obtain ⟨v, hv, rfl⟩ := hl
  rw [hd.upper, List.getElem?_map, hv] at hu
  cases hu
  exact (hp.1 v (List.mem_of_getElem? hv)).2

theorem integralBounds {p : Problem} (hp : p.WellFormed) (hi : IntegralIntegers p) {d : MipData}
    (hd : d.Represents p) : Solver.IntegralBounds d := by
  intro n l u hn hl hu
  have hle := ordered_bounds hp hd n l u hl hu
  obtain ⟨m, v, hv, hvi, hnm⟩ := (hd.integers n).1 hn
  have : n = m := by omega
  subst this
  rw [hd.lower, List.getElem?_map, hv] at hl
  rw [hd.upper, List.getElem?_map, hv] at hu
  cases hl
  cases hu
  obtain ⟨h1, h2⟩ := hi v (List.mem_of_getElem? hv) hvi
  exact ⟨between_exists h1 h2 hle, fun y hy => between_round h1 h2 hy⟩

/-- The states of a run of SoPlex without cuts. -/
structure PlainSoplex (lp₀ : LinearProgram) (r : Runner World) : Prop extends Plain lp₀ r where
  soplex : ∃ g, r.world.lp = .soplex g ∧ Soplex.freed g = true ∧
    (g.status = .optimal → r.world.report.primal.isSome = true)

theorem not_lt_of_le {a b : Dbl} (h : Dbl.le a b = true) {eps : ℚ} (he : 0 ≤ eps) :
    Dbl.lt (Dbl.add b (.fin eps)) a = false := by
  cases a <;> cases b <;> simp_all [Dbl.le, Dbl.lt, Dbl.add]
  linarith

theorem soPlexSolve_returns {e : Engine} (he : e.SoplexReturns) (n : Nat) (g : Soplex.Interface)
    (hf : Soplex.freed g = true) (hc : Soplex.consistent g e.epsilonZero = true) :
    ∃ g', Soplex.soPlexSolve e.accepts g e.epsilonZero (e.soplex n g).1 (e.soplex n g).2.1 = .ok (g', true) ∧
      Soplex.freed g' = true ∧ g'.status = (e.soplex n g).2.1.status := by
  have ht := he.time g
  have hth := he.throws n g
  have hi := he.iterations n g
  have hfi := he.fine n g
  have h1 : (!(e.soplex n g).2.1.throws || decide ((e.soplex n g).2.1.status ≠ .optimal)) = true := by
    cases hx : (e.soplex n g).2.1.throws with
    | false => rfl
    | true => simpa using hth hx
  have h2 : (decide (g.settings.iterlimit < 0) ||
      decide ((e.soplex n g).2.1.iterations ≤ g.settings.iterlimit)) = true := by
    simpa using hi
  unfold Soplex.soPlexSolve
  rw [he.clear]
  have hf' : g.savedRows.isEmpty = true ∧ g.savedCols.isEmpty = true := by simpa [Soplex.freed] using hf
  unfold Soplex.consistent at hc
  simp only [Soplex.freed, hf'.1, hf'.2, Bool.and_self, Outcome.check, if_true, Outcome.bind_ok,
    Bool.and_false, Bool.false_eq_true, if_false]
  cases hs : g.settings.solveFromScratch <;>
  · simp only [Bool.false_eq_true, if_false, if_true, Soplex.lpSolve, Soplex.consistent]
    simp only [Outcome.check, hc, if_true, Outcome.bind_ok, h1, h2, ht, Outcome.pure_eq, hfi,
      Outcome.ok.injEq, Prod.mk.injEq, and_true, exists_eq_left']
    simp [hf'.1, hf'.2]

theorem keeps_plainSoplex {e : Engine} (he : e.SoplexReturns) {c : Setup.Created}
    (hn : NoCuts c.runner.params) {d : MipData} {lp₀ : LinearProgram} :
    Solver.Keeps (oracle e c) d (PlainSoplex lp₀) where
  setBounds r hg j hj l u r' h := by
    refine ⟨(keeps_plain hn).setBounds (d := d) r hg.toPlain j hj l u r' h, ?_⟩
    obtain ⟨g, hs, hf, ho⟩ := hg.soplex
    simp only [oracle, Outcome.bind_eq_ok] at h
    obtain ⟨lp, h1, h2⟩ := h
    cases h2
    rw [hs] at h1
    simp only [Lp.setColumnBounds, Soplex.setColumnBounds, Outcome.bind_eq_ok] at h1
    obtain ⟨g', ⟨_, -, _, -, _, -, h2⟩, h1⟩ := h1
    cases h1
    cases h2
    exact ⟨_, rfl, hf, ho⟩
  solve r r' hg h := by
    refine ⟨(keeps_plain hn (d := d)).solve r r' hg.toPlain h, ?_⟩
    obtain ⟨g, hs, hf, -⟩ := hg.soplex
    have h1 := (solve_spec h).1
    unfold World.solve at h1
    rw [hs] at h1
    simp only [Outcome.bind_eq_ok] at h1
    obtain ⟨⟨g', ok⟩, h2, h1⟩ := h1
    have hc : Soplex.consistent g e.epsilonZero = true := by
      by_contra hc
      rw [Bool.not_eq_true] at hc
      unfold Soplex.consistent at hc
      have hf' : g.savedRows.isEmpty = true ∧ g.savedCols.isEmpty = true := by
        simpa [Soplex.freed] using hf
      unfold Soplex.soPlexSolve at h2
      rw [he.clear] at h2
      simp only [Soplex.freed, hf'.1, hf'.2, Bool.and_self, Outcome.check, if_true, Outcome.bind_ok,
        Bool.and_false, Bool.false_eq_true, if_false] at h2
      cases hs : g.settings.solveFromScratch <;> rw [hs] at h2 <;>
      · simp only [Bool.false_eq_true, if_false, if_true, Soplex.lpSolve, Soplex.consistent,
          Outcome.check, hc,
          Outcome.bind_abort] at h2
        cases h2
    obtain ⟨g'', h3, h4, h5⟩ := soPlexSolve_returns he r.world.solves g hf hc
    rw [h2] at h3
    cases h3
    rw [if_pos rfl] at h1
    have h1 := Outcome.ok.inj h1
    rw [← h1]
    exact ⟨_, rfl, h4, fun ho => he.values _ _ (h5.symm.trans ho)⟩
  separate r r' hg _ h := by
    have : r = r' := Outcome.ok.inj ((separate_plain hn hg.toPlain).symm.trans h)
    rw [← this]; exact hg
  branch r r' col up hg h := by
    refine ⟨(keeps_plain hn (d := d)).branch r r' col up hg.toPlain h, ?_⟩
    obtain ⟨g, hs, hf, ho⟩ := hg.soplex
    refine ⟨g, by rw [(branch_spec h).1]; exact hs, hf, ?_⟩
    simp only [oracle, Outcome.bind_eq_ok] at h
    obtain ⟨⟨w, col', up'⟩, h1, h2⟩ := h
    cases h2
    unfold branch at h1
    split at h1 <;> simp only [Outcome.bind_eq_ok] at h1 <;> obtain ⟨x, -, h1⟩ := h1 <;> cases h1 <;> exact ho

/-- Without crossing bounds the stored LP is consistent. -/
theorem consistent_of {p : Problem} (hp : p.WellFormed) {d : MipData} (hd : d.Represents p)
    {lp₀ : LinearProgram} (h₀ : Refines lp₀ p.relaxation) {r : Runner World} (hr : Plain lp₀ r)
    {g : Soplex.Interface} (hg : r.world.lp = .soplex g) (hu : Solver.Uncrossed d bounds r) {eps : ℚ}
    (he : 0 ≤ eps) : Soplex.consistent g eps = true := by
  have hlp : r.world.lp.program = g.lp := by rw [hg]; rfl
  have hlen : g.lp.cols.length = d.lower.length := by
    rw [← hlp, hr.good.numCols, h₀.numCols, hd.lower, List.length_map]; rfl
  unfold Soplex.consistent
  rw [Bool.and_eq_true, List.all_eq_true, List.all_eq_true]
  constructor
  · intro col hcol
    obtain ⟨n, hn, rfl⟩ := List.mem_iff_getElem.mp hcol
    have := hu n (by rw [← hlen]; exact hn)
    rw [bounds_nat, hlp, List.getElem?_eq_getElem hn] at this
    rw [not_lt_of_le (by exact this) he]
    rfl
  · intro row hrow
    obtain ⟨extra, hex⟩ := hr.good.rows
    have hnil : extra = [] := by
      have := hr.numRows
      rw [hex, List.length_append] at this
      exact List.length_eq_zero_iff.mp (by omega)
    rw [hnil, List.append_nil, hlp] at hex
    rw [hex] at hrow
    obtain ⟨n, hn, rfl⟩ := List.mem_iff_getElem.mp hrow
    have h1 := h₀.rows n _ (List.getElem?_eq_getElem hn)
    have hlt : n < p.constraints.length := by have := h₀.numRows; simp only [Problem.relaxation] at this; omega
    have hw := (hp.2 _ (List.getElem_mem hlt)).2.1
    rw [h1.1, h1.2, not_lt_of_le _ he]
    · rfl
    · simp only [Problem.relaxation, List.getElem?_eq_getElem hlt]
      exact hw

theorem responsive_soplex {e : Engine} (he : e.SoplexReturns) {c : Setup.Created}
    (hn : NoCuts c.runner.params) {p : Problem} (hp : p.WellFormed) (hd : c.data.Represents p)
    (htol : 0 ≤ c.integralityTolerance) {lp₀ : LinearProgram} (h₀ : Refines lp₀ p.relaxation)
    {dir : Setup.Direction} (hrule : c.rule = .maxFractional dir) :
    Solver.Responsive (Solver.careful (guard (oracle e c) (PlainSoplex lp₀)) c.data bounds) c.data
      (params c) := by
  have hdk := Solver.dataOk_of_represents hd
  have hlen : lp₀.cols.length = c.data.lower.length := by
    rw [h₀.numCols, hd.lower, List.length_map]; rfl
  have hs := primalShape (e := e) (c := c) (Good' := PlainSoplex lp₀) (lp₀ := lp₀) (fun _ h => h.good)
  rw [hlen] at hs
  constructor
  · intro r j hj l u
    by_cases hr : PlainSoplex lp₀ r
    · obtain ⟨g, hg, hf, -⟩ := hr.soplex
      have hj' := hdk.ints j hj
      have hc := hr.good.numCols
      rw [hg, hlen] at hc
      have hj'' : 0 ≤ j ∧ j < (g.lp.cols.length : Int) := by
        rw [show g.lp.cols.length = c.data.lower.length from hc]; exact hj'
      have : ∃ r', (oracle e c).setBounds r j l u = .ok r' :=
        ⟨_, by
          simp only [oracle, hg, Lp.setColumnBounds, Soplex.setColumnBounds, hf, hj''.1, hj''.2, Outcome.check,
            decide_true, if_true, Outcome.bind_ok]
          rfl⟩
      exact this.imp fun _ h => (if_pos hr).trans h
    · exact ⟨r, if_neg hr⟩
  · intro r
    by_cases hu : Solver.Uncrossed c.data bounds r
    · by_cases hr : PlainSoplex lp₀ r
      · obtain ⟨g, hg, hf, -⟩ := hr.soplex
        obtain ⟨g', h1, -⟩ := soPlexSolve_returns he r.world.solves g hf
          (consistent_of hp hd h₀ hr.toPlain hg hu he.eps)
        have : ∃ r', (oracle e c).solve r = .ok r' :=
          ⟨_, by simp only [oracle, World.solve, hg, h1, Outcome.bind_ok, if_true]; rfl⟩
        exact this.imp fun _ h => (if_pos hu).trans ((if_pos hr).trans h)
      · exact ⟨r, (if_pos hu).trans (if_neg hr)⟩
    · exact ⟨r, if_neg hu⟩
  · intro r _
    by_cases hr : PlainSoplex lp₀ r
    · exact ⟨r, (if_pos hr).trans (separate_plain hn hr.toPlain)⟩
    · exact ⟨r, if_neg hr⟩
  · intro r ho
    by_cases hr : PlainSoplex lp₀ r
    · obtain ⟨g, hg, -, hopt⟩ := hr.soplex
      have ho' : (oracle e c).isOptimal r = true := (if_pos hr).symm.trans ho
      have ho'' : g.status = .optimal := by simpa [oracle, hg, Lp.isOptimal] using ho'
      obtain ⟨f, hf⟩ := Option.isSome_iff_exists.mp (hopt ho'')
      have : ∃ values, (oracle e c).primal r = .ok values :=
        ⟨_, by simp only [oracle, World.primal, hg, Soplex.getPrimalValues, soplex_isOptimal, Lp.isOptimal,
          ho'', hf, Outcome.check, decide_true, if_true, Outcome.bind_ok]; rfl⟩
      exact this.imp fun _ h => (if_pos hr).trans h
    · have h' := (if_neg hr).symm.trans ho
      cases h'
  · intro r values hv hi
    obtain ⟨col, up, v, h1, h2, -⟩ := Solver.maxFractional_fractional hdk hs
      (usesMaxFractional (e := e) hrule) htol hv hi
    exact ⟨r, col, up, h1, hdk.ints _ h2⟩

theorem contract_soplex {e : Engine} (he : e.SoplexReturns) (hfe : e.Feasible) {p : Problem}
    (hp : p.WellFormed) {c : Setup.Created} (hn : NoCuts c.runner.params) (hd : c.data.Represents p)
    {lp₀ : LinearProgram} (h₀ : Refines lp₀ p.relaxation) :
    Contract (guard (oracle e c) (PlainSoplex lp₀)) (PlainSoplex lp₀) bounds
      (Solver.BoundedAnswer (guard (oracle e c) (PlainSoplex lp₀)) c.data bounds) := by
  have hk : ∀ {d : MipData}, Solver.Keeps (oracle e c) d (PlainSoplex lp₀) := keeps_plainSoplex he hn
  have hc := contract_of (e := e) (c := c)
    (A := fun w => FeasibleAnswer (guard (oracle e c) (Good lp₀)) c.data bounds { world := w })
    (answer_feasible hfe hp hd h₀)
  have hA : ∀ r, PlainSoplex lp₀ r →
      FeasibleAnswer (guard (oracle e c) (Good lp₀)) c.data bounds { world := r.world } →
      Solver.BoundedAnswer (guard (oracle e c) (PlainSoplex lp₀)) c.data bounds r := by
    intro r hr h ho values hv
    have hgood : Good lp₀ { world := r.world } := hr.good
    exact (h ((if_pos hgood).trans ((if_pos hr).symm.trans ho)) values
      ((if_pos hgood).trans ((if_pos hr).symm.trans hv))).1
  refine Solver.Contract.guard ⟨?_, ?_, ?_, ?_⟩
  · intro r j l u r' hr h
    exact ⟨(hk (d := { c.data with integerVariables := [j] })).setBounds r hr j (by simp) l u r' h,
      (hc.setBounds r j l u r' hr.good h).2⟩
  · intro r r' hr h
    have hr' := (hk (d := c.data)).solve r r' hr h
    obtain ⟨-, h2, h3⟩ := hc.solve r r' hr.good h
    exact ⟨hr', h2, hA r' hr' h3⟩
  · intro r r' hr ha _ h
    have : r = r' := Outcome.ok.inj ((separate_plain hn hr.toPlain).symm.trans h)
    subst this
    exact ⟨hr, rfl, ha⟩
  · intro r r' col up hr h
    exact ⟨(hk (d := c.data)).branch r r' col up hr h, (hc.branch r r' col up hr.good h).2⟩

theorem plainSoplex_start {x : Setup.External} {p : Problem} (hp : p.WellFormed) {user : Setup.ParamsMsg}
    {c : Setup.Created} (h : Setup.create x p user = .ok c) (hl : ∃ g, c.lpi = .soplex g) :
    PlainSoplex (start c.lpi).program { world := { lp := start c.lpi } } := by
  refine ⟨plain_start c, ?_⟩
  obtain ⟨-, hd, ⟨l, hl1, hl'⟩, -⟩ := Setup.create_ok h
  obtain ⟨g, hg⟩ := hl
  have hf := (Setup.createLp_reports hl1).2
  have hst : ∀ g0, l = .soplex g0 → g0.status = .noProblem := by
    rintro g0 rfl
    unfold Setup.createLpSolver at hl1
    split at hl1
    · simp only [Outcome.bind_eq_ok] at hl1
      obtain ⟨n, -, hl1⟩ := hl1
      split at hl1 <;> cases hl1
    · simp only [Outcome.bind_eq_ok] at hl1
      obtain ⟨n, -, ⟨s, ok⟩, -, hl1⟩ := hl1
      dsimp only at hl1
      split at hl1 <;> cases hl1
      rfl
  cases l with
  | glop s g0 =>
    simp only [Setup.Lpi.populate, Outcome.bind_eq_ok] at hl'
    obtain ⟨_, -, hl'⟩ := hl'
    rw [← Outcome.ok.inj hl'] at hg
    cases hg
  | soplex g0 =>
    obtain ⟨g', h1, -, -, -, h2, h3⟩ := Soplex.populate_refines p hp _ hd g0 hf
    simp only [Setup.Lpi.populate, h1, Outcome.bind_ok, Outcome.pure_eq] at hl'
    rw [← Outcome.ok.inj hl']
    exact ⟨g', rfl, h2, fun ho => by rw [h3, hst g0 rfl] at ho; cases ho⟩

/-- With any contract of the LP code under which no iteration makes bounds cross. -/
theorem soplex_never_aborts {e : Engine} (he : e.SoplexReturns)
    {x : Setup.External} {p : Problem} (hp : p.WellFormed) (hi : IntegralIntegers p)
    {user : Setup.ParamsMsg} {c : Setup.Created} (h : Setup.create x p user = .ok c)
    (hl : ∃ g, c.lpi = .soplex g) (hn : NoCuts c.runner.params) {dir : Setup.Direction}
    (hrule : c.rule = .maxFractional dir)
    (htol : 0 ≤ user.integralityTolerance.getD (1 / 10 ^ 6)) {Answer : Runner World → Prop}
    (hc : Contract (guard (oracle e c) (PlainSoplex (start c.lpi).program)) (PlainSoplex (start c.lpi).program) bounds
      Answer)
    (hk : Solver.KeepsOpen (guard (oracle e c) (PlainSoplex (start c.lpi).program)) c.data (params c) bounds Answer)
    (fuel : Nat) :
    solve e c fuel = none ∨ (∃ s, solve e c fuel = some (.ok s)) ∨
      solve e c fuel = some (.error "The problem is infeasible or unbounded") := by
  obtain ⟨hd, h₀⟩ := created_refines hp h
  obtain ⟨-, -, -, -, -, h6, -⟩ := Setup.create_ok h
  rw [← h6] at htol
  have hlen : (start c.lpi).program.cols.length = c.data.lower.length := by
    rw [h₀.numCols, hd.lower, List.length_map]; rfl
  have hs := primalShape (e := e) (c := c) (Good' := PlainSoplex (start c.lpi).program)
    (lp₀ := (start c.lpi).program) (fun _ h => h.good)
  rw [hlen] at hs
  have hg := plainSoplex_start hp h hl
  have hdk := Solver.dataOk_of_represents hd
  have heq : solve e c fuel = Solver.solveFuel (guard (oracle e c) (PlainSoplex (start c.lpi).program))
      c.data (params c) fuel (Solver.initial { world := { lp := start c.lpi } }) :=
    (Solver.guard_solveFuel (keeps_plainSoplex he hn) _ _ (by exact hg)).symm
  cases ho : solve e c fuel with
  | none => exact Or.inl rfl
  | some out =>
    right
    rw [heq] at ho
    obtain ⟨s, hr, hs'⟩ := Solver.solveFuel_some ho
    have hres := Solver.never_aborts_uncrossed hdk (integralBounds hp hi hd) (ordered_bounds hp hd) hs
      hc hk hg (startsAt hd h₀)
      (responsive_soplex he hn hp hd htol h₀ hrule) hr
    rcases hs' with ⟨s', h1, rfl⟩ | ⟨m, h1, rfl⟩ | ⟨h1, rfl⟩ | ⟨h1, rfl⟩
    · exact Or.inl ⟨_, rfl⟩
    · right
      rcases hres with ⟨r, h2⟩ | h2
      · rw [h1] at h2; cases h2
      · rw [h1] at h2; cases h2; rfl
    · rcases hres with ⟨r, h2⟩ | h2 <;> rw [h1] at h2 <;> cases h2
    · rcases hres with ⟨r, h2⟩ | h2 <;> rw [h1] at h2 <;> cases h2

/-- **C77 for SoPlex, what holds.**  For every well-formed problem whose integer variables have integral or
infinite bounds, with SoPlex, without cuts, with the max-fractional rule: if every call of SoPlex returns and
optimal points lie within the LP, then no iteration of `Solve` aborts or runs into undefined behaviour, and
the only error it returns is the one for a root LP that is not optimal.

Missing for C77: integer variables with fractional bounds (`C77_soplex_crossing_bounds_violated`), the
random rule, and cuts (C34). -/
theorem C77_soplex_never_aborts_partial {e : Engine} (he : e.SoplexReturns) (hfe : e.Feasible)
    {x : Setup.External} {p : Problem} (hp : p.WellFormed) (hi : IntegralIntegers p)
    {user : Setup.ParamsMsg} {c : Setup.Created} (h : Setup.create x p user = .ok c)
    (hl : ∃ g, c.lpi = .soplex g) (hn : NoCuts c.runner.params) {dir : Setup.Direction}
    (hrule : c.rule = .maxFractional dir)
    (htol : 0 ≤ user.integralityTolerance.getD (1 / 10 ^ 6)) (fuel : Nat) :
    solve e c fuel = none ∨ (∃ s, solve e c fuel = some (.ok s)) ∨
      solve e c fuel = some (.error "The problem is infeasible or unbounded") := by
  obtain ⟨hd, h₀⟩ := created_refines hp h
  obtain ⟨-, -, -, -, -, h6, -⟩ := Setup.create_ok h
  have hs := primalShape (e := e) (c := c) (Good' := PlainSoplex (start c.lpi).program)
    (lp₀ := (start c.lpi).program) (fun _ h => h.good)
  rw [show (start c.lpi).program.cols.length = c.data.lower.length by
    rw [h₀.numCols, hd.lower, List.length_map]; rfl] at hs
  exact soplex_never_aborts he hp hi h hl hn hrule htol (contract_soplex he hfe hp hn hd h₀)
    (fun _ _ _ _ => Solver.trans_open (integralBounds hp hi hd) (Solver.branchesOnFractional_of_max
      (Solver.dataOk_of_represents hd) hs (usesMaxFractional hrule) (by rw [← h6] at htol; exact htol))) fuel

/-! ### Crossing bounds -/

/-- `max x`, `0 ≤ x ≤ 7/2` integer. -/
def half : Problem :=
  { vars := [{ name := "x", objective := 1, lower := .fin 0, upper := .fin (7 / 2), isInteger := true }]
    isMaximization := true }

/-- SoPlex without cuts. -/
def soplexUser : Setup.ParamsMsg where
  lp := some { solverType := some .soplex }
  cutRunner := some { defaultRunner := some { maxIterations := some 0 } }

theorem half_spec : half.WellFormed ∧ FiniteIntegers half ∧ Bounded half ∧ half.Feasible (fun _ => 3) := by
  refine ⟨?_, ?_, ⟨7 / 2, ?_⟩, ?_, ?_⟩
  · simp [Problem.WellFormed, half, Variable.WellFormed, Ordered, Dbl.le]; norm_num
  · intro v hv _
    simp [half] at hv
    subst hv
    exact ⟨_, _, rfl, rfl⟩
  · rintro y ⟨h1, -⟩
    have hx := h1 0 _ rfl
    simp only [Between, Dbl.le_fin] at hx
    simpa [half, Problem.userObjective, objectiveFrom] using hx.2
  · intro n v hv
    match n with
    | 0 => simp [half] at hv; subst hv; exact ⟨by norm_num [Between], fun _ => ⟨3, by simp⟩⟩
    | n + 1 => simp [half] at hv
  · intro k hk
    simp [half] at hk

theorem soplex_created {e : Setup.External} {p : Problem} {user : Setup.ParamsMsg} {c : Setup.Created}
    (h : Setup.create e p user = .ok c) (hg : (user.lp.getD {}).read.solverType = .soplex) :
    ∃ g, c.lpi = .soplex g := by
  obtain ⟨-, -, ⟨l, hl, hl'⟩, -⟩ := Setup.create_ok h
  unfold Setup.createLpSolver at hl
  rw [hg] at hl
  simp only [Outcome.bind_eq_ok] at hl
  obtain ⟨n, -, r, -, hl⟩ := hl
  split at hl
  · rw [← Outcome.ok.inj hl] at hl'
    simp only [Setup.Lpi.populate, Outcome.bind_eq_ok] at hl'
    obtain ⟨g, -, hl'⟩ := hl'
    rw [← Outcome.ok.inj hl']
    exact ⟨_, rfl⟩
  · cases hl

/-- What `Create` makes of it. -/
theorem half_data {d : MipData} (hd : d.Represents half) :
    d.lower = [.fin 0] ∧ d.upper = [.fin (7 / 2)] ∧ d.integerVariables = [0] := by
  refine ⟨by rw [hd.lower]; rfl, by rw [hd.upper]; rfl, ?_⟩
  have hm : ∀ j, j ∈ d.integerVariables ↔ j = 0 := by
    intro j
    rw [hd.integers]
    constructor
    · rintro ⟨n, v, hv, -, rfl⟩
      match n with
      | 0 => rfl
      | n + 1 => simp [half] at hv
    · rintro rfl
      exact ⟨0, _, rfl, rfl, rfl⟩
  have hnd := hd.integersNodup
  rcases hi : d.integerVariables with _ | ⟨a, l⟩
  · have := (hm 0).2 rfl
    rw [hi] at this; simp at this
  · rw [hi] at hm hnd
    have ha := (hm a).1 (by simp)
    subst ha
    rcases l with _ | ⟨b, l⟩
    · rfl
    · have hb := (hm b).1 (by simp)
      subst hb
      simp at hnd

/-- The tree after the root has been branched on, and the bounds of its second child. -/
theorem half_tree : ∃ t1 t2 t3, MipTree.init.setLpData 0 (.fin (-(7 / 2))) = .ok t1 ∧
    t1.addNode 0 0 true (.fin (7 / 2)) = .ok (t2, 1) ∧ t2.addNode 0 0 false (.fin (7 / 2)) = .ok (t3, 2) ∧
    t3.retrieveLower 2 [.fin 0] = .ok [.fin 4] ∧ t3.retrieveUpper 2 [.fin (7 / 2)] = .ok [.fin (7 / 2)] := by
  have h : (match MipTree.init.setLpData 0 (.fin (-(7 / 2))) with
    | .ok t1 => match t1.addNode 0 0 true (.fin (7 / 2)) with
      | .ok (t2, i) => match t2.addNode 0 0 false (.fin (7 / 2)) with
        | .ok (t3, j) => decide (i = 1) && decide (j = 2) &&
            decide (t3.retrieveLower 2 [.fin 0] = .ok [.fin 4]) &&
            decide (t3.retrieveUpper 2 [.fin (7 / 2)] = .ok [.fin (7 / 2)])
        | _ => false
      | _ => false
    | _ => false) = true := by decide +kernel
  split at h <;> try cases h
  rename_i t1 h1
  split at h <;> try cases h
  rename_i t2 i h2
  split at h <;> try cases h
  rename_i t3 j h3
  simp only [Bool.and_eq_true, decide_eq_true_eq] at h
  obtain ⟨⟨⟨rfl, rfl⟩, h4⟩, h5⟩ := h
  exact ⟨t1, t2, t3, h1, h2, h3, h4, h5⟩

theorem half_branch (unset : Int) :
    Branching.maxFractional unset .unspecified (1 / 10 ^ 6) [0] (.ok [7 / 2]) = .ok (0, true) := by
  have h1 : Generator.isIntegerWithinTolerance (1 / 10 ^ 6) (7 / 2) = false := by decide +kernel
  have h2 : |(7 / 2 : ℚ) - ⌊(7 / 2 : ℚ)⌋| = 1 / 2 := by
    have : ⌊(7 / 2 : ℚ)⌋ = 3 := by rw [Int.floor_eq_iff]; norm_num
    rw [this]; norm_num
  have h3 : vecGet [(7 / 2 : ℚ)] 0 = .ok (7 / 2) := rfl
  simp only [Branching.maxFractional, Branching.scan, h3, Outcome.bind_ok, h1, h2]
  norm_num

/-- The bounds set by the loop over the one integer variable. -/
theorem applyBounds_one {e : Engine} {c : Setup.Created} {lp₀ : LinearProgram} {r : Runner World}
    (hr : PlainSoplex lp₀ r) (hlen : lp₀.cols.length = 1) (l u : Dbl) :
    ∃ r', Solver.applyBounds (oracle e c) [l] [u] r [0] = .ok r' ∧
      (oracle e c).setBounds r 0 l u = .ok r' := by
  obtain ⟨g, hg, hf, -⟩ := hr.soplex
  have hc := hr.good.numCols
  rw [hg, hlen] at hc
  have hj : (0 : Int) < (g.lp.cols.length : Int) := by
    rw [show g.lp.cols.length = 1 from hc]; simp
  have : ∃ r', (oracle e c).setBounds r 0 l u = .ok r' :=
    ⟨_, by
      simp only [oracle, hg, Lp.setColumnBounds, Soplex.setColumnBounds, hf, hj, le_refl, Outcome.check,
        decide_true, if_true, Outcome.bind_ok]
      rfl⟩
  obtain ⟨r', hr'⟩ := this
  refine ⟨r', ?_, hr'⟩
  simp [Solver.applyBounds, vecGet, hr', Outcome.orAbort]

/-- **C77 fails** with SoPlex if an integer variable has a fractional bound.  `max x`, `0 ≤ x ≤ 7/2`, `x`
integer is well-formed and `x = 3` is optimal.  Whatever SoPlex that answers rightly and returns: the LP
optimum is `7/2`, branching gives the child `4 ≤ x ≤ 7/2`, and the CHECK at lpi_soplex.cc:111 ends the process
in the second iteration. -/
theorem C77_soplex_crossing_bounds_violated :
    half.WellFormed ∧ FiniteIntegers half ∧ Bounded half ∧ half.Feasible (fun _ => 3) ∧
    (∃ x c, Setup.create x half soplexUser = .ok c) ∧
    ∀ x c, Setup.create x half soplexUser = .ok c → ∀ e : Engine, e.Right → e.SoplexReturns →
      e.epsilonZero < 1 / 2 → solve e c 2 = some .abort := by
  obtain ⟨hp, hfi, hbd, hfeas⟩ := half_spec
  refine ⟨hp, hfi, hbd, hfeas, ⟨Setup.exExternal, ?_⟩, ?_⟩
  · obtain ⟨s, hs⟩ : ∃ s, Setup.newSoplex Setup.exExternal = .ok s := ⟨_, rfl⟩
    refine (Setup.C73_soplex_partial Setup.exExternal rfl s hs half hp soplexUser _ (Setup.lpWins _) rfl).2
      (fun _ _ => rfl) (fun _ _ => rfl) ⟨⟨?_, ?_, ?_, ?_, ?_, ?_, ?_, ?_⟩, rfl, ?_, ?_, ?_, ?_⟩ <;>
      simp [soplexUser, Setup.LpMsg.read, ToleranceOk]
  intro x c hc e he hret heps
  obtain ⟨hd, h₀⟩ := created_refines hp hc
  have hg0 := plainSoplex_start hp hc (soplex_created hc rfl)
  obtain ⟨hlo, hup, hint⟩ := half_data hd
  obtain ⟨-, -, -, hmi, -, -, -, ⟨dir, hdir, -, hrule⟩, -⟩ :=
    Setup.C58_user_wins_partial x half hp soplexUser c hc
  have hn : NoCuts c.runner.params := Or.inl (by rw [hmi.1 0 rfl])
  have hrule := hrule (Or.inr rfl)
  have hdir := hdir.2 rfl
  obtain ⟨-, -, -, -, -, h6, -⟩ := Setup.create_ok hc
  have htol : c.integralityTolerance = 1 / 10 ^ 6 := h6
  have hlen : (start c.lpi).program.cols.length = 1 := by rw [h₀.numCols]; rfl
  obtain ⟨t1, t2, t3, ht1, ht2, ht3, ht4, ht5⟩ := half_tree
  have hk : ∀ {d : MipData}, Solver.Keeps (oracle e c) d (PlainSoplex (start c.lpi).program) :=
    keeps_plainSoplex hret hn
  -- the first iteration
  have hstep : ∃ s1, Solver.iterate (oracle e c) c.data (params c)
      (Solver.initial { world := { lp := start c.lpi } }) = .ok (.again s1) ∧ s1.queue = [2, 1] ∧
      s1.backjump = false ∧ s1.tree = t3 ∧ PlainSoplex (start c.lpi).program s1.world := by
    obtain ⟨r1, ha, hset⟩ := applyBounds_one (e := e) (c := c) hg0 hlen (.fin 0) (.fin (7 / 2))
    have hr1 := (hk (d := c.data)).setBounds _ hg0 0 (by rw [hint]; simp) _ _ _ hset
    obtain ⟨-, -, hprog, hbounds, -⟩ := setBounds_spec hset
    obtain ⟨g1, hg1, hf1, -⟩ := hr1.soplex
    have hun : Solver.Uncrossed c.data bounds r1 := by
      intro n hn
      rw [hlo] at hn
      obtain rfl : n = 0 := by simpa using hn
      rw [hbounds]
      simp [Dbl.le]
      norm_num
    obtain ⟨g2, hs2, -, hst2⟩ := soPlexSolve_returns hret r1.world.solves g1 hf1
      (consistent_of hp hd h₀ hr1.toPlain hg1 hun hret.eps)
    have hsolve : ∃ r2, (oracle e c).solve r1 = .ok r2 :=
      ⟨_, by simp only [oracle, World.solve, hg1, hs2, Outcome.bind_ok, if_true]; rfl⟩
    obtain ⟨r2, hr2⟩ := hsolve
    have hp2 := (hk (d := c.data)).solve _ _ hr1 hr2
    obtain ⟨hw, hprog2, hb2, -⟩ := solve_spec hr2
    have hright := he.solve hw
    have hlen2 : r2.world.lp.program.cols.length = 1 := by rw [hp2.good.numCols, hlen]
    have hbnd : ∀ (n : Nat) (col : Glop.Column), r2.world.lp.program.cols[n]? = some col →
        n = 0 ∧ col.lower = .fin 0 ∧ col.upper = .fin (7 / 2) := by
      intro n col hcol
      have hlt := (List.getElem?_eq_some_iff.mp hcol).1
      obtain rfl : n = 0 := by omega
      have := bounds_nat r2 0
      rw [hb2, hbounds, hcol] at this
      simp at this
      exact ⟨rfl, this.1.symm, this.2.symm⟩
    have hfeasible : ∀ y : Int → ℚ, 0 ≤ y 0 → y 0 ≤ 7 / 2 → r2.world.lp.program.Feasible y := by
      intro y h1 h2
      refine rows_hold hp h₀ hp2.good hp2.numRows (by simp [half]) fun n col hcol => ?_
      obtain ⟨rfl, h3, h4⟩ := hbnd n col hcol
      rw [h3, h4]
      simp only [Between, Dbl.le_fin]
      exact ⟨h1, h2⟩
    have hvalue : ∀ y : Int → ℚ, r2.world.lp.program.value y = - y 0 := by
      intro y
      rw [hp2.good.value, h₀.value, (relaxation_points half hp y).2]
      simp [half, Problem.userObjective, objectiveFrom]
    have hsense : r2.world.lp.program.maximize = false := by rw [hp2.good.sense, h₀.sense]; rfl
    have hle : ∀ y, r2.world.lp.program.Feasible y → 0 ≤ y 0 ∧ y 0 ≤ 7 / 2 := by
      intro y hy
      have hcol : r2.world.lp.program.cols[0]? = some r2.world.lp.program.cols[0] := by simp
      have := hy.1 0 _ hcol
      obtain ⟨-, h3, h4⟩ := hbnd 0 _ hcol
      rw [h3, h4] at this
      simp only [Between, Dbl.le_fin] at this
      exact this
    have hopt : r2.world.lp.isOptimal = true := by
      by_contra ho
      rcases hright.2 ho with h1 | h1
      · exact h1 (fun _ => 0) (hfeasible _ le_rfl (by norm_num))
      · obtain ⟨y, hy, hlt⟩ := h1 (-(7 / 2))
        rw [hsense, if_neg (by simp), hvalue] at hlt
        have := (hle y hy).2
        linarith
    obtain ⟨hpf, hobj, hbest⟩ := hright.1 hopt
    have hpt : r2.world.report.point 0 = 7 / 2 := by
      have h1 := hbest (fun _ => 7 / 2) (hfeasible _ (by norm_num) le_rfl)
      rw [hsense, if_neg (by simp), hvalue, hvalue] at h1
      have h2 := (hle _ hpf).2
      linarith
    rw [hvalue, hpt] at hobj
    obtain ⟨g3, hg3, -, hopt3⟩ := hp2.soplex
    have hopt' : g3.status = .optimal := by simpa [hg3, Lp.isOptimal] using hopt
    have hprim : r2.world.primal = .ok [7 / 2] := by
      obtain ⟨f, hf⟩ := Option.isSome_iff_exists.mp (hopt3 hopt')
      have hl3 : g3.lp.cols.length = 1 := by rw [hg3] at hlen2; exact hlen2
      have hf0 : f 0 = 7 / 2 := by simpa [Report.point, hf] using hpt
      simp only [World.primal, hg3, Soplex.getPrimalValues, soplex_isOptimal, Soplex.fetch, Lp.isOptimal,
        hopt', hf, Outcome.check, decide_true, if_true, Outcome.bind_ok, hl3, Outcome.pure_eq]
      simp [hf0]
    have hnode : Solver.solveNode (oracle e c) c.data [.fin 0] [.fin (7 / 2)]
        { world := { lp := start c.lpi } } = .ok r2 := by
      unfold Solver.solveNode
      rw [hint, ha]
      simp only [Outcome.bind_ok, hr2, Outcome.orAbort]
      rw [show (oracle e c).isOptimal r2 = true from hopt]
      simp only [if_true]
      rw [show (oracle e c).separate r2 = .ok r2 from separate_plain hn hp2.toPlain]
    have hbr : (oracle e c).branch r2 = .ok (r2, 0, true) := by
      have := half_branch e.unset
      simp only [oracle, branch, hrule, hdir, direction, htol, hint, MipData.HashOrder.apply_singleton, hprim, this, Outcome.bind_ok,
        Outcome.pure_eq]
    have hnotint : c.data.solutionIsIntegral [7 / 2] (1 / 10 ^ 6) = .ok false := by
      unfold MipData.solutionIsIntegral
      rw [hint]
      decide +kernel
    have hv : vecGet [(7 / 2 : ℚ)] (0 : Int) = .ok (7 / 2) := by decide +kernel
    refine ⟨{ queue := [2, 1], backjump := false, infeasible := 0, tree := t3, result := {}, world := r2 }, ?_,
      ?_⟩
    · unfold Solver.iterate
      have hl0 : MipTree.init.retrieveLower 0 [.fin 0] = .ok [.fin 0] := by decide +kernel
      have hu0 : MipTree.init.retrieveUpper 0 [.fin (7 / 2)] = .ok [.fin (7 / 2)] := by decide +kernel
      simp only [Solver.initial, Solver.pop, if_true, List.getLast?_singleton, List.dropLast_singleton, hlo,
        hup, hl0, hu0, Outcome.bind_ok, hnode]
      rw [if_pos (show (oracle e c).isOptimal r2 = true from hopt)]
      unfold Solver.optimalNode
      rw [show (oracle e c).objective r2 = .fin (-(7 / 2)) from hobj]
      simp only [ht1, Outcome.bind_ok, show (oracle e c).primal r2 = .ok [7 / 2] from hprim, Outcome.orAbort,
        show (params c).tol = 1 / 10 ^ 6 from htol, hnotint, Bool.false_eq_true, if_false, Solver.branchNode,
        hbr, hv, Outcome.bind_ok, ht2, ht3]
      rfl
    · exact ⟨rfl, rfl, rfl, hp2⟩
  obtain ⟨s1, hi1, hq, hbj, htree, hgood⟩ := hstep
  have hi2 : Solver.iterate (oracle e c) c.data (params c) s1 = .abort := by
    obtain ⟨r1, ha, hset⟩ := applyBounds_one (e := e) (c := c) hgood hlen (.fin 4) (.fin (7 / 2))
    have hr1 := (hk (d := c.data)).setBounds _ hgood 0 (by rw [hint]; simp) _ _ _ hset
    obtain ⟨-, -, hprog, hbounds, -⟩ := setBounds_spec hset
    obtain ⟨g1, hg1, hf1, -⟩ := hr1.soplex
    have hcr : Soplex.consistent g1 e.epsilonZero = false := by
      have hl1 : g1.lp.cols.length = 1 := by
        have := hr1.good.numCols
        rw [hlen, hg1] at this
        exact this
      have hb := bounds_nat r1 0
      rw [hbounds, hg1] at hb
      have hcol : g1.lp.cols[0]? = some g1.lp.cols[0] := by simp
      simp only [Lp.program, hcol] at hb
      simp at hb
      unfold Soplex.consistent
      rw [Bool.and_eq_false_iff]
      left
      rw [List.all_eq_false]
      refine ⟨_, List.getElem_mem (by omega : 0 < g1.lp.cols.length), ?_⟩
      rw [← hb.1, ← hb.2]
      simp only [Dbl.add, Dbl.lt, Bool.not_eq_true, Bool.not_eq_false', decide_eq_true_eq]
      linarith
    have hf' : g1.savedRows.isEmpty = true ∧ g1.savedCols.isEmpty = true := by
      simpa [Soplex.freed] using hf1
    have habort : (oracle e c).solve r1 = .abort := by
      simp only [oracle, World.solve, hg1, Soplex.soPlexSolve, hret.clear, Soplex.freed, hf'.1, hf'.2,
        Bool.and_self, Outcome.check, if_true, Outcome.bind_ok, Bool.and_false, Bool.false_eq_true, if_false]
      unfold Soplex.consistent at hcr
      cases g1.settings.solveFromScratch <;>
        simp only [Bool.false_eq_true, if_false, if_true, Soplex.lpSolve, Soplex.consistent, Outcome.check, hcr,
          Outcome.bind_abort]
    unfold Solver.iterate
    simp only [Solver.pop, hbj, hq, Bool.false_eq_true, if_false, htree, hlo, hup, ht4, ht5, Outcome.bind_ok,
      Solver.solveNode, hint, ha, habort, Outcome.orAbort, Outcome.bind_abort]
  show Solver.solveFuel (oracle e c) c.data (params c) 2 _ = _
  unfold Solver.solveFuel
  rw [hi1]
  simp only
  unfold Solver.solveFuel
  rw [hi2]

theorem perfect_soplex : perfect.SoplexReturns := by
  refine ⟨le_rfl, fun _ _ => rfl, fun _ _ h => Bool.noConfusion h, fun n g => ?_, fun n g => ?_,
    fun _ => rfl, fun n g h => ?_⟩
  · simp only [perfect]; omega
  · simp only [perfect]; split <;> rfl
  · simp only [perfect, perfectReport] at h ⊢
    split at h
    · next hb => rw [Option.isSome_map]; exact hb
    · cases h

/-- LP code as asked for above exists. -/
example : perfect.Right ∧ perfect.SoplexReturns ∧ perfect.epsilonZero < 1 / 2 :=
  ⟨perfect_spec.1, perfect_soplex, by norm_num [perfect]⟩

end Program
end MiniMip
