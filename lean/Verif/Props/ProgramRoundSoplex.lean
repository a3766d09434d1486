import Verif.Props.ProgramRoundIntegral

/-!
# C75, C77 and C83 with one round of cuts for SoPlex
-/

namespace MiniMip
namespace Program

open Glop (LinearProgram Extends Refines Stored ColOrRow)
open Generator (Below)
open Solver (Oracle Contract guard cautious point InBounds NodeBounds)

/-! ### The states of the SoPlex interface -/

/-- The world uses SoPlex, outside of strong branching, and no sides of rows cross. -/
def IsSoplex (eps : ℚ) (w : World) : Prop :=
  ∃ g, w.lp = .soplex g ∧ Soplex.freed g = true ∧ (g.status = .optimal → w.report.primal.isSome = true) ∧
    ∀ row ∈ g.lp.rows, Dbl.lt (Dbl.add row.rhs (.fin eps)) row.lhs = false

/-- No bounds of columns cross. -/
def ColumnsOpen (eps : ℚ) (w : World) : Prop :=
  ∀ col ∈ w.lp.program.cols, Dbl.lt (Dbl.add col.upper (.fin eps)) col.lower = false

/-- Worlds of SoPlex after an optimal solve. -/
structure SoplexSolved (eps : ℚ) (w : World) : Prop where
  kind : IsSoplex eps w
  optimal : w.lp.isOptimal = true
  basic : w.report.SoplexBasic w.lp.program
  feasible : w.lp.program.Feasible w.report.point

theorem consistent_of_open {eps : ℚ} {g : Soplex.Interface}
    (hr : ∀ row ∈ g.lp.rows, Dbl.lt (Dbl.add row.rhs (.fin eps)) row.lhs = false)
    (hc : ∀ col ∈ g.lp.cols, Dbl.lt (Dbl.add col.upper (.fin eps)) col.lower = false) :
    Soplex.consistent g eps = true := by
  unfold Soplex.consistent
  rw [Bool.and_eq_true, List.all_eq_true, List.all_eq_true]
  exact ⟨fun col h => by rw [hc col h]; rfl, fun row h => by rw [hr row h]; rfl⟩

theorem isSoplex_primal {eps : ℚ} {w : World} (h : IsSoplex eps w) (ho : w.lp.isOptimal = true) :
    ∃ values, w.primal = .ok values := by
  obtain ⟨g, hg, -, hopt, -⟩ := h
  have ho' : g.status = .optimal := by simpa [hg, Lp.isOptimal] using ho
  obtain ⟨f, hf⟩ := Option.isSome_iff_exists.mp (hopt ho')
  exact ⟨_, by simp only [World.primal, hg, Soplex.getPrimalValues, soplex_isOptimal, Lp.isOptimal,
    ho', hf, Outcome.check, decide_true, if_true, Outcome.bind_ok]; rfl⟩

/-- What the generator reads. -/
theorem soplex_inverse {eps : ℚ} {w : World} (h : SoplexSolved eps w) (k : Nat)
    (hk : k < w.lp.program.rows.length) : ∃ v, w.inverseRow k = .ok v ∧
      (∀ e ∈ v.entries, e.index < w.lp.program.rows.length) ∧
      ∀ i : Nat, v.value i = (((w.report.soplexInverse k).map (·.dense)).getD []).getD i 0 := by
  obtain ⟨g, hg, hf, -, -⟩ := h.kind
  have hp : w.lp.program = g.lp := by rw [hg]; rfl
  obtain ⟨a, ha, hok⟩ := h.basic.shape k hk
  rw [hp] at hok
  obtain ⟨v, h1, -, h2, h3⟩ := Soplex.C69_inverse_row g hf w.report.soplexInverse k a ha hok
  refine ⟨v, by simp only [World.inverseRow, hg]; exact h1, fun e he => ?_, fun i => by rw [h3, ha]; rfl⟩
  obtain ⟨h5, h6⟩ := h2.2 e he
  by_contra hc
  apply h5
  have hval := value_of_mem h2 he
  have h7 := h3 e.index.toNat
  rw [show ((e.index.toNat : Nat) : Int) = e.index by omega, List.getD_eq_getElem?_getD,
    List.getElem?_eq_none (by rw [hok.length, ← hp]; omega)] at h7
  rw [← hval]
  exact h7

theorem soplex_basis {eps : ℚ} {w : World} (h : IsSoplex eps w) :
    w.basis = (w.report.basis.map soplexElement).map fun
      | .col i => some i
      | .row _ => none := by
  obtain ⟨g, hg, -⟩ := h
  have : Soplex.getColumnsAndRowsInBasis { g with savedRows := [], savedCols := [] } w.report.basis =
      .ok (w.report.basis.map soplexElement) := by
    unfold Soplex.getColumnsAndRowsInBasis
    simp only [Soplex.freed, List.isEmpty_nil, Bool.and_self, Outcome.check, if_true, Outcome.bind_ok]
    congr 1
    refine List.map_congr_left fun i _ => ?_
    unfold soplexElement
    split <;> [congr 1; rfl]
    ring
  simp only [World.basis, hg, this]
  rfl

theorem soplex_fits {eps : ℚ} {w : World} (h : SoplexSolved eps w) : w.Fits where
  activities := by
    obtain ⟨g, hg, -⟩ := h.kind
    obtain ⟨f, hf⟩ := Option.isSome_iff_exists.mp h.basic.activities
    exact ⟨_, by simp only [World.activities, hg, Soplex.getRowActivities, hf, Soplex.fetch]; rfl,
      by simp [hg, Lp.program]⟩
  primal := isSoplex_primal h.kind h.optimal
  basis := by
    rw [soplex_basis h.kind, List.length_map]
    exact h.basic.basic.length
  inverse k hk := by
    obtain ⟨v, h1, h2, -⟩ := soplex_inverse h k hk
    exact ⟨v, h1, h2⟩

theorem soplex_exact {eps : ℚ} {w : World} (h : SoplexSolved eps w) :
    w.Exact (w.report.basis.map soplexElement)
      fun k i => (((w.report.soplexInverse k).map (·.dense)).getD []).getD i 0 where
  basic := h.basic.basic
  head := soplex_basis h.kind
  rows k hk v hv := by
    obtain ⟨v', h1, h2, h3⟩ := soplex_inverse h k hk
    have := Outcome.ok.inj (h1.symm.trans hv)
    subst this
    exact ⟨h2, fun i _ => h3 i⟩

/-- If the solve returns, the LP was consistent. -/
theorem soplex_solved {e : Engine} (he : e.SoplexReturns) {w w' : World} (h : IsSoplex e.epsilonZero w)
    (hs : w.solve e = .ok w') : IsSoplex e.epsilonZero w' := by
  obtain ⟨g, hg, hf, -, hrow⟩ := h
  have hprog := (solve_world hs).1
  unfold World.solve at hs
  rw [hg] at hs
  simp only [Outcome.bind_eq_ok] at hs
  obtain ⟨⟨g', ok⟩, h2, h1⟩ := hs
  have hc : Soplex.consistent g e.epsilonZero = true := by
    by_contra hc
    rw [Bool.not_eq_true] at hc
    unfold Soplex.consistent at hc
    have hf' : g.savedRows.isEmpty = true ∧ g.savedCols.isEmpty = true := by
      simpa [Soplex.freed] using hf
    unfold Soplex.soPlexSolve at h2
    rw [he.clear] at h2
    simp only [Soplex.freed, hf'.1, hf'.2, Bool.and_self, Outcome.check, if_true, Outcome.bind_ok,
      Bool.and_false, Bool.false_eq_true, if_false] at h2
    cases hs : g.settings.solveFromScratch <;> rw [hs] at h2 <;>
    · simp only [Bool.false_eq_true, if_false, if_true, Soplex.lpSolve, Soplex.consistent,
        Outcome.check, hc, Outcome.bind_abort] at h2
      cases h2
  obtain ⟨g'', h3, h4, h5⟩ := soPlexSolve_returns he w.solves g hf hc
  rw [h2] at h3
  cases h3
  rw [if_pos rfl] at h1
  have h1 := Outcome.ok.inj h1
  subst h1
  refine ⟨_, rfl, h4, fun ho => he.values _ _ (h5.symm.trans ho), ?_⟩
  have : g'.lp = g.lp := by rw [hg] at hprog; exact hprog
  rw [this]
  exact hrow

theorem steady_soplex {e : Engine} (hret : e.SoplexReturns) (he : e.Feasible) (hbas : e.SoplexBasic) (n : Nat) :
    Steady e n (IsSoplex e.epsilonZero) (ColumnsOpen e.epsilonZero) (SoplexSolved e.epsilonZero) where
  fits _ h := soplex_fits h
  primal _ h ho := isSoplex_primal h ho
  mayBound := by
    rintro w j l u ⟨g, hg, hf, -⟩ h0 h1
    rw [hg] at h1
    have h1 : j < (g.lp.cols.length : Int) := h1
    exact ⟨_, by
      simp only [hg, Lp.setColumnBounds, Soplex.setColumnBounds, hf, h0, h1, Outcome.check,
        decide_true, if_true, Outcome.bind_ok]
      rfl⟩
  setBounds := by
    rintro w j l u lp ⟨g, hg, hf, ho, hr⟩ h
    rw [hg] at h
    simp only [Lp.setColumnBounds, Soplex.setColumnBounds, Outcome.bind_eq_ok] at h
    obtain ⟨g', ⟨_, -, _, -, _, -, h2⟩, h1⟩ := h
    cases h1
    cases h2
    exact ⟨_, rfl, hf, ho, hr⟩
  addRow := by
    rintro w row rhs name ⟨g, hg, hf, ho, hr⟩ hR hn hgood hb
    have hp : w.lp.program = g.lp := by rw [hg]; rfl
    rw [hp] at hn
    obtain ⟨lp, hlp⟩ := setRow_ok g.lp.rows.length row.entries
      { g.lp with rows := g.lp.rows ++ [⟨.ninf, .fin rhs, ""⟩] }
      (fun en hen => ⟨(hgood.1.2 en hen).2, by have := hb en hen; simp only [hn]; exact this⟩)
    obtain ⟨h1, -, h3, h4⟩ := Glop.setRow_cols _ _ _ _ hlp
    refine ⟨.soplex { g with isSolved := false, lp := lp }, ?_, ⟨_, rfl, hf, ho, ?_⟩, ?_⟩
    · simp only [hg, Lp.addRow, Soplex.addRow, Soplex.addRowReal, hlp, Outcome.bind_ok]
      rfl
    · intro row' hrow
      simp only [h1] at hrow
      rcases List.mem_append.1 hrow with hrow | hrow
      · exact hr row' hrow
      · rw [List.mem_singleton.1 hrow]
        simp [Dbl.add, Dbl.lt]
    · intro col hcol
      obtain ⟨i, hi⟩ := List.getElem?_of_mem hcol
      have hi : lp.cols[i]? = some col := hi
      rw [h4, Option.map_eq_some_iff] at hi
      obtain ⟨col', hc', rfl⟩ := hi
      exact hR col' (by rw [hp]; exact List.mem_of_getElem? hc')
  solve := by
    rintro w ⟨g, hg, hf, -, hr⟩ hR
    obtain ⟨g', h1, -⟩ := soPlexSolve_returns hret w.solves g hf
      (consistent_of_open hr fun col hc => hR col (by rw [hg]; exact hc))
    exact ⟨_, by simp only [World.solve, hg, h1, Outcome.bind_ok, if_true]; rfl⟩
  solved := by
    intro w w' hw hs
    have hk := soplex_solved hret hw hs
    refine ⟨hk, fun ho => ⟨hk, ho, ?_, he.solve hs ho⟩⟩
    obtain ⟨g, hg, -⟩ := hw
    obtain ⟨h1, -, -, h2⟩ := solve_world hs
    rw [hg] at h2
    rw [h2.1, h1, hg]
    exact hbas _ _ (h2.2.1 ho)
  draws w k := ⟨fun h => h, fun h => ⟨h.kind, h.optimal, h.basic, h.feasible⟩⟩

/-- With a point within the LP no bounds cross. -/
theorem columnsOpen_of_feasible {eps : ℚ} (he : 0 ≤ eps) (w : World)
    (h : w.lp.program.Feasible w.report.point) : ColumnsOpen eps w := by
  intro col hc
  obtain ⟨n, hn⟩ := List.getElem?_of_mem hc
  exact not_lt_of_le (Solver.le_of_between (h.1 n col hn)) he

theorem goodCuts_soplex {e : Engine} {p : Problem} {c : Setup.Created} (hv : CutSetting e p c)
    (hI : IntegralProblem p) {D : ℚ} (hD : Determinants p D) (htol : 0 ≤ c.integralityTolerance)
    (hDt : D * c.integralityTolerance < 1) {lp₀ : LinearProgram} (h₀ : Refines lp₀ p.relaxation) (eps : ℚ) :
    GoodCuts e p c lp₀ (SoplexSolved eps) := by
  intro w rs m cuts hw hf hF hrows h
  exact good_of_exact hv hI hD htol hDt h₀ hw hf hrows (soplex_exact hF) hF.feasible h

/-! ### The loop -/

theorem boundedAnswer_of {e : Engine} (he : e.Feasible) {p : Problem} (hp : p.WellFormed) {c : Setup.Created}
    (hd : c.data.Represents p) {lp₀ : LinearProgram} (h₀ : Refines lp₀ p.relaxation)
    (w w' : World) (hw : Sound p lp₀ w) (hs : w.solve e = .ok w') :
    Solver.BoundedAnswer (oracle e c) c.data bounds { world := w' } := by
  intro ho values hv
  have hg : Good lp₀ { world := w' } := by
    show Extends lp₀ w'.lp.program
    rw [(solve_world hs).1]; exact hw.good
  exact (answer_feasible he hp hd h₀ w w' hw.good hs ((if_pos hg).trans ho) values ((if_pos hg).trans hv)).1

/-- The loop with one round of cuts, for every LP interface that is ready to solve as long as no bounds
cross. -/
theorem oneRound_uncrossed {e : Engine} (he : e.Feasible) {p : Problem} (hi : IntegralIntegers p)
    {c : Setup.Created} (hv : CutSetting e p c) (htol : 0 ≤ c.integralityTolerance) (hprm : OneRoundParams c)
    {dir : Setup.Direction} (hrule : c.rule = .maxFractional dir)
    (hd : c.data.Represents p) (h₀ : Refines (start c.lpi).program p.relaxation) {K R F : World → Prop}
    (hK : Steady e p.vars.length K R F) (hE : GoodCuts e p c (start c.lpi).program F)
    (hRf : ∀ w, w.lp.program.Feasible w.report.point → R w)
    (hRo : ∀ w : World, (∀ col ∈ w.lp.program.cols, Dbl.le col.lower col.upper = true) → R w)
    (hg : OneRound p (start c.lpi).program K F { world := { lp := start c.lpi } }) (fuel : Nat) :
    Returns (solve e c fuel) := by
  have hp := hv.wellFormed
  have hdk := Solver.dataOk_of_represents hd
  have hlen : p.vars.length = c.data.lower.length := by rw [hd.lower]; simp
  have hshape := primalShape_oneRound (e := e) (c := c) h₀ (P := MaySeparate c.data R) (K := K) (F := F)
  rw [hlen] at hshape
  have heq : _ = solve e c fuel := (Solver.cautious_runs (prm := params c) hdk
    (contract_oneRound hv hprm h₀ hK hE
      (A := fun w => w.lp.isOptimal = true → w.lp.program.Feasible w.report.point)
      (fun w w' _ hw ho => he.solve hw ho))
    (keeps_oneRound hv hprm h₀ hK hE) hshape
    (fun r hr hb ha hopt => ⟨fit_of hv.nonneg hd h₀ hr.sound.good hb (ha hopt), hRf _ (ha hopt)⟩) hg
    (startsAt hd h₀)).1 fuel
  have hcon : Contract (guard (cautious (oracle e c) (MaySeparate c.data R)) (OneRound p (start c.lpi).program K F))
      (OneRound p (start c.lpi).program K F) bounds
      (Solver.BoundedAnswer (guard (cautious (oracle e c) (MaySeparate c.data R))
        (OneRound p (start c.lpi).program K F)) c.data bounds) := by
    refine contract_congr (contract_oneRound hv hprm h₀ hK hE
      (A := fun w => Solver.BoundedAnswer (oracle e c) c.data bounds { world := w })
      (boundedAnswer_of he hp hd h₀)).guard ?_
    intro r hr
    have h1 : (guard (cautious (oracle e c) (MaySeparate c.data R))
        (OneRound p (start c.lpi).program K F)).isOptimal r = r.world.lp.isOptimal := if_pos hr
    have h2 : (guard (cautious (oracle e c) (MaySeparate c.data R))
        (OneRound p (start c.lpi).program K F)).primal r = r.world.primal := if_pos hr
    unfold Solver.BoundedAnswer
    rw [h1, h2]
    exact Iff.rfl
  cases hout : solve e c fuel with
  | none => exact Or.inl rfl
  | some out =>
    right
    rw [← heq] at hout
    obtain ⟨s, hr, hs'⟩ := Solver.solveFuel_some hout
    have hsolve : ∀ r, ∃ r', (Solver.careful (guard (cautious (oracle e c) (MaySeparate c.data R))
        (OneRound p (start c.lpi).program K F)) c.data bounds).solve r = .ok r' := by
      intro r
      by_cases hu : Solver.Uncrossed c.data bounds r
      · by_cases hr : OneRound p (start c.lpi).program K F r
        · have hcols : r.world.lp.program.cols.length = c.data.lower.length := by
            rw [hr.sound.good.numCols, h₀.numCols, ← hlen]; rfl
          obtain ⟨w', hw⟩ := hK.solve r.world hr.kind (hRo _ fun col hc => by
            obtain ⟨n, hn⟩ := List.getElem?_of_mem hc
            have := hu n (by rw [← hcols]; exact (List.getElem?_eq_some_iff.1 hn).1)
            rw [bounds_nat, hn] at this
            exact this)
          have : (oracle e c).solve r = .ok { r with world := w' } := by
            simp only [oracle, hw, Outcome.bind_ok]; rfl
          exact ⟨_, (if_pos hu).trans ((if_pos hr).trans this)⟩
        · exact ⟨r, (if_pos hu).trans (if_neg hr)⟩
      · exact ⟨r, if_neg hu⟩
    have hres := Solver.never_aborts_uncrossed hdk (integralBounds hp hi hd) (ordered_bounds hp hd) hshape
      hcon (fun _ _ _ _ => Solver.trans_open (integralBounds hp hi hd)
        (Solver.branchesOnFractional_of_max hdk hshape (usesMaxFractional_cautious hrule) htol)) hg
      (startsAt hd h₀) (responsive_oneRound hv htol hprm hd h₀ hK hE hsolve) hr
    rcases hs' with ⟨s', h1, rfl⟩ | ⟨m, h1, rfl⟩ | ⟨h1, rfl⟩ | ⟨h1, rfl⟩
    · exact Or.inl ⟨_, rfl⟩
    · right
      rcases hres with ⟨r, h2⟩ | h2
      · rw [h1] at h2; cases h2
      · rw [h1] at h2; cases h2; rfl
    · rcases hres with ⟨r, h2⟩ | h2 <;> rw [h1] at h2 <;> cases h2
    · rcases hres with ⟨r, h2⟩ | h2 <;> rw [h1] at h2 <;> cases h2

theorem soplex_start {x : Setup.External} {p : Problem} (hp : p.WellFormed) {user : Setup.ParamsMsg}
    {c : Setup.Created} (h : Setup.create x p user = .ok c) (hl : ∃ g, c.lpi = .soplex g)
    (h₀ : Refines (start c.lpi).program p.relaxation) {eps : ℚ} (he : 0 ≤ eps) :
    OneRound p (start c.lpi).program (IsSoplex eps) (SoplexSolved eps) { world := { lp := start c.lpi } } := by
  obtain ⟨-, g, hg, hf, ho⟩ := plainSoplex_start hp h hl
  have hg : start c.lpi = .soplex g := hg
  have hp' : (start c.lpi).program = g.lp := by rw [hg]; rfl
  refine ⟨cutting_start hp h₀, ⟨g, hg, hf, ho, fun row hrow => ?_⟩, le_refl _, fun _ => rfl,
    fun _ hopt => ?_, by simp⟩
  · rw [← hp'] at hrow
    obtain ⟨n, hn⟩ := List.getElem?_of_mem hrow
    obtain ⟨h1, h2⟩ := h₀.rows n _ hn
    have hlt : n < p.constraints.length := by
      have := (List.getElem?_eq_some_iff.1 hn).1
      rw [h₀.numRows] at this; exact this
    rw [h1, h2]
    refine not_lt_of_le ?_ he
    simp only [Problem.relaxation, List.getElem?_eq_getElem hlt]
    exact (hp.2 _ (List.getElem_mem hlt)).2.1
  · have h1 : g.status = .optimal := by
      have hopt : (start c.lpi).isOptimal = true := hopt
      simpa [hg, Lp.isOptimal] using hopt
    have := ho h1
    cases this

theorem open_of_le {eps : ℚ} (he : 0 ≤ eps) (w : World)
    (h : ∀ col ∈ w.lp.program.cols, Dbl.le col.lower col.upper = true) : ColumnsOpen eps w :=
  fun col hc => not_lt_of_le (h col hc) he

/-! ### The theorems -/

/-- What is asked of SoPlex: every call returns, the points lie within the LP, and after an optimal solve
there are a basis of the LP and the inverse of its matrix. -/
structure Engine.GoodSoplex (e : Engine) : Prop where
  feasible : e.Feasible
  returns : e.SoplexReturns
  basic : e.SoplexBasic
  order : e.InOrder
  sorted : e.Sorted

/-- **C77 with one round of cuts for SoPlex, what holds.**  For every well-formed problem that has a feasible
point, whose integer variables have integral bounds (or infinite ones) that are not negative, and whose
constraints have integral sides, with SoPlex, the max-fractional rule, integrality tolerance 0, and at most
one round of cuts, no iteration of `Solve` aborts or runs into undefined behaviour. -/
theorem C77_soplex_one_round_partial {e : Engine} (he : e.GoodSoplex) {x : Setup.External} {p : Problem}
    (hp : p.WellFormed) (hn : NonnegativeIntegers p) (hi : IntegralIntegers p) (hs : IntegralSides p)
    (hy : ∃ y, p.Feasible y) {user : Setup.ParamsMsg} (htol : user.integralityTolerance = some 0)
    {c : Setup.Created} (h : Setup.create x p user = .ok c) (hl : ∃ g, c.lpi = .soplex g)
    (hprm : OneRoundParams c) {dir : Setup.Direction} (hrule : c.rule = .maxFractional dir) (fuel : Nat) :
    solve e c fuel = none ∨ (∃ s, solve e c fuel = some (.ok s)) ∨
      solve e c fuel = some (.error "The problem is infeasible or unbounded") := by
  obtain ⟨hd, h₀⟩ := created_refines hp h
  obtain ⟨-, hdata, -, -, -, h6, -⟩ := Setup.create_ok h
  rw [htol] at h6
  have hv : CutsValid e p c := ⟨⟨he.order, he.sorted, hp, hn, hs, _, hdata⟩, h6⟩
  exact oneRound_uncrossed he.feasible hi hv.toCutSetting (by rw [hv.tol]) hprm hrule hd h₀
    (steady_soplex he.returns he.feasible he.basic _) (goodCuts_of_feasible hv hy h₀ _)
    (columnsOpen_of_feasible he.returns.eps) (open_of_le he.returns.eps)
    (soplex_start hp h hl h₀ he.returns.eps) fuel

/-- **C77 with one round of cuts for SoPlex, for integral problems**, with or without feasible points, and
with integrality tolerances smaller than `1 / D`, where `D` bounds the determinants of the basis matrices. -/
theorem C77_soplex_one_round_integral_partial {e : Engine} (he : e.GoodSoplex) {x : Setup.External}
    {p : Problem} (hp : p.WellFormed) (hn : NonnegativeIntegers p) (hi : IntegralIntegers p)
    (hI : IntegralProblem p) {D : ℚ} (hD : Determinants p D) {user : Setup.ParamsMsg} {c : Setup.Created}
    (h : Setup.create x p user = .ok c) (htol : 0 ≤ c.integralityTolerance)
    (hDt : D * c.integralityTolerance < 1) (hl : ∃ g, c.lpi = .soplex g)
    (hprm : OneRoundParams c) {dir : Setup.Direction} (hrule : c.rule = .maxFractional dir) (fuel : Nat) :
    solve e c fuel = none ∨ (∃ s, solve e c fuel = some (.ok s)) ∨
      solve e c fuel = some (.error "The problem is infeasible or unbounded") := by
  obtain ⟨hd, h₀⟩ := created_refines hp h
  obtain ⟨-, hdata, -⟩ := Setup.create_ok h
  have hv : CutSetting e p c := ⟨he.order, he.sorted, hp, hn, hI.sides, _, hdata⟩
  exact oneRound_uncrossed he.feasible hi hv htol hprm hrule hd h₀
    (steady_soplex he.returns he.feasible he.basic _) (goodCuts_soplex hv hI hD htol hDt h₀ _)
    (columnsOpen_of_feasible he.returns.eps) (open_of_le he.returns.eps)
    (soplex_start hp h hl h₀ he.returns.eps) fuel

/-- **C75 with one round of cuts for SoPlex, for integral problems.**  In the same setting, with LP code that
answers rightly and an objective that is bounded on the relaxation: the best solution is optimal, and an
error means that the problem is infeasible. -/
theorem C75_soplex_one_round_integral_partial {e : Engine} (he : e.GoodSoplex) (hright : e.Right)
    {x : Setup.External} {p : Problem} (hp : p.WellFormed) (hB : Bounded p) (hn : NonnegativeIntegers p)
    (hI : IntegralProblem p) {D : ℚ} (hD : Determinants p D) {user : Setup.ParamsMsg} {c : Setup.Created}
    (h : Setup.create x p user = .ok c) (htol : 0 ≤ c.integralityTolerance)
    (hDt : D * c.integralityTolerance < 1) (hl : ∃ g, c.lpi = .soplex g) (hprm : OneRoundParams c)
    (fuel : Nat) :
    (∀ s, solve e c fuel = some (.ok s) → ∀ y, p.Feasible y →
      s.result.best ≠ {} ∧
      if p.isMaximization then p.userObjective y ≤ p.userObjective (point s.result.best.values)
      else p.userObjective (point s.result.best.values) ≤ p.userObjective y) ∧
    ∀ m, solve e c fuel = some (.error m) → ∀ y, ¬ p.Feasible y := by
  obtain ⟨hd, h₀⟩ := created_refines hp h
  obtain ⟨-, hdata, -⟩ := Setup.create_ok h
  have hv : CutSetting e p c := ⟨he.order, he.sorted, hp, hn, hI.sides, _, hdata⟩
  exact oneRound_right hright hB hv hprm hd h₀ (steady_soplex he.returns he.feasible he.basic _)
    (goodCuts_soplex hv hI hD htol hDt h₀ _) (fun w _ h => columnsOpen_of_feasible he.returns.eps w h)
    (soplex_start hp h hl h₀ he.returns.eps) fuel

theorem rule_max {x : Setup.External} {p : Problem} (hp : p.WellFormed) {user : Setup.ParamsMsg}
    {c : Setup.Created} (hc : Setup.create x p user = .ok c)
    (hr : ∀ s, user.branching.bind (·.rule) ≠ some (.random s)) : ∃ dir, c.rule = .maxFractional dir := by
  obtain ⟨-, -, -, -, -, -, -, ⟨dir, -, -, hrule⟩, -⟩ := Setup.C58_user_wins_partial x p hp user c hc
  refine ⟨dir, hrule ?_⟩
  rcases hb : user.branching.bind (·.rule) with _ | r
  · exact Or.inr rfl
  · cases r with
    | random s => exact absurd hb (hr s)
    | maxFractional => exact Or.inl rfl

/-- **C83 for SoPlex.**  The same as `C83_one_round_total_correctness_partial` with SoPlex, if the bounds of
the integer variables are integral and SoPlex accepts the parameter values. -/
theorem C83_soplex_one_round_total_correctness_partial (p : Problem) (hp : p.WellFormed)
    (hf : FiniteIntegers p) (hi : IntegralIntegers p) (hB : Bounded p) (hn : NonnegativeIntegers p)
    (hs : IntegralSides p) (hy : ∃ y, p.Feasible y) :
    ∀ (x : Setup.External) (set : Soplex.Settings) (user : Setup.ParamsMsg) (lp : LpParameters),
      Setup.newSoplex x = .ok set → (∀ r v, x.accepts.real r v = true) → (∀ r v, x.accepts.int r v = true) →
      Setup.LpWins user.lp lp → Setup.SoplexTakes lp → AsksOneRound user →
      (∀ s, user.branching.bind (·.rule) ≠ some (.random s)) → user.integralityTolerance = some 0 →
      ∃ c, Setup.create x p user = .ok c ∧ ∀ e : Engine, e.Right → e.GoodSoplex → Solves p 0 (solve e c (iterationBound p)) := by
  have hN := C76_ends_partial p hp hf
  intro x set user lp hset hx1 hx2 hlp ht hu hr htol
  obtain ⟨c, hc⟩ := (Setup.C73_soplex_partial x (hx1 _ _) set hset p hp user lp hlp ht.solver).2 hx1 hx2 ht
  obtain ⟨dir, hrule⟩ := rule_max hp hc hr
  refine ⟨c, hc, fun e he hgood => ?_⟩
  have := solves_of_parts he.feasible hp hc
    (hN e x user c dir he.feasible hc hrule (by rw [htol]; exact le_refl _))
    (C77_soplex_one_round_partial hgood hp hn hi hs hy htol hc
      (soplex_created hc (by rw [← hlp.eq]; exact ht.solver)) (oneRoundParams hp hc hu) hrule _)
    (C75_with_cuts_partial he hgood.order hgood.sorted hp hB hn hs htol hc _)
  rwa [htol] at this

/-- **C83 for SoPlex, integral problems.**  The same as `C83_one_round_integral_total_correctness_partial`
with SoPlex, if the bounds of the integer variables are integral too and SoPlex accepts the parameter
values. -/
theorem C83_soplex_one_round_integral_total_correctness_partial (p : Problem) (hp : p.WellFormed)
    (hf : FiniteIntegers p) (hi : IntegralIntegers p) (hB : Bounded p) (hn : NonnegativeIntegers p)
    (hI : IntegralProblem p) {D : ℚ} (hD : Determinants p D) :
    ∀ (x : Setup.External) (set : Soplex.Settings) (user : Setup.ParamsMsg) (lp : LpParameters),
      Setup.newSoplex x = .ok set → (∀ r v, x.accepts.real r v = true) → (∀ r v, x.accepts.int r v = true) →
      Setup.LpWins user.lp lp → Setup.SoplexTakes lp → AsksOneRound user →
      (∀ s, user.branching.bind (·.rule) ≠ some (.random s)) →
      0 ≤ user.integralityTolerance.getD (1 / 10 ^ 6) → D * user.integralityTolerance.getD (1 / 10 ^ 6) < 1 →
      ∃ c, Setup.create x p user = .ok c ∧ ∀ e : Engine, e.Right → e.GoodSoplex →
        Solves p (user.integralityTolerance.getD (1 / 10 ^ 6)) (solve e c (iterationBound p)) := by
  have hN := C76_ends_partial p hp hf
  intro x set user lp hset hx1 hx2 hlp ht hu hr htol hDt
  obtain ⟨c, hc⟩ := (Setup.C73_soplex_partial x (hx1 _ _) set hset p hp user lp hlp ht.solver).2 hx1 hx2 ht
  obtain ⟨-, -, -, -, -, h6, -⟩ := Setup.create_ok hc
  obtain ⟨dir, hrule⟩ := rule_max hp hc hr
  have hl := soplex_created hc (by rw [← hlp.eq]; exact ht.solver)
  refine ⟨c, hc, fun e he hgood => ?_⟩
  exact solves_of_parts he.feasible hp hc (hN e x user c dir he.feasible hc hrule htol)
    (C77_soplex_one_round_integral_partial hgood hp hn hi hI hD hc (by rw [h6]; exact htol)
      (by rw [h6]; exact hDt) hl (oneRoundParams hp hc hu) hrule _)
    (C75_soplex_one_round_integral_partial hgood he hp hB hn hI hD hc (by rw [h6]; exact htol)
      (by rw [h6]; exact hDt) hl (oneRoundParams hp hc hu) _)

/-- SoPlex with at most one round of cuts, and all else by default. -/
def onceSoplex : Setup.ParamsMsg where
  lp := some { solverType := some .soplex }
  cutRunner := some { defaultRunner := some { maxIterations := some 1 } }

/-- The hypotheses of the theorems above are met together, by the problem of the example for Glop. -/
example : perfect.Right ∧ perfect.GoodSoplex ∧ IntegralIntegers parity ∧ AsksOneRound onceSoplex ∧
    (∀ s, onceSoplex.branching.bind (·.rule) ≠ some (.random s)) ∧
    ∃ x set, Setup.newSoplex x = .ok set ∧ (∀ r v, x.accepts.real r v = true) ∧
      (∀ r v, x.accepts.int r v = true) ∧ Setup.LpWins onceSoplex.lp (onceSoplex.lp.getD {}).read ∧
      Setup.SoplexTakes (onceSoplex.lp.getD {}).read ∧
      0 ≤ onceSoplex.integralityTolerance.getD (1 / 10 ^ 6) ∧
      2 * onceSoplex.integralityTolerance.getD (1 / 10 ^ 6) < 1 := by
  refine ⟨perfect_spec.1, ⟨perfect_spec.1.feasible, perfect_soplex, perfect_basic.2, fun _ _ => rfl,
    fun _ _ _ => List.Pairwise.nil⟩, ?_, ⟨⟨1, le_refl _, rfl⟩, by simp [onceSoplex]⟩, by simp [onceSoplex],
    Setup.exExternal, _, rfl, fun _ _ => rfl, fun _ _ => rfl,
    Setup.lpWins _, ⟨⟨?_, ?_, ?_, ?_, ?_, ?_, ?_, ?_⟩, rfl, ?_, ?_, ?_, ?_⟩, ?_, ?_⟩
  · intro v hv _
    simp [parity] at hv
    rcases hv with rfl | rfl <;> exact ⟨.inr ⟨0, by simp⟩, .inr ⟨5, by simp⟩⟩
  all_goals first
    | (norm_num [onceSoplex, Setup.LpMsg.read, ToleranceOk]; done)
    | simp [onceSoplex, Setup.LpMsg.read]

end Program
end MiniMip
