import Verif.Lemmas.ProgramRound

/-!
# C83: total correctness with one round of cuts
-/

namespace MiniMip
namespace Program


open Glop (LinearProgram Extends Refines Stored)
open Generator (Below)
open Solver (Oracle Contract guard cautious point InBounds NodeBounds OptimalAnswer)

/-- What the LP code holds can be read by the cut generator: activities, values, a basis head with an entry
for every row, and for every row of the LP a row of the inverse of the basis matrix. -/
structure World.Fits (w : World) : Prop where
  activities : ∃ acts, w.activities = .ok acts ∧ acts.length = w.lp.program.rows.length
  primal : ∃ values, w.primal = .ok values
  basis : w.basis.length = w.lp.program.rows.length
  inverse : ∀ k < w.lp.program.rows.length, ∃ b, w.inverseRow k = .ok b ∧
    ∀ e ∈ b.entries, e.index < w.lp.program.rows.length

/-- What the argument needs of an LP interface: `K` holds throughout, `R` when the LP may be solved again,
`F` after it was solved to optimality. -/
structure Steady (e : Engine) (n : Nat) (K R F : World → Prop) : Prop where
  fits : ∀ w, F w → w.Fits
  primal : ∀ w, K w → w.lp.isOptimal = true → ∃ values, w.primal = .ok values
  mayBound : ∀ w (j : Int) l u, K w → 0 ≤ j → j < w.lp.program.cols.length → ∃ lp, w.lp.setColumnBounds j l u = .ok lp
  setBounds : ∀ w j l u lp, K w → w.lp.setColumnBounds j l u = .ok lp → K { w with lp := lp }
  addRow : ∀ w row rhs name, K w → R w → w.lp.program.cols.length = n → row.Good → Below n row →
    ∃ lp, w.lp.addRow { row := row, lhs := .ninf, rhs := .fin rhs, name := name } = .ok lp ∧
      K { w with lp := lp } ∧ R { w with lp := lp }
  solve : ∀ w, K w → R w → ∃ w', w.solve e = .ok w'
  solved : ∀ w w', K w → w.solve e = .ok w' → K w' ∧ (w'.lp.isOptimal = true → F w')
  draws : ∀ w k, (K w → K { w with draws := k }) ∧ (F w → F { w with draws := k })

/-- The cuts of a run with one round. -/
def Proper (p : Problem) (cut : CutData) : Prop :=
  ValidCut p cut ∧ Below p.vars.length cut.row ∧ cut.numNonZeros ≠ 0 ∧
    ∀ hash d, MipData.ofProblem hash p = .ok d → Rated d.objective cut

/-- The states of a run with one round of cuts. -/
structure OneRound (p : Problem) (lp₀ : LinearProgram) (K F : World → Prop) (r : Runner World) : Prop
    extends Cutting p lp₀ r where
  kind : K r.world
  rounds : 0 ≤ r.numCutrounds
  rows : r.numCutrounds = 0 → r.world.lp.program.rows.length = lp₀.rows.length
  fits : r.world.lp.isSolved = true → r.world.lp.isOptimal = true → F r.world
  proper : ∀ cut ∈ r.registry.cuts, Proper p cut

/-- The cuts of the first round are valid and have coefficients. -/
def GoodCuts (e : Engine) (p : Problem) (c : Setup.Created) (lp₀ : LinearProgram) (F : World → Prop) : Prop :=
  ∀ w rs m cuts, Sound p lp₀ w → Fit c.data w.lp.program → F w → w.lp.program.rows.length = lp₀.rows.length →
    Generator.generateCuttingPlanes (context e c w) w.view rs m = .ok cuts →
    ∀ cut ∈ cuts, ValidCut p cut ∧ cut.row.entries ≠ []

theorem context_rows {e : Engine} {c : Setup.Created} {w : World} {row : SparseVector}
    (h : row ∈ (context e c w).lp.rows) : ∃ n : Nat, n < w.lp.program.rows.length ∧ row = w.lp.sparseRow e n := by
  simp only [context, Lp.view, List.mem_map, List.mem_range] at h
  obtain ⟨n, hn, rfl⟩ := h
  exact ⟨n, hn, rfl⟩

theorem rowsClean {e : Engine} (ho : e.InOrder) {c : Setup.Created} {w : World} (hs : Stored w.lp.program) :
    Generator.RowsClean (context e c w).lp := by
  intro row hr
  obtain ⟨n, -, rfl⟩ := context_rows hr
  exact (sparseRow_spec ho hs n).1

theorem sparseRow_below {e : Engine} (ho : e.InOrder) {l : Lp} (h : Stored l.program) (r : Nat) :
    Below l.program.cols.length (l.sparseRow e r) := by
  have h1 := Glop.transposedRow_clean (r : Int) l.program.cols 0 (fun c hc => (h c hc).1)
  cases l with
  | glop s =>
    have : (Lp.glop s).sparseRow e r = ⟨Glop.transposedRow r 0 s.iface.lp.cols, false⟩ :=
      Glop.copyToSparse_clean h1.1
    rw [this]
    intro en hen
    have := (h1.2.1 en hen).2
    rwa [Nat.zero_add] at this
  | soplex g =>
    have : (Lp.soplex g).sparseRow e r = ⟨Glop.transposedRow r 0 g.lp.cols, false⟩ := by
      show Glop.copyEntries {} (e.order (Glop.transposedRow r 0 g.lp.cols)) = _
      rw [show e.order (Glop.transposedRow r 0 g.lp.cols) = Glop.transposedRow r 0 g.lp.cols from ho _ h1.1,
        Glop.copyEntries_clean _ _ rfl (by simpa using (show SparseVector.Clean (Glop.transposedRow r 0 g.lp.cols) from h1.1))]
      rfl
    rw [this]
    intro en hen
    have := (h1.2.1 en hen).2
    rwa [Nat.zero_add] at this

theorem consistent {e : Engine} (ho : e.InOrder) {c : Setup.Created} {w : World} (hs : Stored w.lp.program)
    (hr : ∀ s, w.lp = .glop s → w.report.Sorted) (hf : w.Fits) :
    Generator.Consistent (context e c w) w.view where
  lhs := by simp [context, Lp.view]
  rhs := by simp [context, Lp.view]
  upper := by simp [context, Lp.view]
  columns := by
    intro row hrow en hen
    obtain ⟨n, -, rfl⟩ := context_rows hrow
    have := sparseRow_below ho hs n en hen
    simpa [context, Lp.view] using this
  activities := by simpa [context, Lp.view, World.view] using hf.activities
  primal := hf.primal
  basis := by simpa [context, Lp.view, World.view] using hf.basis
  inverse := by
    intro k hk
    simp only [context, Lp.view, List.length_map, List.length_range] at hk ⊢
    obtain ⟨b, h1, h2⟩ := hf.inverse k hk
    exact ⟨b, h1, solverClean hr k b h1, h2⟩

/-- The parameters: one round, and no negative limit of a generator. -/
structure OneRoundParams (c : Setup.Created) : Prop where
  rounds : c.runner.params.maxIterations ≤ 1
  limits : ∀ g ∈ c.runner.generators, 0 ≤ g.maxNumCuts

theorem mayRun_spec {W : Type} {p : RunnerParams} {pl : Plugins W} {r : Runner W}
    (h : Runner.mayRun p pl r = true) : pl.isSolved r.world = true ∧ r.numCutrounds < p.maxIterations := by
  unfold Runner.mayRun at h
  split at h
  · cases h
  · split at h
    · cases h
    · split at h
      · cases h
      · rename_i h2 h3
        exact ⟨by simpa using h2, by omega⟩

theorem separate_returns {e : Engine} {p : Problem} {c : Setup.Created} (hv : CutSetting e p c)
    (hprm : OneRoundParams c) {lp₀ : LinearProgram} (h₀ : Refines lp₀ p.relaxation) {K R F : World → Prop}
    (hK : Steady e p.vars.length K R F) (hE : GoodCuts e p c lp₀ F) {r : Runner World}
    (hr : OneRound p lp₀ K F r) (hf : Fit c.data r.world.lp.program) (hR : R r.world)
    (hopt : r.world.lp.isOptimal = true) :
    ∃ r', separate e c r = .ok r' ∧ OneRound p lp₀ K F r' ∧ bounds r' = bounds r ∧
      (r'.world = r.world ∨ ∃ w, Sound p lp₀ w ∧ w.solve e = .ok r'.world) := by
  have hcols : ∀ w, Sound p lp₀ w → w.lp.program.cols.length = p.vars.length := fun w hw => by
    rw [hw.good.numCols, h₀.numCols]; rfl
  obtain ⟨hash, hdata⟩ := hv.data
  obtain ⟨d', h1, hrep, -, -⟩ := MipData.ofProblem_spec hash p hv.wellFormed
  rw [hdata] at h1
  have := Outcome.ok.inj h1
  subst this
  have hgen : Runner.mayRun c.runner.params (plugins e c) r = true → ∀ g ∈ (plugins e c).generators, ∀ reg,
      ∃ cuts, g r.world reg = .ok (r.world, cuts) ∧ ∀ c ∈ cuts, Proper p c := by
    intro hm g hg reg
    obtain ⟨hsol, hlt⟩ := mayRun_spec hm
    have hsol : r.world.lp.isSolved = true := hsol
    have h0 : r.numCutrounds = 0 := by have := hr.rounds; have := hprm.rounds; omega
    have hF := hr.fits hsol hopt
    simp only [plugins, List.mem_map] at hg
    obtain ⟨gc, hgc, rfl⟩ := hg
    have hclean := rowsClean hv.order (c := c) hr.sound.stored
    have hB := solverClean hr.sound.sorted
    obtain ⟨cuts, hcuts⟩ := Generator.C34_in_range_partial (context e c r.world) r.world.view hclean
      (consistent hv.order hr.sound.stored hr.sound.sorted (hK.fits _ hF))
      (by
        simp only [context, Lp.view, List.length_map, List.length_range]
        rw [hr.rows h0, h₀.numRows, hrep.numFlags]
        rfl) hsol hopt (rounders gc) gc.maxNumCuts (hprm.limits gc hgc)
    refine ⟨cuts, by simp only [hcuts, Outcome.bind_ok, Outcome.pure_eq], fun cut hc => ⟨?_, ?_, ?_, ?_⟩⟩
    · exact (hE _ _ _ _ hr.sound hf hF (hr.rows h0) hcuts cut hc).1
    · refine (Generator.generate_below hclean ?_ hB hcuts cut hc).1
      intro row hrow
      obtain ⟨n, -, rfl⟩ := context_rows hrow
      rw [← hcols _ hr.sound]
      exact sparseRow_below hv.order hr.sound.stored n
    · rw [(Generator.generate_below (n := p.vars.length) hclean (by
        intro row hrow
        obtain ⟨n, -, rfl⟩ := context_rows hrow
        rw [← hcols _ hr.sound]
        exact sparseRow_below hv.order hr.sound.stored n) hB hcuts cut hc).2]
      have := (hE _ _ _ _ hr.sound hf hF (hr.rows h0) hcuts cut hc).2
      rw [Ne, Int.natCast_eq_zero, List.length_eq_zero_iff]
      exact this
    · intro hash' d hd
      obtain ⟨d₀, h0', rfl⟩ := MipData.ofProblem_order hd
      obtain ⟨d₁, h1', hd₁⟩ := MipData.ofProblem_order hdata
      rw [h0'] at h1'
      have := Outcome.ok.inj h1'
      subst this
      have hobj : d₀.objective = c.data.objective := by rw [hd₁]
      show Rated d₀.objective cut
      rw [hobj]
      exact Generator.generate_rated hclean hrep.objectiveClean.1 hB hcuts cut hc
        (hE _ _ _ _ hr.sound hf hF (hr.rows h0) hcuts cut hc).2
  have hsel : ∀ w reg l, (∀ c ∈ l, Proper p c) →
      ∃ l', (plugins e c).select w reg l = .ok (w, l') ∧ ∀ c ∈ l', Proper p c := by
    intro w reg l hl
    obtain ⟨out, hout⟩ := HybridSelector.C21_selection_succeeds e.sorter c.runner.selector l (fun d hd => (hl d hd).2.2.1)
      (Rated.comparable fun d hd => (hl d hd).2.2.2 _ _ hdata)
    refine ⟨out, by simp only [plugins, hout, Outcome.bind_ok, Outcome.pure_eq], fun cut hc => ?_⟩
    obtain ⟨d, hd, x, rfl⟩ := HybridSelector.select_mem hout cut hc
    exact hl d hd
  have hadd : ∀ w cut, (Sound p lp₀ w ∧ K w ∧ R w ∧ bounds { r with world := w } = bounds r) →
      Proper p cut → ∃ w', (plugins e c).addRow w
      { row := cut.row, lhs := (plugins e c).infinity.neg, rhs := .fin cut.rhs, name := cut.name } = .ok w' ∧
        Sound p lp₀ w' ∧ K w' ∧ R w' ∧ bounds { r with world := w' } = bounds r := by
    rintro w cut ⟨h1, h2, h3, h4⟩ hc
    obtain ⟨lp, g1, g2, g3⟩ := hK.addRow w cut.row cut.rhs cut.name h2 h3 (hcols w h1) hc.1.1 hc.2.1
    exact ⟨_, by simp only [plugins, readLhs_neg, g1, Outcome.bind_ok, Outcome.pure_eq], (h1.addRow hc.1 g1).1, g2, g3,
      (bounds_congr (h1.addRow hc.1 g1).2).trans h4⟩
  obtain ⟨r', h1, h2, h3⟩ := Runner.separate_one (pl := plugins e c) hprm.rounds
    (I := fun w => Sound p lp₀ w ∧ K w ∧ R w ∧ bounds { r with world := w } = bounds r) (V := Proper p)
    (fun c i h => h) (r := r) ⟨hr.sound, hr.kind, hR, rfl⟩ hr.proper hr.rounds hgen hsel hadd
    (fun w h => hK.solve w h.2.1 h.2.2.1)
  have hsep : separate e c r = .ok r' := by
    unfold separate
    rw [h1]
  refine ⟨r', hsep, ?_⟩
  rcases h3 with ⟨h4, h5⟩ | ⟨h4, w, ⟨h8, h6, -, h9⟩, h7⟩
  · exact ⟨⟨⟨by rw [h4]; exact hr.sound, fun cut hc => (h2 cut hc).1⟩, by rw [h4]; exact hr.kind,
      by rw [h5]; exact hr.rounds, by rw [h4, h5]; exact hr.rows, by rw [h4]; exact hr.fits, h2⟩,
      bounds_congr fun c => by rw [h4], Or.inl h4⟩
  · have := hr.rounds
    have h7 : w.solve e = .ok r'.world := h7
    obtain ⟨g1, g2⟩ := hK.solved w r'.world h6 h7
    have hp := (solve_world h7).1
    exact ⟨⟨⟨h8.solve hv.sorted h7, fun cut hc => (h2 cut hc).1⟩, g1, by omega, by omega, fun _ h => g2 h, h2⟩,
      (bounds_congr (r := { r with world := w }) fun c => by rw [hp]).trans h9, Or.inr ⟨w, h8, h7⟩⟩

theorem setBounds_unsolved {l l' : Lp} {j : Int} {lower upper : Dbl}
    (h : l.setColumnBounds j lower upper = .ok l') : l'.isSolved = false := by
  cases l with
  | glop s =>
    simp only [Lp.setColumnBounds, Glop.setColumnBounds, Outcome.bind_eq_ok] at h
    obtain ⟨g, h1, h⟩ := h
    cases h
    split at h1
    · cases h1; rfl
    · cases h1
  | soplex g =>
    simp only [Lp.setColumnBounds, Soplex.setColumnBounds, Outcome.bind_eq_ok] at h
    obtain ⟨g', ⟨_, -, _, -, _, -, h2⟩, h⟩ := h
    cases h
    cases h2
    rfl

theorem branch_world {e : Engine} {c : Setup.Created} {r r' : Runner World} {col : Int} {up : Bool}
    (h : (oracle e c).branch r = .ok (r', col, up)) :
    ∃ k, r' = { r with world := { r.world with draws := k } } := by
  simp only [oracle, Outcome.bind_eq_ok] at h
  obtain ⟨⟨w, col', up'⟩, h3, h4⟩ := h
  cases h4
  unfold branch at h3
  split at h3 <;> simp only [Outcome.bind_eq_ok] at h3 <;> obtain ⟨x, -, h3⟩ := h3 <;> cases h3
  · exact ⟨_, rfl⟩
  · exact ⟨r.world.draws, rfl⟩

/-- The states in which the cut runner may run. -/
def MaySeparate (d : MipData) (R : World → Prop) (r : Runner World) : Prop := Allowed d r ∧ R r.world

theorem contract_oneRound {e : Engine} {p : Problem} {c : Setup.Created} (hv : CutSetting e p c)
    (hprm : OneRoundParams c) {lp₀ : LinearProgram} (h₀ : Refines lp₀ p.relaxation) {K R F : World → Prop}
    (hK : Steady e p.vars.length K R F) (hE : GoodCuts e p c lp₀ F) {A : World → Prop}
    (hA : ∀ w w' : World, Sound p lp₀ w → w.solve e = .ok w' → A w') :
    Contract (cautious (oracle e c) (MaySeparate c.data R)) (OneRound p lp₀ K F) bounds fun r => A r.world := by
  have hc := contract_keeping (c := c) hv.sorted hA (P := fun _ => False) (fun _ _ h => h.elim)
  constructor
  · intro r j l u r' hr h
    obtain ⟨h1, h2⟩ := hc.setBounds r j l u r' hr.toCutting h
    refine ⟨?_, h2⟩
    have h : (oracle e c).setBounds r j l u = .ok r' := h
    simp only [oracle, Outcome.bind_eq_ok] at h
    obtain ⟨lp, h3, h4⟩ := h
    cases h4
    refine ⟨h1, hK.setBounds _ _ _ _ _ hr.kind h3, hr.rounds, fun h0 => ?_, fun hs => ?_, hr.proper⟩
    · have := hr.rows h0
      obtain ⟨-, -, g1⟩ := setColumnBounds_program h3
      rw [← this]
      show lp.program.rows.length = _
      rw [g1]; rfl
    · rw [setBounds_unsolved h3] at hs; cases hs
  · intro r r' hr h
    obtain ⟨h1, h2, h3⟩ := hc.solve r r' hr.toCutting h
    refine ⟨?_, h2, h3⟩
    have h : (oracle e c).solve r = .ok r' := h
    obtain ⟨g1, -, -, g4⟩ := solve_spec h
    have hw := (solve_world g1).1
    obtain ⟨k1, k2⟩ := hK.solved _ _ hr.kind g1
    have hn : r'.numCutrounds = r.numCutrounds := by
      simp only [oracle, Outcome.bind_eq_ok] at h
      obtain ⟨w, -, h⟩ := h
      cases h
      rfl
    exact ⟨h1, k1, by rw [hn]; exact hr.rounds, by rw [hn, hw]; exact hr.rows, fun _ h => k2 h,
      by rw [g4]; exact hr.proper⟩
  · intro r r' hr ha ho h
    by_cases hf : MaySeparate c.data R r
    · have h : (oracle e c).separate r = .ok r' := (if_pos hf).symm.trans h
      obtain ⟨r'', g1, g2, g3, g4⟩ := separate_returns hv hprm h₀ hK hE hr hf.1 hf.2 ho
      have : r' = r'' := Outcome.ok.inj (h.symm.trans g1)
      subst this
      refine ⟨g2, g3, ?_⟩
      rcases g4 with g4 | ⟨w, g4, g5⟩
      · rw [g4]; exact ha
      · exact hA w _ g4 g5
    · have h : Outcome.ok r = .ok r' := (if_neg hf).symm.trans h
      cases h
      exact ⟨hr, rfl, ha⟩
  · intro r r' col up hr h
    obtain ⟨h1, h2⟩ := hc.branch r r' col up hr.toCutting h
    refine ⟨?_, h2⟩
    obtain ⟨k, rfl⟩ := branch_world (e := e) (c := c) h
    exact ⟨h1, (hK.draws _ _).1 hr.kind, hr.rounds, hr.rows, fun a b => (hK.draws _ _).2 (hr.fits a b), hr.proper⟩

theorem keeps_oneRound {e : Engine} {p : Problem} {c : Setup.Created} (hv : CutSetting e p c)
    (hprm : OneRoundParams c) {lp₀ : LinearProgram} (h₀ : Refines lp₀ p.relaxation) {K R F : World → Prop}
    (hK : Steady e p.vars.length K R F) (hE : GoodCuts e p c lp₀ F) :
    Solver.Keeps (cautious (oracle e c) (MaySeparate c.data R)) c.data (OneRound p lp₀ K F) := by
  have hc := contract_oneRound hv hprm h₀ hK hE (A := fun _ => True) (fun _ _ _ _ => trivial)
  exact ⟨fun w hg j _ l u w' h => (hc.setBounds w j l u w' hg h).1,
    fun w w' hg h => (hc.solve w w' hg h).1,
    fun w w' hg ho h => (hc.separate w w' hg trivial ho h).1,
    fun w w' col up hg h => (hc.branch w w' col up hg h).1⟩

/-! ### Glop -/

/-- What Glop holds has the dimensions of an LP with `n` rows. -/
def Report.Fits (n : Nat) (r : Report) : Prop :=
  r.basis.length = n ∧ ∀ k < n, Glop.ScatteredOk n (r.glopInverse k)

/-- After a solve that ends with an optimal solution, Glop has a basis with an entry for every row, and
rows of the inverse of the basis matrix of that length. -/
def Engine.GlopFits (e : Engine) : Prop :=
  ∀ n s, (e.glop n s).2.1 = .optimal → (e.glop n s).2.2.2.Fits s.iface.lp.rows.length

/-- The world uses Glop, with settings for which `T` holds. -/
def IsGlop (T : Glop.Settings → Prop) (w : World) : Prop := ∃ s, w.lp = .glop s ∧ T s.settings

theorem glop_fits {w : World} {T : Glop.Settings → Prop} (hg : IsGlop T w) (hs : w.report.Sorted)
    (hf : w.report.Fits w.lp.program.rows.length) : w.Fits := by
  obtain ⟨s, hg, -⟩ := hg
  have hp : w.lp.program = s.iface.lp := by rw [hg]; rfl
  rw [hp] at hf
  constructor
  · exact ⟨_, by simp only [World.activities, hg, Glop.getRowActivities]; rfl, by simp [hp]⟩
  · exact ⟨_, by simp only [World.primal, hg, Glop.getPrimalValues]; rfl⟩
  · simp only [World.basis, hg, Glop.getColumnsAndRowsInBasis, List.length_map]
    rw [← hg, hp, List.length_take, hf.1, min_self]
  · intro k hk
    rw [hp] at hk ⊢
    obtain ⟨v, h1, h2, h3, -, h4⟩ := Glop.C69_inverse_row_partial s.iface w.report.glopInverse
      (match s.settings.primalTolerance with | .fin q => q | _ => 0) k (hf.2 k hk)
    refine ⟨v, by simp only [World.inverseRow, hg]; exact h1, fun e he => ?_⟩
    have hv := (h4 (hs k)).2
    rw [hv] at h2 h3
    obtain ⟨h5, h6⟩ := h2.2 e he
    by_contra hc
    apply h5
    have hval := value_of_mem h2 he
    have h7 := h3 e.index.toNat
    rw [show ((e.index.toNat : Nat) : Int) = e.index by omega] at h7
    have hz : (w.report.glopInverse k).values.getD e.index.toNat 0 = 0 := by
      rw [List.getD_eq_getElem?_getD, List.getElem?_eq_none (by rw [(hf.2 k hk).length]; omega)]
      rfl
    rw [hz] at h7
    have h8 : v.value e.index = 0 := by rcases h7 with h7 | h7; exacts [h7, h7.1]
    rw [← hval]
    exact h8

theorem setRow_ok (k : Nat) : ∀ (l : List Entry) (lp : LinearProgram),
    (∀ e ∈ l, 0 ≤ e.index ∧ e.index < lp.cols.length) → ∃ lp', Glop.setRow k lp l = .ok lp' := by
  intro l
  induction l with
  | nil => intro lp _; exact ⟨lp, rfl⟩
  | cons f r ih =>
    intro lp h
    have hf := h f (by simp)
    rw [Glop.setRow]
    unfold Glop.LinearProgram.setCoefficient
    rw [if_pos hf, Outcome.bind_ok]
    refine ih _ fun e he => ?_
    have := h e (by simp [he])
    simpa using this

/-- Worlds of Glop after an optimal solve, with `Q` for what Glop holds. -/
def GlopSolved (T : Glop.Settings → Prop) (Q : LinearProgram → Report → Prop) (w : World) : Prop :=
  IsGlop T w ∧ w.report.Sorted ∧ Q w.lp.program w.report

theorem steady_glop {e : Engine} (hret : e.GlopReturns) (hsort : e.Sorted) (T : Glop.Settings → Prop)
    {Q : LinearProgram → Report → Prop} (hQ : ∀ lp r, Q lp r → r.Fits lp.rows.length)
    (hfit : ∀ n s, (e.glop n s).2.1 = .optimal → Q s.iface.lp (e.glop n s).2.2.2) (n : Nat) :
    Steady e n (IsGlop T) (fun _ => True) (GlopSolved T Q) where
  fits w h := glop_fits h.1 h.2.1 (hQ _ _ h.2.2)
  primal := by
    rintro w ⟨s, hs, -⟩ -
    exact ⟨_, by simp only [World.primal, hs]; rfl⟩
  mayBound := by
    rintro w j l u ⟨s, hs, -⟩ h0 h1
    rw [hs] at h1
    exact ⟨_, by rw [hs]; simp only [Lp.setColumnBounds, Glop.setColumnBounds,
      if_pos (show 0 ≤ j ∧ j < (s.iface.lp.cols.length : Int) from ⟨h0, h1⟩)]; rfl⟩
  setBounds := by
    rintro w j l u lp ⟨s, hs, ht⟩ h
    rw [hs] at h
    simp only [Lp.setColumnBounds, Outcome.bind_eq_ok] at h
    obtain ⟨g, -, h⟩ := h
    cases h
    exact ⟨_, rfl, ht⟩
  addRow := by
    rintro w row rhs name ⟨s, hs, ht⟩ - hn hg hb
    have hp : w.lp.program = s.iface.lp := by rw [hs]; rfl
    rw [hp] at hn
    obtain ⟨lp, hlp⟩ := setRow_ok s.iface.lp.rows.length row.entries
      { s.iface.lp with rows := s.iface.lp.rows ++ [⟨.ninf, .fin rhs, name⟩] }
      (fun en hen => ⟨(hg.1.2 en hen).2, by have := hb en hen; simp only [hn]; exact this⟩)
    refine ⟨.glop { s with iface := { s.iface with lp := lp, modified := true } }, ?_, ⟨_, rfl, ht⟩, trivial⟩
    simp only [hs, Lp.addRow, Glop.addRow, hlp, Outcome.bind_ok]
    rfl
  solve := by
    rintro w ⟨s, hs, -⟩ -
    exact ⟨_, by simp only [World.solve, hs, if_pos (show (s.solveLp true _ _ _).2 = true from
      solveLp_returns _ (hret _ _))]; rfl⟩
  solved := by
    rintro w w' ⟨s, hs, ht⟩ h
    have hg : IsGlop T w' := by
      unfold World.solve at h
      rw [hs] at h
      dsimp only at h
      split at h
      · rw [← Outcome.ok.inj h]
        exact ⟨_, rfl, ht⟩
      · cases h
    obtain ⟨h1, -, -, h2⟩ := solve_world h
    rw [hs] at h2
    obtain ⟨h3, h4⟩ := h2
    refine ⟨hg, fun ho => ⟨hg, ?_, ?_⟩⟩
    · rw [h3]; exact hsort _ _
    · rw [h3, h1, hs]
      exact hfit _ _ (h4.1 ho)
  draws w k := ⟨fun h => h, fun h => h⟩

/-- With a feasible point no valid cut that is violated can be without coefficients. -/
theorem goodCuts_of_feasible {e : Engine} {p : Problem} {c : Setup.Created} (hv : CutsValid e p c)
    (hy : ∃ y, p.Feasible y) {lp₀ : LinearProgram} (h₀ : Refines lp₀ p.relaxation) (F : World → Prop) :
    GoodCuts e p c lp₀ F := by
  intro w rs m cuts hs hf _ _ h cut hc
  obtain ⟨_, hdata⟩ := hv.data
  have hval := generated_valid hv.order hv.wellFormed hv.nonneg hv.sides hdata h₀ hs hf (harmless_zero hv.tol w)
    h cut hc
  refine ⟨hval, fun he => ?_⟩
  obtain ⟨y, hy⟩ := hy
  have h1 := hval.2 y hy
  obtain ⟨_, -, h2⟩ := Generator.C31_cuts_off_lp_optimum _ (rowsClean hv.order hs.stored) _ (solverClean hs.sorted)
    _ _ _ h
  have h3 := (h2 cut hc).1
  simp only [SparseVector.eval, evalEntries, he, List.map_nil, List.sum_nil] at h1 h3
  linarith

/-! ### C77 with one round of cuts -/

theorem primalShape_oneRound {e : Engine} {p : Problem} {c : Setup.Created} {lp₀ : LinearProgram}
    (h₀ : Refines lp₀ p.relaxation) {P : Runner World → Prop} {K F : World → Prop} :
    Solver.PrimalShape (guard (cautious (oracle e c) P) (OneRound p lp₀ K F)) p.vars.length := by
  intro r values hv'
  by_cases hr : OneRound p lp₀ K F r
  · have h' : r.world.primal = .ok values := (if_pos hr).symm.trans hv'
    rw [(primal_spec h').1, hr.sound.good.numCols, h₀.numCols]; rfl
  · have h' := (if_neg hr).symm.trans hv'
    cases h'

theorem usesMaxFractional_cautious {e : Engine} {c : Setup.Created} {dir : Setup.Direction}
    (h : c.rule = .maxFractional dir) {Good' P : Runner World → Prop} :
    Solver.UsesMaxFractional (guard (cautious (oracle e c) P) Good') c.data (params c) :=
  usesMaxFractional (e := e) h (Good' := Good')

theorem branch_returns {e : Engine} {c : Setup.Created} {p : Problem} (hd : c.data.Represents p)
    (htol : 0 ≤ c.integralityTolerance) {Good' P : Runner World → Prop}
    (hs : Solver.PrimalShape (guard (cautious (oracle e c) P) Good') c.data.lower.length) (r : Runner World)
    (values : List ℚ) (hv : (guard (cautious (oracle e c) P) Good').primal r = .ok values)
    (hi : c.data.solutionIsIntegral values (params c).tol = .ok false) :
    ∃ r' col up, (guard (cautious (oracle e c) P) Good').branch r = .ok (r', col, up) ∧ 0 ≤ col ∧
      col < c.data.lower.length := by
  have hdk := Solver.dataOk_of_represents hd
  cases hrule : c.rule with
  | maxFractional dir =>
    obtain ⟨col, up, v, h1, h2, -⟩ := Solver.maxFractional_fractional hdk hs
      (usesMaxFractional_cautious (e := e) hrule) htol hv hi
    exact ⟨r, col, up, h1, hdk.ints _ h2⟩
  | random seed dir =>
    have hne : 0 < c.data.integerVariables.length := by
      rcases hi' : c.data.integerVariables with _ | ⟨a, l⟩
      · rw [MipData.solutionIsIntegral, hi'] at hi
        cases hi
      · simp
    by_cases hr : Good' r
    · have : ∃ up, (oracle e c).branch r =
          .ok ({ r with world := { r.world with draws := r.world.draws + 1 } },
            ((e.draw r.world.draws % c.data.integerVariables.length : Nat) : Int), up) :=
        ⟨_, by simp only [oracle, branch, hrule, Branching.random, if_pos hne]; rfl⟩
      obtain ⟨up, hup⟩ := this
      refine ⟨_, _, up, (if_pos hr).trans hup, by omega, ?_⟩
      have h1 := Nat.mod_lt (e.draw r.world.draws) hne
      have h2 : c.data.integerVariables.length ≤ c.data.lower.length := by
        have hsub : c.data.integerVariables ⊆ (List.range c.data.lower.length).map (Int.ofNat) := by
          intro j hj
          have := hdk.ints j hj
          exact List.mem_map.2 ⟨j.toNat, by rw [List.mem_range]; omega, by simp; omega⟩
        simpa using (hd.integersNodup.subperm hsub).length_le
      omega
    · have h' := (if_neg hr).symm.trans hv
      cases h'

theorem responsive_oneRound {e : Engine} {c : Setup.Created} {p : Problem} (hv : CutSetting e p c)
    (htol : 0 ≤ c.integralityTolerance) (hprm : OneRoundParams c) (hd : c.data.Represents p)
    {lp₀ : LinearProgram} (h₀ : Refines lp₀ p.relaxation) {K R F : World → Prop}
    (hK : Steady e p.vars.length K R F) (hE : GoodCuts e p c lp₀ F)
    {sol : Runner World → Outcome (Runner World)} (hsol : ∀ r, ∃ r', sol r = .ok r') :
    Solver.Responsive { guard (cautious (oracle e c) (MaySeparate c.data R)) (OneRound p lp₀ K F) with
      solve := sol } c.data (params c) := by
  have hdk := Solver.dataOk_of_represents hd
  have hlen : p.vars.length = c.data.lower.length := by rw [hd.lower]; simp
  have hs := primalShape_oneRound (e := e) (c := c) h₀ (P := MaySeparate c.data R) (K := K) (F := F)
  rw [hlen] at hs
  constructor
  · intro r j hj l u
    by_cases hr : OneRound p lp₀ K F r
    · have hj' := hdk.ints j hj
      have hc : r.world.lp.program.cols.length = p.vars.length := by
        rw [hr.sound.good.numCols, h₀.numCols]; rfl
      obtain ⟨lp, hlp⟩ := hK.mayBound r.world j l u hr.kind hj'.1 (by rw [hc, hlen]; exact hj'.2)
      have : ∃ r', (oracle e c).setBounds r j l u = .ok r' :=
        ⟨_, by simp only [oracle, hlp, Outcome.bind_ok]; rfl⟩
      exact this.imp fun _ h => (if_pos hr).trans h
    · exact ⟨r, if_neg hr⟩
  · exact hsol
  · intro r ho
    by_cases hr : OneRound p lp₀ K F r
    · have ho' : r.world.lp.isOptimal = true := (if_pos hr).symm.trans ho
      by_cases hm : MaySeparate c.data R r
      · obtain ⟨r', h1, -⟩ := separate_returns hv hprm h₀ hK hE hr hm.1 hm.2 ho'
        exact ⟨r', (if_pos hr).trans ((if_pos hm).trans h1)⟩
      · exact ⟨r, (if_pos hr).trans (if_neg hm)⟩
    · exact ⟨r, if_neg hr⟩
  · intro r ho
    by_cases hr : OneRound p lp₀ K F r
    · have ho' : r.world.lp.isOptimal = true := (if_pos hr).symm.trans ho
      have : ∃ values, (oracle e c).primal r = .ok values := hK.primal _ hr.kind ho'
      exact this.imp fun _ h => (if_pos hr).trans h
    · have h' := (if_neg hr).symm.trans ho
      cases h'
  · intro r values hv' hi
    exact branch_returns hd htol hs r values hv' hi

/-- The start meets the invariant. -/
theorem cutting_start {p : Problem} (hp : p.WellFormed) {c : Setup.Created}
    (h₀ : Refines (start c.lpi).program p.relaxation) :
    Cutting p (start c.lpi).program { world := { lp := start c.lpi } } := by
  refine ⟨⟨Extends.refl _, h₀.stored, ?_, fun _ _ k => List.Pairwise.nil⟩, by simp⟩
  intro y hy r row hr
  have hlt : r < p.relaxation.numRows := by
    rw [← h₀.numRows]; exact (List.getElem?_eq_some_iff.mp hr).1
  have hk : p.constraints[r]? = some p.constraints[r] := List.getElem?_eq_getElem hlt
  obtain ⟨h1, h2⟩ := h₀.rows r row hr
  show Between row.lhs ((start c.lpi).program.activity r y) row.rhs
  rw [h1, h2, h₀.activity hlt, relaxation_activity hp hk]
  simpa [Problem.relaxation, hk] using hy.2 _ (List.mem_of_getElem? hk)

/-- What `Solve` may return. -/
def Returns (out : Option (Outcome (Solver.State (Runner World)))) : Prop :=
  out = none ∨ (∃ s, out = some (.ok s)) ∨ out = some (.error "The problem is infeasible or unbounded")

/-- The loop with one round of cuts, for every LP interface that is always ready to solve. -/
theorem oneRound_returns {e : Engine} (he : e.Feasible) {p : Problem} {c : Setup.Created}
    (hv : CutSetting e p c) (htol : 0 ≤ c.integralityTolerance) (hprm : OneRoundParams c)
    (hd : c.data.Represents p) (h₀ : Refines (start c.lpi).program p.relaxation) {K F : World → Prop}
    (hK : Steady e p.vars.length K (fun _ => True) F) (hE : GoodCuts e p c (start c.lpi).program F)
    (hg : OneRound p (start c.lpi).program K F { world := { lp := start c.lpi } }) (fuel : Nat) :
    Returns (solve e c fuel) := by
  have hlen : p.vars.length = c.data.lower.length := by rw [hd.lower]; simp
  have hshape := primalShape_oneRound (e := e) (c := c) h₀ (P := MaySeparate c.data fun _ => True)
    (K := K) (F := F)
  rw [hlen] at hshape
  have heq : _ = solve e c fuel := (Solver.cautious_runs (prm := params c) (Solver.dataOk_of_represents hd)
    (contract_oneRound hv hprm h₀ hK hE
      (A := fun w => w.lp.isOptimal = true → w.lp.program.Feasible w.report.point)
      (fun w w' _ hw ho => he.solve hw ho))
    (keeps_oneRound hv hprm h₀ hK hE) hshape
    (fun r hr hb ha hopt => ⟨fit_of hv.nonneg hd h₀ hr.sound.good hb (ha hopt), trivial⟩) hg (startsAt hd h₀)).1
    fuel
  cases hout : solve e c fuel with
  | none => exact Or.inl rfl
  | some out =>
    right
    rw [← heq] at hout
    obtain ⟨s, hr, hs'⟩ := Solver.solveFuel_some hout
    have hsolve : ∀ r, ∃ r', (guard (cautious (oracle e c) (MaySeparate c.data fun _ => True))
        (OneRound p (start c.lpi).program K F)).solve r = .ok r' := by
      intro r
      by_cases hr : OneRound p (start c.lpi).program K F r
      · obtain ⟨w', hw⟩ := hK.solve r.world hr.kind trivial
        have : (oracle e c).solve r = .ok { r with world := w' } := by
          simp only [oracle, hw, Outcome.bind_ok]; rfl
        exact ⟨_, (if_pos hr).trans this⟩
      · exact ⟨r, if_neg hr⟩
    have hres := Solver.C38_never_aborts (Solver.dataOk_of_represents hd) hshape
      (responsive_oneRound hv htol hprm hd h₀ hK hE hsolve) hr
    rcases hs' with ⟨s', h1, rfl⟩ | ⟨m, h1, rfl⟩ | ⟨h1, rfl⟩ | ⟨h1, rfl⟩
    · exact Or.inl ⟨_, rfl⟩
    · right
      rcases hres with ⟨r, h2⟩ | h2
      · rw [h1] at h2; cases h2
      · rw [h1] at h2; cases h2; rfl
    · rcases hres with ⟨r, h2⟩ | h2 <;> rw [h1] at h2 <;> cases h2
    · rcases hres with ⟨r, h2⟩ | h2 <;> rw [h1] at h2 <;> cases h2

theorem oneRound_start {p : Problem} (hp : p.WellFormed) {c : Setup.Created}
    (h₀ : Refines (start c.lpi).program p.relaxation) {T : Glop.Settings → Prop} {s : Glop.Settings}
    {g : Glop.Interface} (hl : c.lpi = .glop s g) (hT : T s) (Q : LinearProgram → Report → Prop) :
    OneRound p (start c.lpi).program (IsGlop T) (GlopSolved T Q) { world := { lp := start c.lpi } } := by
  refine ⟨cutting_start hp h₀, ⟨_, by rw [hl]; rfl, hT⟩, le_refl _, fun _ => rfl, fun _ ho => ?_, by simp⟩
  rw [hl] at ho
  cases ho

/-- **C77 with one round of cuts, what holds.**  For every well-formed problem that has a feasible point,
whose integer variables have non-negative lower bounds and whose constraints have integral sides, with Glop,
both branching rules, integrality tolerance 0, and at most one round of cuts: if every call of the simplex
returns, with points within the LP and a basis of the right size when optimal, then no iteration of `Solve`
aborts or runs into undefined behaviour.

Missing for C77: more rounds, since the second may read the integrality of a cut row out of range (C34);
fractional sides (`C77_fractional_side_violated`).  For problems without feasible points, and positive
tolerances, see `C77_one_round_integral_partial`. -/
theorem C77_one_round_partial {e : Engine} (he : e.Feasible) (hret : e.GlopReturns) (hfit : e.GlopFits)
    (ho : e.InOrder) (hsort : e.Sorted) {x : Setup.External} {p : Problem} (hp : p.WellFormed)
    (hn : NonnegativeIntegers p) (hs : IntegralSides p) (hy : ∃ y, p.Feasible y) {user : Setup.ParamsMsg}
    (htol : user.integralityTolerance = some 0) {c : Setup.Created} (h : Setup.create x p user = .ok c)
    (hl : ∃ s g, c.lpi = .glop s g) (hprm : OneRoundParams c) (fuel : Nat) :
    solve e c fuel = none ∨ (∃ s, solve e c fuel = some (.ok s)) ∨
      solve e c fuel = some (.error "The problem is infeasible or unbounded") := by
  obtain ⟨hd, h₀⟩ := created_refines hp h
  obtain ⟨-, hdata, -, -, -, h6, -⟩ := Setup.create_ok h
  rw [htol] at h6
  have hv : CutsValid e p c := ⟨⟨ho, hsort, hp, hn, hs, _, hdata⟩, h6⟩
  obtain ⟨s, g, hl⟩ := hl
  exact oneRound_returns he hv.toCutSetting (by rw [hv.tol]) hprm hd h₀
    (steady_glop hret hsort (fun _ => True) (Q := fun lp r => r.Fits lp.rows.length) (fun _ _ h => h) hfit _)
    (goodCuts_of_feasible hv hy h₀ _) (oneRound_start hp h₀ hl trivial _) fuel

/-! ### C75 with one round of cuts -/

/-- What `Solve` says is right. -/
def RightIn (p : Problem) (out : Option (Outcome (Solver.State (Runner World)))) : Prop :=
  (∀ s, out = some (.ok s) → ∀ y, p.Feasible y →
    s.result.best ≠ {} ∧
    if p.isMaximization then p.userObjective y ≤ p.userObjective (point s.result.best.values)
    else p.userObjective (point s.result.best.values) ≤ p.userObjective y) ∧
  ∀ m, out = some (.error m) → ∀ y, ¬ p.Feasible y

/-- The answers of a run with one round of cuts are right, for every LP interface. -/
theorem oneRound_right {e : Engine} (he : e.Right) {p : Problem} (hB : Bounded p) {c : Setup.Created}
    (hv : CutSetting e p c) (hprm : OneRoundParams c) (hd : c.data.Represents p)
    (h₀ : Refines (start c.lpi).program p.relaxation) {K R F : World → Prop}
    (hK : Steady e p.vars.length K R F) (hE : GoodCuts e p c (start c.lpi).program F)
    (hRf : ∀ w, K w → w.lp.program.Feasible w.report.point → R w)
    (hg : OneRound p (start c.lpi).program K F { world := { lp := start c.lpi } }) (fuel : Nat) :
    RightIn p (solve e c fuel) := by
  have hp := hv.wellFormed
  have hlen : p.vars.length = c.data.lower.length := by rw [hd.lower]; simp
  have hshape := primalShape_oneRound (e := e) (c := c) h₀ (P := MaySeparate c.data R) (K := K) (F := F)
  have hcon : Contract (guard (cautious (oracle e c) (MaySeparate c.data R)) (OneRound p (start c.lpi).program K F))
      (OneRound p (start c.lpi).program K F) bounds
      (OptimalAnswer (guard (cautious (oracle e c) (MaySeparate c.data R))
        (OneRound p (start c.lpi).program K F)) c.data bounds) := by
    refine contract_congr (contract_oneRound hv hprm h₀ hK hE
      (A := fun w => OptimalAnswer (oracle e c) c.data bounds { world := w })
      (optimalAnswer_of he hp hB hd h₀)).guard ?_
    intro r hr
    have h1 : (guard (cautious (oracle e c) (MaySeparate c.data R))
        (OneRound p (start c.lpi).program K F)).isOptimal r = r.world.lp.isOptimal := if_pos hr
    have h2 : (guard (cautious (oracle e c) (MaySeparate c.data R))
        (OneRound p (start c.lpi).program K F)).primal r = r.world.primal := if_pos hr
    unfold OptimalAnswer
    rw [h1, h2]
    exact Iff.rfl
  have hrun := (Solver.cautious_runs (prm := params c) (Solver.dataOk_of_represents hd)
    (contract_oneRound hv hprm h₀ hK hE
      (A := fun w => w.lp.isOptimal = true → w.lp.program.Feasible w.report.point)
      (fun w w' _ hw ho => he.feasible.solve hw ho))
    (keeps_oneRound hv hprm h₀ hK hE) (by rw [← hlen]; exact hshape)
    (fun r hr hb ha hopt => ⟨fit_of hv.nonneg hd h₀ hr.sound.good hb (ha hopt), hRf _ hr.kind (ha hopt)⟩) hg
    (startsAt hd h₀)).1 fuel
  have := Solver.C36_optimal_partial (prm := params c) hd hshape hcon hg (startsAt hd h₀) (fuel := fuel)
  rwa [hrun] at this

/-- The parts of total correctness. -/
theorem solves_of_parts {e : Engine} (he : e.Feasible) {x : Setup.External} {p : Problem} (hp : p.WellFormed)
    {user : Setup.ParamsMsg} {c : Setup.Created} (hc : Setup.create x p user = .ok c) {N : Nat}
    (hne : solve e c N ≠ none) (h : Returns (solve e c N)) (hr : RightIn p (solve e c N)) :
    Solves p (user.integralityTolerance.getD (1 / 10 ^ 6)) (solve e c N) := by
  rcases h with h | ⟨s, h⟩ | h
  · exact absurd h hne
  · right
    exact ⟨s, h, fun hb => ((C74_solutions_feasible he hp hc).2 N s h).1.resolve_left hb, hr.1 s h⟩
  · exact Or.inl ⟨h, hr.2 _ h⟩

/-! ### C83 -/

/-- The user asks for at most one round of cuts, with non-negative limits of the generators. -/
structure AsksOneRound (user : Setup.ParamsMsg) : Prop where
  rounds : ∃ k ≤ 1, user.runner.bind (·.maxIterations) = some k
  limits : ∀ m ∈ (user.cutRunner.map (·.generators)).getD [], 0 ≤ m.maxNumCuts.getD 100

theorem oneRoundParams {x : Setup.External} {p : Problem} (hp : p.WellFormed) {user : Setup.ParamsMsg}
    {c : Setup.Created} (h : Setup.create x p user = .ok c) (hu : AsksOneRound user) : OneRoundParams c := by
  obtain ⟨k, hk, hi⟩ := hu.rounds
  obtain ⟨-, -, -, hmi, -⟩ := Setup.C58_user_wins_partial x p hp user c h
  obtain ⟨-, -, -, hr, -⟩ := Setup.create_ok h
  refine ⟨by rw [hmi.1 k hi]; exact hk, fun g hg => ?_⟩
  rw [hr] at hg
  rcases List.mem_cons.1 hg with rfl | hg
  · norm_num
  · have hl := hu.limits
    generalize (user.cutRunner.map (·.generators)).getD [] = l at hg hl
    induction l with
    | nil => cases hg
    | cons m l ih =>
      have hm := hl m (by simp)
      unfold Setup.createGenerators at hg
      cases ht : m.tableau with
      | none =>
        simp only [Setup.createGenerator, ht] at hg
        exact ih hg fun m' h' => hl m' (by simp [h'])
      | some t =>
        simp only [Setup.createGenerator, ht] at hg
        rcases List.mem_cons.1 hg with rfl | hg
        · exact hm
        · exact ih hg fun m' h' => hl m' (by simp [h'])

/-- **C83.**  For every well-formed problem that has a feasible point, whose integer variables have finite
bounds that are not negative, whose constraints have integral sides, and whose objective is bounded on the
relaxation: with at most one round of cuts, no random
branching, integrality tolerance 0 and valid LP parameters for Glop, `Create` succeeds, and whatever LP code
that answers rightly (with a basis of the right size) it runs on, `Solve` has returned after at most
`iterationBound p` iterations, with a right outcome. -/
theorem C83_one_round_total_correctness_partial (p : Problem) (hp : p.WellFormed) (hf : FiniteIntegers p)
    (hB : Bounded p) (hn : NonnegativeIntegers p) (hs : IntegralSides p) (hy : ∃ y, p.Feasible y) :
    ∀ (x : Setup.External) (user : Setup.ParamsMsg) (lp : LpParameters),
      Setup.LpWins user.lp lp → Setup.GlopTakes lp → AsksOneRound user →
      (∀ s, user.branching.bind (·.rule) ≠ some (.random s)) → user.integralityTolerance = some 0 →
      ∃ c, Setup.create x p user = .ok c ∧ ∀ e : Engine, e.Right → e.GlopReturns → e.GlopFits → e.InOrder →
        e.Sorted → Solves p 0 (solve e c (iterationBound p)) := by
  have hN := C76_ends_partial p hp hf
  intro x user lp hlp ht hu hr htol
  obtain ⟨c, hc⟩ := (Setup.C73_glop_partial x p hp user lp hlp ht.solver).1 ht
  have hrule : ∃ dir, c.rule = .maxFractional dir := by
    obtain ⟨-, -, -, -, -, -, -, ⟨dir, -, -, hrule⟩, -⟩ := Setup.C58_user_wins_partial x p hp user c hc
    refine ⟨dir, hrule ?_⟩
    rcases hb : user.branching.bind (·.rule) with _ | r
    · exact Or.inr rfl
    · cases r with
      | random s => exact absurd hb (hr s)
      | maxFractional => exact Or.inl rfl
  obtain ⟨dir, hrule⟩ := hrule
  refine ⟨c, hc, fun e he hret hfit ho hsort => ?_⟩
  have := solves_of_parts he.feasible hp hc
    (hN e x user c dir he.feasible hc hrule (by rw [htol]; exact le_refl _))
    (C77_one_round_partial he.feasible hret hfit ho hsort hp hn hs hy htol hc
      (created_glop hc (by rw [← hlp.eq]; exact ht.solver)) (oneRoundParams hp hc hu) _)
    (C75_with_cuts_partial he ho hsort hp hB hn hs htol hc _)
  rwa [htol] at this

/-- LP code that keeps a basis of the LP fits. -/
theorem Engine.GlopBasic.fits {e : Engine} (h : e.GlopBasic) : e.GlopFits := by
  intro n s ho
  have hb := h n s ho
  exact ⟨by simpa using hb.basic.length, hb.shape⟩

/-- At most one round of cuts, and integrality tolerance 0. -/
def oneRoundUser : Setup.ParamsMsg where
  integralityTolerance := some 0
  cutRunner := some { defaultRunner := some { maxIterations := some 1 } }

/-- The hypotheses of C77 with one round of cuts and of C83 are met together. -/
example : (perfect.Right ∧ perfect.Feasible ∧ perfect.GlopReturns ∧ perfect.GlopFits ∧ perfect.InOrder ∧
      perfect.Sorted) ∧
    (exProblem.WellFormed ∧ FiniteIntegers exProblem ∧ Bounded exProblem ∧ NonnegativeIntegers exProblem ∧
      IntegralSides exProblem ∧ ∃ y, exProblem.Feasible y) ∧
    AsksOneRound oneRoundUser ∧ (∀ s, oneRoundUser.branching.bind (·.rule) ≠ some (.random s)) ∧
    (∃ lp, Setup.LpWins oneRoundUser.lp lp ∧ Setup.GlopTakes lp) ∧
    ∀ x, ∃ c, Setup.create x exProblem oneRoundUser = .ok c ∧ (∃ s g, c.lpi = .glop s g) ∧ OneRoundParams c := by
  obtain ⟨h1, h2, h3, h4⟩ := exProblem_spec
  have hask : AsksOneRound oneRoundUser := ⟨⟨1, le_refl _, rfl⟩, by simp [oneRoundUser]⟩
  have htakes : Setup.GlopTakes (oneRoundUser.lp.getD {}).read := by
    refine ⟨⟨?_, ?_, ?_, ?_, ?_, ?_, ?_, ?_⟩, rfl, ?_, ?_, rfl, rfl⟩ <;>
      simp [oneRoundUser, Setup.LpMsg.read, ToleranceOk]
  refine ⟨⟨perfect_spec.1, perfect_spec.1.feasible, perfect_spec.2, perfect_basic.1.fits, fun _ _ => rfl,
    fun _ _ _ => List.Pairwise.nil⟩, ⟨h1, h2, h3, ?_, ?_, h4⟩, hask, by simp [oneRoundUser],
    ⟨_, Setup.lpWins _, htakes⟩, fun x => ?_⟩
  · intro v hv hi
    simp [exProblem] at hv
    rcases hv with rfl | rfl <;> norm_num [Dbl.le]
  · intro k hk q hq
    simp [exProblem] at hk
    subst hk
    simp at hq
    exact ⟨7, by rw [← hq]; norm_num⟩
  · obtain ⟨c, hc⟩ := (Setup.C73_glop_partial x exProblem h1 oneRoundUser _ (Setup.lpWins _) rfl).1 htakes
    exact ⟨c, hc, created_glop hc rfl, oneRoundParams h1 hc hask⟩

end Program
end MiniMip
