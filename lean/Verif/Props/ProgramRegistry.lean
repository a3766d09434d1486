import Verif.Lemmas.SolverFilter
import Verif.Props.DefaultRunner
import Verif.Props.ProgramApproxCuts
import Verif.Props.IeeeProgramFeasible
import Verif.Props.IeeeCutOff
import Verif.Props.ProgramCutoff
import Verif.Props.ProgramRoot

/-!
# C96: a wrong optimum leaves a wrong cut in the registry

Whatever the cut generators and the selector do: no feasible point that satisfies all cuts in the registry when `Solve`
returns is better than the solution returned.
-/

namespace MiniMip

namespace Runner

variable {W : Type}

/-- What separation keeps if the cuts in the registry afterwards are in `V`. -/
theorem separateFuel_registered {p : RunnerParams} {pl : Plugins W} (hp : ReadsOnly pl) {I A : W → Prop}
    {V : CutData → Prop}
    (hadd : ∀ w c w', I w → V c →
      pl.addRow w { row := c.row, lhs := pl.infinity.neg, rhs := .fin c.rhs, name := c.name } = .ok w' → I w')
    (hsolve : ∀ w w', I w → pl.solve w = .ok w' → I w' ∧ A w') (n : Nat) :
    ∀ (r r' : Runner W), separateFuel p pl n r = some (.ok r') → I r.world →
      (∀ c ∈ r'.registry.cuts, V c) → A r.world → I r'.world ∧ A r'.world := by
  induction n with
  | zero => intro r r' h; cases h
  | succ n ih =>
    intro r r' h hi hv ha
    unfold separateFuel at h
    split at h
    · cases hr : round pl r with
      | ok x =>
        obtain ⟨r1, b⟩ := x
        rw [hr] at h
        unfold round at hr
        simp only [Outcome.bind_eq_ok] at hr
        obtain ⟨⟨r2, is⟩, hg, hr⟩ := hr
        have hw := generate_world hp pl.generators (fun _ h => h) _ _ _ hg
        dsimp only at hr
        split at hr
        · cases hr
          cases h
          rw [hw]; exact ⟨hi, ha⟩
        · simp only [Outcome.bind_eq_ok] at hr
          obtain ⟨r3, h3, w, h4, h5⟩ := hr
          cases h5
          have hreg : r3.registry = r2.registry :=
            (addRows_cuts (I := fun _ => True) (V := fun _ => True) (fun _ _ _ _ _ _ => trivial) is _ _ h3 trivial
              (fun _ _ => trivial)).2
          obtain ⟨new, hnew, -⟩ := C25_one_call _ _ _ _ _ h
          have hc : ∀ c ∈ r2.registry.cuts, V c := by
            intro c hc
            refine hv c ?_
            rw [hnew]
            simp only [hreg]
            exact List.mem_append_left _ hc
          obtain ⟨g1, -⟩ := addRows_cuts hadd is _ _ h3 (by rw [hw]; exact hi) hc
          have := hsolve _ _ g1 h4
          exact ih _ _ h this.1 hv this.2
      | _ => rw [hr] at h; cases h
    · cases h; exact ⟨hi, ha⟩

end Runner

namespace Program

open Glop (LinearProgram Refines Extends Stored)
open Solver (Oracle Contract guard filtered Lasts point InBounds ApproximateAt)

/-! ### Any generators and any selector -/

/-- `plugins` with other cut generators and another selector (cut_generator_interface.h, cut_selector_interface.h). -/
noncomputable def customPlugins (e : Engine) (c : Setup.Created)
    (generators : List (World → CutRegistry → Outcome (World × List CutData)))
    (select : World → CutRegistry → List CutData → Outcome (World × List CutData)) : Plugins World :=
  { plugins e c with generators := generators, select := select }

/-- `SeparateCurrentLPSolution` (default_runner.cc:74-117), as `separate`. -/
noncomputable def customSeparate (e : Engine) (c : Setup.Created)
    (generators : List (World → CutRegistry → Outcome (World × List CutData)))
    (select : World → CutRegistry → List CutData → Outcome (World × List CutData)) (r : Runner World) :
    Outcome (Runner World) :=
  match Runner.separateFuel c.runner.params (customPlugins e c generators select)
      ((c.runner.params.maxIterations - r.numCutrounds).toNat + 1) r with
  | some x => x
  | none => .ub

/-- `oracle` with other cut generators and another selector. -/
noncomputable def customOracle (e : Engine) (c : Setup.Created)
    (generators : List (World → CutRegistry → Outcome (World × List CutData)))
    (select : World → CutRegistry → List CutData → Outcome (World × List CutData)) : Oracle (Runner World) :=
  { oracle e c with separate := customSeparate e c generators select }

/-- `Solve` (solver.cc:28-155) on a solver just created, with other cut generators and another selector. -/
noncomputable def customSolve (e : Engine) (c : Setup.Created)
    (generators : List (World → CutRegistry → Outcome (World × List CutData)))
    (select : World → CutRegistry → List CutData → Outcome (World × List CutData)) (fuel : Nat) :
    Option (Outcome (Solver.State (Runner World))) :=
  Solver.solveFuel (customOracle e c generators select) c.data (params c) fuel
    (Solver.initial { world := { lp := start c.lpi } })

theorem solve_custom (e : Engine) (c : Setup.Created) (fuel : Nat) :
    solve e c fuel = customSolve e c (plugins e c).generators (plugins e c).select fuel := rfl

theorem floatRun_custom (e : Engine) (c : Setup.Created) (fuel : Nat) :
    floatRun e c fuel = customSolve e c (floatPlugins e c).generators (floatPlugins e c).select fuel := rfl

/-! ### One point -/

/-- The cut is stored clean and satisfied by the point. -/
def SatisfiedBy (y : Int → ℚ) (cut : CutData) : Prop := SparseVector.Clean cut.row.entries ∧ cut.row.eval y ≤ cut.rhs

/-- The LP extends the first one, and `y` satisfies its rows. -/
structure SoundAt (lp₀ : LinearProgram) (y : Int → ℚ) (w : World) : Prop where
  good : Extends lp₀ w.lp.program
  stored : Stored w.lp.program
  valid : ∀ (r : Nat) (row : Glop.Row), w.lp.program.rows[r]? = some row →
    Between row.lhs (w.lp.program.activity r y) row.rhs

theorem SoundAt.setBounds {lp₀ : LinearProgram} {y : Int → ℚ} {w : World} (h : SoundAt lp₀ y w) {l : Lp}
    {j : Int} {lower upper : Dbl} (hs : w.lp.setColumnBounds j lower upper = .ok l) :
    SoundAt lp₀ y { w with lp := l } := by
  obtain ⟨-, -, h1⟩ := setColumnBounds_program hs
  refine ⟨?_, ?_, ?_⟩
  · show Extends lp₀ l.program
    rw [h1]; exact h.good.withBounds _ _ _
  · show Stored l.program
    rw [h1]; exact h.stored.withBounds _ _ _
  · show ∀ (r : Nat) (row : Glop.Row), l.program.rows[r]? = some row → Between row.lhs (l.program.activity r y) row.rhs
    rw [h1]
    intro r row hr
    have := ((Extends.refl w.lp.program).withBounds j.toNat lower upper).activity
      (r := r) (List.getElem?_eq_some_iff.1 hr).1 y
    rw [this]
    exact h.valid r row hr

theorem SoundAt.addRow {lp₀ : LinearProgram} {y : Int → ℚ} {w : World} (h : SoundAt lp₀ y w) {l : Lp}
    {cut : CutData} (hc : SatisfiedBy y cut)
    (hs : w.lp.addRow { row := cut.row, lhs := .ninf, rhs := .fin cut.rhs, name := cut.name } = .ok l) :
    SoundAt lp₀ y { w with lp := l } ∧
      ∀ c : Nat, (l.program.cols[c]?.map fun x => (x.lower, x.upper)) =
        w.lp.program.cols[c]?.map fun x => (x.lower, x.upper) := by
  obtain ⟨name, h1⟩ := addRow_program hs
  obtain ⟨h2, -, h3⟩ := h.good.addRow _ _ h1
  obtain ⟨h4, h5, h6, h7⟩ := h.stored.addRow _ hc.1 h1
  refine ⟨⟨h2, h4, ?_⟩, h3⟩
  intro r row hr
  simp only [] at hr ⊢
  rw [h5] at hr
  rcases Nat.lt_trichotomy r w.lp.program.rows.length with hlt | rfl | hgt
  · rw [List.getElem?_append_left hlt] at hr
    rw [h6 r hlt]
    exact h.valid r row hr
  · rw [List.getElem?_append_right le_rfl] at hr
    simp only [Nat.sub_self, List.getElem?_cons_zero, Option.some.injEq] at hr
    subst hr
    rw [h7]
    exact ⟨rfl, (Dbl.le_fin _ _).2 hc.2⟩
  · rw [List.getElem?_append_right hgt.le, List.getElem?_eq_none (by simp; omega)] at hr
    cases hr

theorem SoundAt.congr {lp₀ : LinearProgram} {y : Int → ℚ} {w w' : World} (h : SoundAt lp₀ y w)
    (hp : w'.lp.program = w.lp.program) : SoundAt lp₀ y w' :=
  ⟨by rw [hp]; exact h.good, by rw [hp]; exact h.stored, by rw [hp]; exact h.valid⟩

/-- What an answer that is right up to tolerances means for a point that satisfies the rows of the LP. -/
theorem approximateAt_of {e : Engine} {eps delta : ℚ} (he : e.Approximate eps delta) {p : Problem}
    (hp : p.WellFormed) (hB : Bounded p) {c : Setup.Created} (hd : c.data.Represents p) {lp₀ : LinearProgram}
    (h₀ : Refines lp₀ p.relaxation) {y : Int → ℚ} (w w' : World) (hw : SoundAt lp₀ y w)
    (hs : w.solve e = .ok w') : ApproximateAt (oracle e c) c.data bounds delta y { world := w' } := by
  have hpr := (solve_world hs).1
  have hgood : Extends lp₀ w'.lp.program := by rw [hpr]; exact hw.good
  have hvalid := hw.valid
  rw [← hpr] at hvalid
  have hlen : w'.lp.program.cols.length = c.data.lower.length := by
    rw [hgood.numCols, h₀.numCols, hd.lower, List.length_map]; rfl
  have hval : ∀ y, w'.lp.program.value y = c.data.objective.eval y := by
    intro y
    rw [hgood.value, h₀.value, (relaxation_points p hp y).2]
    have := hd.objective y
    have ho := hd.offset
    split <;> rename_i hm <;> simp only [hm, if_true, if_false, Bool.false_eq_true] at this ho <;> linarith
  have hin : InBounds c.data bounds { world := w' } y → w'.lp.program.Feasible y := by
    intro hb
    refine ⟨fun n col hcol => ?_, hvalid⟩
    have hlt := (List.getElem?_eq_some_iff.mp hcol).1
    have := hb n (by rw [← hlen]; exact hlt)
    rw [bounds_nat] at this
    simp only [hcol] at this
    exact this
  have hsense : w'.lp.program.maximize = false := by
    rw [hgood.sense, h₀.sense]; rfl
  have hra := he.solve hs
  constructor
  · intro ho values hv
    obtain ⟨-, z, h2, h3, h5⟩ := hra.1 ho
    obtain ⟨-, h4, -⟩ := w'.lp.program.congr (primal_spec hv).2
    rw [← h4, hval] at h3
    refine ⟨z, h2, h3, fun hyb => ?_⟩
    have := h5 y (hin hyb)
    rw [hsense, if_neg (by simp), hval] at this
    exact this
  · intro ho hsub hyb
    have ho' : ¬ w'.lp.isOptimal = true := by rw [Bool.not_eq_true]; exact ho
    rcases hra.2 ho' with h1 | h1
    · exact h1 y (hin hyb)
    · have hrel : ∀ z, w'.lp.program.Feasible z → p.RelaxedFeasible z := by
        intro z hz
        have hzb : InBounds c.data bounds { world := w' } z := inBounds_of hlen hz.1
        have hzr := hsub z hzb
        refine ⟨fun n v hv => hzr n v.lower v.upper (by rw [hd.lower]; simp [hv])
          (by rw [hd.upper]; simp [hv]), fun k hk => ?_⟩
        obtain ⟨i, hi⟩ := List.getElem?_of_mem hk
        have hlt : i < p.relaxation.numRows := (List.getElem?_eq_some_iff.mp hi).1
        have hlt' : i < lp₀.rows.length := by rw [h₀.numRows]; exact hlt
        have h3 := h₀.rows i _ (List.getElem?_eq_getElem hlt')
        have h4 := hgood.holds hz (List.getElem?_eq_getElem hlt')
        rw [h3.1, h3.2, h₀.activity hlt, relaxation_activity hp hi] at h4
        simpa [Problem.relaxation, hi] using h4
      obtain ⟨B, hB⟩ := hB
      cases hm : p.isMaximization with
      | false =>
        obtain ⟨z, hz, hlt⟩ := h1 (B - p.offset)
        have hb := hB z (hrel z hz)
        rw [hsense, hgood.value, h₀.value, (relaxation_points p hp z).2] at hlt
        simp only [hm, Bool.false_eq_true, if_false] at hb hlt
        linarith
      | true =>
        obtain ⟨z, hz, hlt⟩ := h1 (-(B - p.offset))
        have hb := hB z (hrel z hz)
        rw [hsense, hgood.value, h₀.value, (relaxation_points p hp z).2] at hlt
        simp only [hm, Bool.false_eq_true, if_false, if_true] at hb hlt
        linarith

variable {generators : List (World → CutRegistry → Outcome (World × List CutData))}
  {select : World → CutRegistry → List CutData → Outcome (World × List CutData)}

/-- All cuts in the registry are stored clean and satisfied by `y`. -/
def RegistryAt (y : Int → ℚ) (r : Runner World) : Prop := ∀ cut ∈ r.registry.cuts, SatisfiedBy y cut

theorem custom_separate_registry {e : Engine} {c : Setup.Created} {r r' : Runner World}
    (h : (customOracle e c generators select).separate r = .ok r') :
    ∃ new, r'.registry.cuts = r.registry.cuts ++ new := by
  simp only [customOracle, customSeparate] at h
  split at h
  · rename_i x hx
    rw [h] at hx
    obtain ⟨new, h1, -⟩ := Runner.C25_one_call _ _ _ _ _ hx
    exact ⟨new, h1⟩
  · cases h

theorem custom_lasts (e : Engine) (c : Setup.Created) (y : Int → ℚ) :
    Lasts (customOracle e c generators select) (RegistryAt y) where
  setBounds r j l u r' h hM := by
    have h : (oracle e c).setBounds r j l u = .ok r' := h
    obtain ⟨-, -, -, -, h3⟩ := setBounds_spec h
    unfold RegistryAt at hM ⊢
    rw [h3] at hM; exact hM
  solve r r' h hM := by
    have h : (oracle e c).solve r = .ok r' := h
    obtain ⟨-, -, -, h3⟩ := solve_spec h
    unfold RegistryAt at hM ⊢
    rw [h3] at hM; exact hM
  separate r r' h hM := by
    obtain ⟨new, hn⟩ := custom_separate_registry h
    intro cut hc
    exact hM cut (by rw [hn]; exact List.mem_append_left _ hc)
  branch r r' col up h hM := by
    have h : (oracle e c).branch r = .ok (r', col, up) := h
    obtain ⟨-, h3⟩ := branch_spec h
    unfold RegistryAt at hM ⊢
    rw [h3] at hM; exact hM

theorem custom_separate_spec {e : Engine} {c : Setup.Created}
    (hro : Runner.ReadsOnly (customPlugins e c generators select)) {lp₀ : LinearProgram} {y : Int → ℚ}
    {A : World → Prop} (hA : ∀ w w' : World, SoundAt lp₀ y w → w.solve e = .ok w' → A w')
    {r r' : Runner World} (h : (customOracle e c generators select).separate r = .ok r')
    (hr : SoundAt lp₀ y r.world) (hM : RegistryAt y r') :
    SoundAt lp₀ y r'.world ∧ bounds r' = bounds r ∧ (A r.world → A r'.world) := by
  have key : ∀ A : World → Prop,
      (∀ w w' : World, SoundAt lp₀ y w → w.solve e = .ok w' → A w') → A r.world →
      (SoundAt lp₀ y r'.world ∧ bounds r' = bounds r) ∧ A r'.world := by
    intro A hA ha
    simp only [customOracle, customSeparate] at h
    split at h
    · rename_i x hx
      rw [h] at hx
      refine Runner.separateFuel_registered hro
        (I := fun w => SoundAt lp₀ y w ∧ bounds { r' with world := w } = bounds r) (A := A) (V := SatisfiedBy y)
        ?_ ?_ _ r r' hx ⟨hr, rfl⟩ hM ha
      · rintro w cut w' ⟨h1, h3⟩ hcut hw
        simp only [customPlugins, plugins, Outcome.bind_eq_ok] at hw
        obtain ⟨l, hl, hw⟩ := hw
        cases hw
        rw [readLhs_neg] at hl
        obtain ⟨g1, g2⟩ := h1.addRow hcut hl
        exact ⟨g1, (bounds_congr g2).trans h3⟩
      · rintro w w' ⟨h1, h3⟩ hw
        have hw' : w.solve e = .ok w' := hw
        have hp := (solve_world hw').1
        refine ⟨⟨h1.congr hp, (bounds_congr fun c => ?_).trans h3⟩, hA w w' h1 hw'⟩
        show w'.lp.program.cols[c]?.map _ = w.lp.program.cols[c]?.map _
        rw [hp]
    · cases h
  exact ⟨(key (fun _ => True) (fun _ _ _ _ => trivial) trivial).1.1,
    (key (fun _ => True) (fun _ _ _ _ => trivial) trivial).1.2, fun ha => (key A hA ha).2⟩

theorem custom_contract {e : Engine} {c : Setup.Created}
    (hro : Runner.ReadsOnly (customPlugins e c generators select)) {lp₀ : LinearProgram} {y : Int → ℚ}
    {A : World → Prop} (hA : ∀ w w' : World, SoundAt lp₀ y w → w.solve e = .ok w' → A w') :
    Contract (filtered (customOracle e c generators select) (RegistryAt y)) (fun r => SoundAt lp₀ y r.world) bounds
      fun r => A r.world := by
  constructor
  · intro r j l u r' hg h
    have h : (oracle e c).setBounds r j l u = .ok r' := h
    obtain ⟨-, -, -, h2, -⟩ := setBounds_spec h
    refine ⟨?_, h2⟩
    simp only [oracle, Outcome.bind_eq_ok] at h
    obtain ⟨lp, h1, h4⟩ := h
    cases h4
    exact hg.setBounds h1
  · intro r r' hg h
    have h : (oracle e c).solve r = .ok r' := h
    obtain ⟨h1, h2, h3, h4⟩ := solve_spec h
    exact ⟨hg.congr h2, h3, hA _ _ hg h1⟩
  · intro r r' hg ha _ h
    obtain ⟨h1, h2⟩ := Solver.filtered_separate h
    obtain ⟨g1, g2, g3⟩ := custom_separate_spec hro hA h1 hg h2
    exact ⟨g1, g2, g3 ha⟩
  · intro r r' col up hg h
    have h : (oracle e c).branch r = .ok (r', col, up) := h
    obtain ⟨h1, h2⟩ := branch_spec h
    exact ⟨hg.congr (by rw [h1]), bounds_congr fun c => by rw [h1]⟩

/-- What C96 and C108 have in common: the answers of the LP code are right as far as the point `y` is concerned. -/
theorem registry_accounts_of {e : Engine} {delta : ℚ} {x : Setup.External}
    {p : Problem} (hp : p.WellFormed) {user : Setup.ParamsMsg} {c : Setup.Created}
    (h : Setup.create x p user = .ok c)
    (hgen : ∀ g ∈ generators, ∀ w reg w' cuts, g w reg = .ok (w', cuts) → w' = w)
    (hsel : ∀ w reg l w' cuts, select w reg l = .ok (w', cuts) → w' = w)
    {y : Int → ℚ} (hA : ∀ w w', SoundAt (start c.lpi).program y w → w.solve e = .ok w' →
      ApproximateAt (oracle e c) c.data bounds delta y { world := w' })
    {fuel : Nat} {s : Solver.State (Runner World)} (hs : customSolve e c generators select fuel = some (.ok s))
    (hy : p.Feasible y)
    (hcuts : ∀ cut ∈ s.world.registry.cuts, SparseVector.Clean cut.row.entries ∧ cut.row.eval y ≤ cut.rhs) :
    s.result.best ≠ {} ∧
      if p.isMaximization then p.userObjective y ≤ p.userObjective (point s.result.best.values) + 2 * delta
      else p.userObjective (point s.result.best.values) ≤ p.userObjective y + 2 * delta := by
  obtain ⟨hd, h₀⟩ := created_refines hp h
  have hro : Runner.ReadsOnly (customPlugins e c generators select) := ⟨hgen, hsel⟩
  have hstart : SoundAt (start c.lpi).program y { lp := start c.lpi } := by
    refine ⟨Extends.refl _, h₀.stored, ?_⟩
    intro r row hr
    have hlt : r < p.relaxation.numRows := by
      rw [← h₀.numRows]; exact (List.getElem?_eq_some_iff.mp hr).1
    have hk : p.constraints[r]? = some p.constraints[r] := List.getElem?_eq_getElem hlt
    obtain ⟨h1, h2⟩ := h₀.rows r row hr
    show Between row.lhs ((start c.lpi).program.activity r y) row.rhs
    rw [h1, h2, h₀.activity hlt, relaxation_activity hp hk]
    simpa [Problem.relaxation, hk] using hy.2 _ (List.mem_of_getElem? hk)
  set o := filtered (customOracle e c generators select) (RegistryAt y) with ho
  set G := fun r : Runner World => SoundAt (start c.lpi).program y r.world with hG
  have hshape : Solver.PrimalShape (guard o G) p.vars.length := by
    intro r values hv'
    by_cases hr : G r
    · have h' : r.world.primal = .ok values := (if_pos hr).symm.trans hv'
      rw [(primal_spec h').1, hr.good.numCols, h₀.numCols]; rfl
    · have h' := (if_neg hr).symm.trans hv'
      cases h'
  have hc₀ := custom_contract hro (A := fun w => ApproximateAt (oracle e c) c.data bounds delta y { world := w })
    hA
  have hcon : Contract (guard o G) G bounds (ApproximateAt (guard o G) c.data bounds delta y) := by
    refine contract_congr hc₀.guard ?_
    intro r hr
    have h1 : (guard o G).isOptimal r = r.world.lp.isOptimal := if_pos hr
    have h2 : (guard o G).primal r = r.world.primal := if_pos hr
    unfold ApproximateAt
    rw [h1, h2]
    exact Iff.rfl
  have hkeep : Solver.Keeps o c.data G := hc₀.keeps fun r r' hr _ h => by
    obtain ⟨h1, h2⟩ := Solver.filtered_separate h
    exact (custom_separate_spec hro (A := fun _ => True) (fun _ _ _ _ => trivial) h1 hr h2).1
  obtain ⟨hrun, -⟩ := Solver.filtered_solveFuel (custom_lasts e c y) (params c) fuel hs hcuts
  rw [← ho, ← Solver.guard_solveFuel hkeep (params c) fuel (by exact hstart)] at hrun
  exact Solver.approximate_at hd hshape hcon (by exact hstart) (startsAt hd h₀) hrun hy

/-- **C96.**  For every well-formed problem, all parameters that `Create` takes, both LP interfaces, whatever cut generators and cut selector that only read the LP: if the LP code answers rightly up to
tolerances and `Solve` returns OK, then every feasible point of the user's problem that satisfies all the cuts in the
registry is at most `2 * delta` better than the best solution, and there is one.  So the registry accounts for all
that a run loses: if a better solution exists, it violates a cut that is still there to be looked at. -/
theorem C96_registry_accounts {e : Engine} {eps delta : ℚ} (he : e.Approximate eps delta) {x : Setup.External}
    {p : Problem} (hp : p.WellFormed) {user : Setup.ParamsMsg} {c : Setup.Created}
    (h : Setup.create x p user = .ok c)
    (hgen : ∀ g ∈ generators, ∀ w reg w' cuts, g w reg = .ok (w', cuts) → w' = w)
    (hsel : ∀ w reg l w' cuts, select w reg l = .ok (w', cuts) → w' = w)
    {fuel : Nat} {s : Solver.State (Runner World)} (hs : customSolve e c generators select fuel = some (.ok s))
    {y : Int → ℚ} (hy : p.Feasible y)
    (hcuts : ∀ cut ∈ s.world.registry.cuts, SparseVector.Clean cut.row.entries ∧ cut.row.eval y ≤ cut.rhs) :
    s.result.best ≠ {} ∧
      if p.isMaximization then p.userObjective y ≤ p.userObjective (point s.result.best.values) + 2 * delta
      else p.userObjective (point s.result.best.values) ≤ p.userObjective y + 2 * delta := by
  obtain ⟨hd, h₀⟩ := created_refines hp h
  exact registry_accounts_of hp h hgen hsel 
    (approximateAt_of he hp (bounded_of_separating he.seesUnbounded hp h hs) hd h₀) hs hy hcuts

/-! ### The rows of the cuts are clean -/

/-- A run keeps what its calls keep. -/
theorem keeps_solveFuel {W : Type} {o : Oracle W} {d : MipData} {G : W → Prop} (h : Solver.Keeps o d G) (prm : Solver.Params)
    (fuel : Nat) : ∀ {s s' : Solver.State W}, Solver.solveFuel o d prm fuel s = some (.ok s') → G s.world → G s'.world := by
  induction fuel with
  | zero => intro s s' h; cases h
  | succ n ih =>
    intro s s' hs hg
    obtain ⟨-, h1, h2⟩ := Solver.guard_iterate h prm hg
    unfold Solver.solveFuel at hs
    cases hi : Solver.iterate o d prm s with
    | ok res =>
      rw [hi] at hs
      cases res with
      | again s1 => exact ih hs (h1 _ hi)
      | stop s1 => cases hs; exact h2 s1 hi
    | _ => rw [hi] at hs; cases hs

/-- The LP and the cuts are stored clean. -/
structure Tidy (r : Runner World) : Prop where
  stored : Stored r.world.lp.program
  sorted : ∀ s, r.world.lp = .glop s → r.world.report.Sorted
  cuts : ∀ cut ∈ r.registry.cuts, SparseVector.Clean cut.row.entries

/-- The generators make clean cuts from clean rows, and the selector keeps them. -/
def MakesClean (e : Engine) (c : Setup.Created)
    (generators : List (World → CutRegistry → Outcome (World × List CutData)))
    (select : World → CutRegistry → List CutData → Outcome (World × List CutData)) : Prop :=
  Runner.Makes (customPlugins e c generators select)
    (fun w => Stored w.lp.program ∧ ∀ s, w.lp = .glop s → w.report.Sorted) fun cut => SparseVector.Clean cut.row.entries

theorem addRow_sorted {w : World} {l : Lp} {row : LpRow} (hs : w.lp.addRow row = .ok l) {R : Prop}
    (h : ∀ s, w.lp = .glop s → R) : ∀ s, l = .glop s → R := by
  intro s hl
  cases hw : w.lp with
  | glop s' => exact h s' hw
  | soplex g =>
    rw [hw] at hs
    simp only [Lp.addRow, Outcome.bind_eq_ok] at hs
    obtain ⟨g', -, hs⟩ := hs
    cases hs
    cases hl

theorem solve_sorted {e : Engine} (he : e.Sorted) {w w' : World} (hs : w.solve e = .ok w') :
    ∀ s, w'.lp = .glop s → w'.report.Sorted := by
  obtain ⟨h1, -, -, h2⟩ := solve_world hs
  intro s hl
  cases hw : w.lp with
  | glop s' =>
    rw [hw] at h2
    rw [h2.1]
    exact he _ _
  | soplex g =>
    unfold World.solve at hs
    rw [hw] at hs
    simp only [Outcome.bind_eq_ok] at hs
    obtain ⟨⟨g', ok⟩, -, hs⟩ := hs
    dsimp only at hs
    split at hs
    · cases hs; cases hl
    · cases hs

theorem keeps_tidy {e : Engine} (he : e.Sorted) {c : Setup.Created} {d : MipData}
    (hro : Runner.ReadsOnly (customPlugins e c generators select)) (hm : MakesClean e c generators select) :
    Solver.Keeps (customOracle e c generators select) d Tidy where
  setBounds r hr j _ l u r' h := by
    have h : (oracle e c).setBounds r j l u = .ok r' := h
    simp only [oracle, Outcome.bind_eq_ok] at h
    obtain ⟨lp, h1, h4⟩ := h
    cases h4
    obtain ⟨-, -, h2⟩ := setColumnBounds_program h1
    refine ⟨?_, ?_, hr.cuts⟩
    · show Stored lp.program
      rw [h2]; exact hr.stored.withBounds _ _ _
    · intro s hl
      cases hw : r.world.lp with
      | glop s' => exact hr.sorted s' hw
      | soplex g =>
        rw [hw] at h1
        simp only [Lp.setColumnBounds, Outcome.bind_eq_ok] at h1
        obtain ⟨g', -, h1⟩ := h1
        cases h1
        cases hl
  solve r r' hr h := by
    have h : (oracle e c).solve r = .ok r' := h
    obtain ⟨h1, h2, -, h4⟩ := solve_spec h
    refine ⟨by rw [h2]; exact hr.stored, solve_sorted he h1, by rw [h4]; exact hr.cuts⟩
  separate r r' hr _ h := by
    simp only [customOracle, customSeparate] at h
    split at h
    · rename_i x hx
      rw [h] at hx
      have key := Runner.separateFuel_cuts hro (A := fun _ => True) hm (fun w cut w' hw hcut h => by
          obtain ⟨g1, g2⟩ := hw
          simp only [customPlugins, plugins, Outcome.bind_eq_ok] at h
          obtain ⟨l, hl, h⟩ := h
          cases h
          obtain ⟨name, k1⟩ := addRow_program hl
          obtain ⟨k2, -⟩ := g1.addRow _ hcut k1
          exact ⟨k2, addRow_sorted hl g2⟩)
        (fun w w' hw h => by
          obtain ⟨g1, g2⟩ := hw
          have hw' : w.solve e = .ok w' := h
          exact ⟨⟨by rw [(solve_world hw').1]; exact g1, solve_sorted he hw'⟩, trivial⟩) _ r r' hx
        ⟨hr.stored, hr.sorted⟩ hr.cuts trivial
      exact ⟨key.1.1, key.1.2, key.2.1⟩
    · cases h
  branch r r' col up hr h := by
    have h : (oracle e c).branch r = .ok (r', col, up) := h
    obtain ⟨h1, h2⟩ := branch_spec h
    refine ⟨by rw [h1]; exact hr.stored, ?_, by rw [h2]; exact hr.cuts⟩
    have hrep : r'.world.report = r.world.report := by
      simp only [oracle, Outcome.bind_eq_ok] at h
      obtain ⟨⟨w, col', up'⟩, h3, h4⟩ := h
      cases h4
      unfold branch at h3
      split at h3 <;> simp only [Outcome.bind_eq_ok] at h3 <;> obtain ⟨x, -, h3⟩ := h3 <;> cases h3 <;> rfl
    rw [h1, hrep]
    exact hr.sorted

theorem makes_clean_of {e : Engine} {c : Setup.Created}
    (hg : ∀ g ∈ generators, ∀ w reg w' cuts, Stored w.lp.program → (∀ s, w.lp = .glop s → w.report.Sorted) →
      g w reg = .ok (w', cuts) → ∀ cut ∈ cuts, SparseVector.Clean cut.row.entries) :
    MakesClean e c generators (plugins e c).select where
  generators g hgm w reg w' cuts hI h := hg g hgm w reg w' cuts hI.1 hI.2 h
  select w reg l w' cuts h hl := by
    simp only [customPlugins, plugins, Outcome.bind_eq_ok] at h
    obtain ⟨out, ho, h⟩ := h
    cases h
    intro cut hc
    obtain ⟨d, hd, x, rfl⟩ := HybridSelector.select_mem ho cut hc
    exact hl d hd
  index cut i h := h

theorem exact_clean {e : Engine} (ho : e.InOrder) (c : Setup.Created) :
    MakesClean e c (plugins e c).generators (plugins e c).select := by
  refine makes_clean_of fun g hg w reg w' cuts hst hso h => ?_
  simp only [plugins, List.mem_map] at hg
  obtain ⟨gc, -, rfl⟩ := hg
  simp only [Outcome.bind_eq_ok] at h
  obtain ⟨l, hl, h⟩ := h
  cases h
  have hclean : Generator.RowsClean (context e c w).lp := by
    intro row hr
    obtain ⟨n, hn⟩ := List.getElem?_of_mem hr
    simp only [context, Lp.view, List.getElem?_map, Option.map_eq_some_iff] at hn
    obtain ⟨k, hk, rfl⟩ := hn
    exact (sparseRow_spec ho hst k).1
  obtain ⟨_, -, hgood⟩ := Generator.C31_cuts_off_lp_optimum _ hclean _ (solverClean hso) _ _ _ hl
  exact fun cut hc => (hgood cut hc).2.1.1

theorem toVec_clean {v : SparseVector} (h : SparseVector.Clean v.entries) : (toVec v).isClean .ieee = true := by
  rw [AVector.isClean_iff]
  refine ⟨?_, ?_⟩
  · simp only [toVec]
    exact List.Pairwise.map _ (fun _ _ h => h) h.1
  · intro en hen
    simp only [toVec, List.mem_map] at hen
    obtain ⟨e', he', rfl⟩ := hen
    obtain ⟨h1, h2⟩ := h.2 e' he'
    refine ⟨?_, h2⟩
    simp [Arith.ieee, Dbl.eq, h1]

theorem ofVec_clean {v : Ieee.Vec} {row : SparseVector} (h : ofVec v = some row) (hv : AVector.Clean .ieee v.entries) :
    SparseVector.Clean row.entries := by
  have key : ∀ (l : List (AEntry Dbl)) (l' : List Entry), (l.mapM fun e => match e.value with
      | .fin q => some (⟨e.index, q⟩ : Entry)
      | _ => none) = some l' → List.Forall₂ (fun a b => b.index = a.index ∧ a.value = .fin b.value) l l' := by
    intro l
    induction l with
    | nil => intro l' h; simp at h; subst h; exact .nil
    | cons a l ih =>
      intro l' h
      rw [List.mapM_cons] at h
      cases ha : a.value with
      | fin q =>
        rw [ha] at h
        simp only [Option.pure_def, Option.bind_eq_bind, Option.bind_some, Option.bind_eq_some_iff] at h
        obtain ⟨l1, h1, h2⟩ := h
        cases h2
        exact .cons ⟨rfl, ha⟩ (ih l1 h1)
      | _ => rw [ha] at h; simp at h
  unfold ofVec at h
  simp only [Option.pure_def, Option.bind_eq_bind, Option.bind_eq_some_iff, Option.some.injEq] at h
  obtain ⟨l, h1, rfl⟩ := h
  have h2 := key _ _ h1
  show SparseVector.Clean l
  generalize v.entries = l₀ at h2 hv
  clear h1 key
  obtain ⟨hs, hn⟩ := hv
  unfold SparseVector.Clean
  induction h2 with
  | nil => exact ⟨List.Pairwise.nil, by simp⟩
  | @cons a b l₀ l hab h2 ih =>
    obtain ⟨hs1, hs2⟩ := List.pairwise_cons.1 hs
    obtain ⟨g1, g2⟩ := ih hs2 (fun e he => hn e (by simp [he]))
    refine ⟨List.pairwise_cons.2 ⟨fun c hc => ?_, g1⟩, fun e he => ?_⟩
    · obtain ⟨d, hd, hdc⟩ : ∃ d ∈ l₀, c.index = d.index := by
        clear ih g1 g2 hs hs1 hs2 hn
        induction h2 with
        | nil => simp at hc
        | @cons x z l₁ l₂ hxz _ ih =>
          rcases List.mem_cons.1 hc with rfl | hc
          · exact ⟨x, by simp, hxz.1⟩
          · obtain ⟨d, hd, h⟩ := ih hc
            exact ⟨d, by simp [hd], h⟩
      rw [hab.1, hdc]
      exact hs1 d hd
    · rcases List.mem_cons.1 he with rfl | he
      · obtain ⟨k1, k2⟩ := hn a (by simp)
        rw [hab.2] at k1
        rw [hab.1]
        refine ⟨fun h0 => ?_, k2⟩
        rw [h0] at k1
        simp [Arith.ieee, Dbl.eq] at k1
      · exact g2 e he

theorem floatCuts_rows {c : Setup.Created} {opt : SparseVector} (cuts : List Ieee.Cut) :
    ∀ l, floatCuts c opt cuts = .ok l → ∀ d ∈ l, ∃ cut ∈ cuts, ofVec cut.row = some d.row := by
  induction cuts with
  | nil => intro l h; cases h; simp
  | cons x r ih =>
    intro l h
    simp only [floatCuts, Outcome.bind_eq_ok] at h
    obtain ⟨d, hd, l', hl, h⟩ := h
    cases h
    intro d' hd'
    rcases List.mem_cons.1 hd' with rfl | hd'
    · refine ⟨x, by simp, ?_⟩
      unfold floatCut at hd
      split at hd
      · rename_i row rhs hrow hrhs
        cases hd
        exact hrow
      · cases hd
    · obtain ⟨cut, h1, h2⟩ := ih l' hl d' hd'
      exact ⟨cut, by simp [h1], h2⟩

theorem float_clean {e : Engine} (ho : e.InOrder) (c : Setup.Created) :
    MakesClean e c (floatPlugins e c).generators (floatPlugins e c).select := by
  refine makes_clean_of fun g hg w reg w' cuts hst hso h => ?_
  simp only [floatPlugins, List.mem_map] at hg
  obtain ⟨gc, -, rfl⟩ := hg
  simp only [floatGenerate, Outcome.bind_eq_ok] at h
  obtain ⟨l, hl, primal, -, l', hl', h⟩ := h
  cases h
  have hrows : ∀ r ∈ (floatContext e c w).lp.rows, r.isClean .ieee = true := by
    intro row hr
    simp only [floatContext, Lp.floatView, Lp.view, List.map_map, List.mem_map] at hr
    obtain ⟨k, -, rfl⟩ := hr
    exact toVec_clean (sparseRow_spec ho hst k).1.1
  intro cut hcut
  obtain ⟨x, hx, hrow⟩ := floatCuts_rows _ _ hl' cut hcut
  refine ofVec_clean hrow ?_
  exact Ieee.generated_clean hrows hl x hx

theorem tidy_end {e : Engine} (he : e.Sorted) {x : Setup.External} {p : Problem} (hp : p.WellFormed)
    {user : Setup.ParamsMsg} {c : Setup.Created} (h : Setup.create x p user = .ok c)
    (hro : Runner.ReadsOnly (customPlugins e c generators select)) (hm : MakesClean e c generators select)
    {fuel : Nat} {s : Solver.State (Runner World)} (hs : customSolve e c generators select fuel = some (.ok s)) :
    Tidy s.world := by
  obtain ⟨-, h₀⟩ := created_refines hp h
  refine keeps_solveFuel (keeps_tidy he hro hm) _ _ hs ⟨h₀.stored, fun _ _ k => List.Pairwise.nil, ?_⟩
  simp [Solver.initial]

/-- **C96, the program as it is, computing exactly.**  For every well-formed problem, all parameters that `Create` takes and both LP interfaces: if the LP code answers rightly up to tolerances,
hands out rows in order, and `Solve` returns OK without a solution or with one that is worse than a feasible point by
more than `2 * delta`, then the registry contains a cut that this point violates. -/
theorem C96_wrong_optimum {e : Engine} {eps delta : ℚ} (he : e.Approximate eps delta) (ho : e.InOrder) (hsort : e.Sorted)
    {x : Setup.External} {p : Problem} (hp : p.WellFormed) {user : Setup.ParamsMsg} {c : Setup.Created}
    (h : Setup.create x p user = .ok c) {fuel : Nat} {s : Solver.State (Runner World)}
    (hs : solve e c fuel = some (.ok s)) {y : Int → ℚ} (hy : p.Feasible y)
    (hbetter : s.result.best = {} ∨
      if p.isMaximization then p.userObjective (point s.result.best.values) + 2 * delta < p.userObjective y
      else p.userObjective y + 2 * delta < p.userObjective (point s.result.best.values)) :
    ∃ cut ∈ s.world.registry.cuts, cut.rhs < cut.row.eval y := by
  by_contra hno
  have hro := readsOnly e c
  have htidy := tidy_end hsort hp h hro (exact_clean ho c) hs
  obtain ⟨h1, h2⟩ := C96_registry_accounts he hp h hro.generators hro.select hs hy fun cut hc =>
    ⟨htidy.cuts cut hc, not_lt.1 fun hlt => hno ⟨cut, hc, hlt⟩⟩
  rcases hbetter with hb | hb
  · exact h1 hb
  · split at hb
    · rename_i hmax
      rw [if_pos hmax] at h2
      linarith
    · rename_i hmax
      rw [if_neg hmax] at h2
      linarith

/-- **C96, with cuts computed in doubles.**  As `C96_wrong_optimum`, for the program whose cut generators compute in
doubles. -/
theorem C96_wrong_optimum_in_doubles {e : Engine} {eps delta : ℚ} (he : e.Approximate eps delta) (ho : e.InOrder)
    (hsort : e.Sorted) {x : Setup.External} {p : Problem} (hp : p.WellFormed) {user : Setup.ParamsMsg}
    {c : Setup.Created} (h : Setup.create x p user = .ok c) {fuel : Nat} {s : Solver.State (Runner World)}
    (hs : floatRun e c fuel = some (.ok s)) {y : Int → ℚ} (hy : p.Feasible y)
    (hbetter : s.result.best = {} ∨
      if p.isMaximization then p.userObjective (point s.result.best.values) + 2 * delta < p.userObjective y
      else p.userObjective y + 2 * delta < p.userObjective (point s.result.best.values)) :
    ∃ cut ∈ s.world.registry.cuts, cut.rhs < cut.row.eval y := by
  by_contra hno
  have hro := float_readsOnly e c
  have htidy := tidy_end hsort hp h hro (float_clean ho c) hs
  obtain ⟨h1, h2⟩ := C96_registry_accounts he hp h hro.generators hro.select hs hy fun cut hc =>
    ⟨htidy.cuts cut hc, not_lt.1 fun hlt => hno ⟨cut, hc, hlt⟩⟩
  rcases hbetter with hb | hb
  · exact h1 hb
  · split at hb
    · rename_i hmax
      rw [if_pos hmax] at h2
      linarith
    · rename_i hmax
      rw [if_neg hmax] at h2
      linarith

/-! ### Non-vacuity -/

/-- The run of `C75_fractional_side_violated`: `Solve` reports `x = 0` as optimal although `x = 1` is feasible and better,
and the registry contains a cut that `x = 1` violates. -/
example : ∃ x c s, Setup.create x tight oneRoundUser = .ok c ∧ solve perfect c 4 = some (.ok s) ∧
    s.result.solveStatus = some .optimal ∧ tight.Feasible (fun _ => 1) ∧
    ∃ cut ∈ s.world.registry.cuts, cut.rhs < cut.row.eval fun _ => 1 := by
  obtain ⟨⟨h1, h2, h3, -, h5⟩, -, ⟨x, c, hc⟩, h6⟩ := C75_fractional_side_violated
  obtain ⟨s, hs, hopt, hlt⟩ := h6 x c hc perfect perfect_spec.1 perfect_spec.2 perfect_basic.1 perfect_inTime
  refine ⟨x, c, s, hc, hs, hopt, h5, C96_wrong_optimum (perfect_spec.1.approximate le_rfl le_rfl) (fun _ _ => rfl)
    (fun _ _ _ => List.Pairwise.nil) h1 hc hs h5 (Or.inr ?_)⟩
  have hmax : tight.isMaximization = true := rfl
  rw [if_pos hmax]
  linarith

theorem registry_empty {e : Engine} {c : Setup.Created} (hn : NoCuts c.runner.params) {fuel : Nat}
    {s : Solver.State (Runner World)} (hs : solve e c fuel = some (.ok s)) : s.world.registry.cuts = [] := by
  have hk := keeps_plain (e := e) (d := c.data) (lp₀ := (start c.lpi).program) hn
  have : Solver.Keeps (oracle e c) c.data fun r => Plain (start c.lpi).program r ∧ r.registry.cuts = [] := by
    refine ⟨fun r hr j hj l u r' h => ⟨hk.setBounds r hr.1 j hj l u r' h, ?_⟩,
      fun r r' hr h => ⟨hk.solve r r' hr.1 h, ?_⟩, fun r r' hr ho h => ⟨hk.separate r r' hr.1 ho h, ?_⟩,
      fun r r' col up hr h => ⟨hk.branch r r' col up hr.1 h, ?_⟩⟩
    · obtain ⟨-, -, -, -, h3⟩ := setBounds_spec h
      rw [h3]; exact hr.2
    · obtain ⟨-, -, -, h3⟩ := solve_spec h
      rw [h3]; exact hr.2
    · rw [← Outcome.ok.inj ((separate_plain hn hr.1).symm.trans h)]; exact hr.2
    · obtain ⟨-, h3⟩ := branch_spec h
      rw [h3]; exact hr.2
  exact (keeps_solveFuel this _ _ hs ⟨plain_start c, rfl⟩).2

/-- A run to which `C96_registry_accounts` applies: the registry is empty, so the solution is optimal. -/
example : ∃ x c s, Setup.create x exProblem exUser = .ok c ∧ solve blurred c (iterationBound exProblem) = some (.ok s) ∧
    ∀ y, exProblem.Feasible y → s.result.best ≠ {} := by
  obtain ⟨h1, h2, h3, y₀, h4⟩ := exProblem_spec
  obtain ⟨b1, -, b3, -⟩ := blurred_spec
  obtain ⟨c, hc, hs⟩ := C90_total_correctness exProblem h1 h2 h3 0 (1 / 10 ^ 9) Setup.exExternal exUser _ (Setup.lpWins _)
    (by refine ⟨⟨?_, ?_, ?_, ?_, ?_, ?_, ?_, ?_⟩, rfl, ?_, ?_, rfl, rfl⟩ <;>
      simp [exUser, Setup.LpMsg.read, ToleranceOk]) ⟨0, le_rfl, rfl⟩ (by intro s h; cases h) (by norm_num [exUser])
    (by norm_num [exUser])
  obtain ⟨hn, -⟩ := rule_of h1 hc ⟨0, le_rfl, rfl⟩ (by intro s h; cases h)
  rcases hs blurred b1 b3 with ⟨-, h⟩ | ⟨s, hs, -⟩
  · exact absurd h4 (h y₀)
  · refine ⟨_, c, s, hc, hs, fun y hy => ?_⟩
    have hro := readsOnly blurred c
    exact (C96_registry_accounts b1 h1 hc hro.generators hro.select hs hy
      (by rw [registry_empty hn hs]; simp)).1

end Program
end MiniMip
