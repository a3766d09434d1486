import Verif.Props.ProgramRegistry

/-!
# C97: the LP that `Solve` leaves

The rows of the LP are the constraints of the problem, followed by the cuts of the registry, one row each and in the
order of the registry.
-/

namespace MiniMip

namespace Runner

variable {W : Type}

theorem addRows_built {pl : Plugins W} {B : W → List LpRow → Prop} {V : CutData → Prop}
    (hadd : ∀ w rows c w', B w rows → V c → pl.addRow w (asRow pl.infinity c) = .ok w' →
      B w' (rows ++ [asRow pl.infinity c]))
    (is : List Int) : ∀ (r r' : Runner W), addRows pl r is = .ok r' → B r.world r.lpRows →
      (∀ c ∈ r.registry.cuts, V c) → B r'.world r'.lpRows := by
  induction is with
  | nil => intro r r' h hi _; cases h; exact hi
  | cons i is ih =>
    intro r r' h hi hr
    unfold addRows at h
    simp only [Outcome.bind_eq_ok] at h
    obtain ⟨c, hc, w, hw, h⟩ := h
    exact ih _ _ h (hadd _ _ _ _ hi (hr c (getCut_mem hc)) hw) hr

theorem generate_rows {pl : Plugins W} :
    ∀ (gs : List (W → CutRegistry → Outcome (W × List CutData))) (r r' : Runner W) (is : List Int),
      generate pl r gs = .ok (r', is) → r'.lpRows = r.lpRows := by
  have hall : ∀ (l : List CutData) (r r' : Runner W) (is : List Int), addAll r l = .ok (r', is) →
      r'.lpRows = r.lpRows := by
    intro l
    induction l with
    | nil => intro r r' is h; cases h; rfl
    | cons c cs ih =>
      intro r r' is h
      unfold addAll at h
      simp only [Outcome.bind_eq_ok] at h
      obtain ⟨⟨reg, i⟩, -, ⟨r1, is1⟩, h1, h2⟩ := h
      cases h2
      exact (ih _ _ _ h1).trans rfl
  intro gs
  induction gs with
  | nil => intro r r' is h; cases h; rfl
  | cons g gs ih =>
    intro r r' is h
    unfold generate at h
    simp only [Outcome.bind_eq_ok] at h
    obtain ⟨⟨w, cuts⟩, hg, h⟩ := h
    dsimp only at h
    split at h
    · exact (ih _ _ _ h).trans rfl
    · simp only [Outcome.bind_eq_ok] at h
      obtain ⟨⟨w2, fl⟩, hs, ⟨r2, is2⟩, ha, ⟨r3, is3⟩, h3, h4⟩ := h
      cases h4
      rw [ih _ _ _ h3, hall _ _ _ _ ha]

/-- What separation keeps of the state and the rows added so far. -/
theorem separateFuel_built {p : RunnerParams} {pl : Plugins W} (hp : ReadsOnly pl) {I : W → Prop}
    {B : W → List LpRow → Prop} {V : CutData → Prop} (hm : Makes pl I V) (hB : ∀ w rows, B w rows → I w)
    (hadd : ∀ w rows c w', B w rows → V c → pl.addRow w (asRow pl.infinity c) = .ok w' →
      B w' (rows ++ [asRow pl.infinity c]))
    (hsolve : ∀ w rows w', B w rows → pl.solve w = .ok w' → B w' rows) (n : Nat) :
    ∀ (r r' : Runner W), separateFuel p pl n r = some (.ok r') → B r.world r.lpRows →
      (∀ c ∈ r.registry.cuts, V c) → B r'.world r'.lpRows := by
  induction n with
  | zero => intro r r' h; cases h
  | succ n ih =>
    intro r r' h hi hv
    unfold separateFuel at h
    split at h
    · cases hr : round pl r with
      | ok x =>
        obtain ⟨r1, b⟩ := x
        rw [hr] at h
        unfold round at hr
        simp only [Outcome.bind_eq_ok] at hr
        obtain ⟨⟨r2, is⟩, hg, hr⟩ := hr
        have hw := generate_world hp pl.generators (fun _ h => h) _ _ _ hg
        have hl := generate_rows _ _ _ _ hg
        have hc := generate_cuts hp hm pl.generators (fun _ h => h) _ _ _ hg (hB _ _ hi) hv
        dsimp only at hr
        split at hr
        · cases hr
          cases h
          rw [hw, hl]; exact hi
        · simp only [Outcome.bind_eq_ok] at hr
          obtain ⟨r3, h3, w, h4, h5⟩ := hr
          cases h5
          have hreg : r3.registry = r2.registry :=
            (addRows_cuts (I := fun _ => True) (V := fun _ => True) (fun _ _ _ _ _ _ => trivial) is _ _ h3 trivial
              (fun _ _ => trivial)).2
          have g1 := addRows_built hadd is _ _ h3 (by rw [hw, hl]; exact hi) hc
          exact ih _ _ h (hsolve _ _ _ g1 h4) (by rw [← hreg] at hc; exact hc)
      | _ => rw [hr] at h; cases h
    · cases h; exact hi

/-- The cuts of the registry know their position, and each of them has become a row. -/
def InStep (infinity : Dbl) (r : Runner W) : Prop :=
  r.lpRows = r.registry.cuts.map (asRow infinity) ∧
  ∀ (k : Nat) (c : CutData), r.registry.cuts[k]? = some c → c.index = some (k : Int)

theorem separateFuel_inStep {p : RunnerParams} {pl : Plugins W} {n : Nat} {r r' : Runner W}
    (h : separateFuel p pl n r = some (.ok r')) (hr : InStep pl.infinity r) : InStep pl.infinity r' := by
  obtain ⟨new, k, h1, h2, -⟩ := separateFuel_spec _ _ _ _ _ h
  obtain ⟨g1, g2⟩ := hr
  have hnum : ∀ (l : List CutData) (n k : Nat) (c : CutData), (numbered n l)[k]? = some c →
      c.index = some ((n + k : Nat) : Int) := by
    intro l
    induction l with
    | nil => intro n k c h; simp [numbered] at h
    | cons d l ih =>
      intro n k c h
      cases k with
      | zero => simp [numbered] at h; rw [← h]; simp
      | succ k =>
        simp only [numbered, List.getElem?_cons_succ] at h
        rw [ih _ _ _ h]; congr 2; omega
  refine ⟨by rw [h2, h1, g1]; simp [numbered_rows], fun k c hk => ?_⟩
  rw [h1] at hk
  simp only at hk
  rcases Nat.lt_or_ge k r.registry.cuts.length with hlt | hge
  · rw [List.getElem?_append_left hlt] at hk
    exact g2 k c hk
  · rw [List.getElem?_append_right hge] at hk
    rw [hnum _ _ _ _ hk]
    congr 2; omega

end Runner

namespace Program

open Glop (LinearProgram Refines Extends Stored)
open Solver (Oracle Contract guard point)

/-- The LP is the first one, with other bounds and some more rows. -/
structure Built (lp₀ : LinearProgram) (lp : LinearProgram) (rows : List LpRow) : Prop where
  good : Extends lp₀ lp
  stored : Stored lp
  numRows : lp.rows.length = lp₀.rows.length + rows.length
  added : ∀ (k : Nat) (row : LpRow), rows[k]? = some row → ∃ r, lp.rows[lp₀.rows.length + k]? = some r ∧
    r.lhs = .ninf ∧ r.rhs = row.rhs ∧ ∀ x, lp.activity (lp₀.rows.length + k) x = row.row.eval x

theorem Built.withBounds {lp₀ lp : LinearProgram} {rows : List LpRow} (h : Built lp₀ lp rows) (j : Nat) (l u : Dbl) :
    Built lp₀ (lp.withBounds j l u) rows := by
  refine ⟨h.good.withBounds _ _ _, h.stored.withBounds _ _ _, h.numRows, fun k row hk => ?_⟩
  obtain ⟨r, h1, h2, h3, h4⟩ := h.added k row hk
  refine ⟨r, h1, h2, h3, fun x => ?_⟩
  rw [((Extends.refl lp).withBounds j l u).activity (List.getElem?_eq_some_iff.1 h1).1 x]
  exact h4 x

theorem Built.addRow {lp₀ : LinearProgram} {w : World} {rows : List LpRow} (h : Built lp₀ w.lp.program rows) {l : Lp}
    {cut : CutData} (hc : SparseVector.Clean cut.row.entries) {lhs : Dbl}
    (hs : w.lp.addRow { row := cut.row, lhs := .ninf, rhs := .fin cut.rhs, name := cut.name } = .ok l) :
    Built lp₀ l.program (rows ++ [{ row := cut.row, lhs := lhs, rhs := .fin cut.rhs, name := cut.name }]) := by
  obtain ⟨name, h1⟩ := addRow_program hs
  obtain ⟨h2, h3, -⟩ := h.good.addRow _ _ h1
  obtain ⟨h4, h5, h6, h7⟩ := h.stored.addRow _ hc h1
  refine ⟨h2, h4, by rw [h3, h.numRows]; simp; omega, fun k row hk => ?_⟩
  rcases Nat.lt_trichotomy k rows.length with hlt | rfl | hgt
  · rw [List.getElem?_append_left hlt] at hk
    obtain ⟨r, g1, g2, g3, g4⟩ := h.added k row hk
    have hlt' := (List.getElem?_eq_some_iff.1 g1).1
    refine ⟨r, by rw [h5, List.getElem?_append_left hlt']; exact g1, g2, g3, fun x => ?_⟩
    rw [h6 _ hlt']; exact g4 x
  · rw [List.getElem?_append_right le_rfl] at hk
    simp only [Nat.sub_self, List.getElem?_cons_zero, Option.some.injEq] at hk
    subst hk
    rw [← h.numRows]
    refine ⟨{ lhs := .ninf, rhs := .fin cut.rhs, name := name }, by rw [h5, List.getElem?_append_right le_rfl]; simp, rfl,
      rfl, fun x => ?_⟩
    rw [h7]
    rfl
  · rw [List.getElem?_append_right hgt.le, List.getElem?_eq_none (by simp; omega)] at hk
    cases hk

/-- The states of a run. -/
structure Kept (e : Engine) (c : Setup.Created) (lp₀ : LinearProgram) (r : Runner World) : Prop where
  tidy : Tidy r
  built : Built lp₀ r.world.lp.program r.lpRows
  inStep : Runner.InStep ((start c.lpi).infinity e) r

variable {generators : List (World → CutRegistry → Outcome (World × List CutData))}
  {select : World → CutRegistry → List CutData → Outcome (World × List CutData)}

theorem keeps_kept {e : Engine} (he : e.Sorted) {c : Setup.Created} {d : MipData} {lp₀ : LinearProgram}
    (hro : Runner.ReadsOnly (customPlugins e c generators select)) (hm : MakesClean e c generators select) :
    Solver.Keeps (customOracle e c generators select) d (Kept e c lp₀) where
  setBounds r hr j hj l u r' h := by
    refine ⟨(keeps_tidy he hro hm).setBounds (d := d) r hr.tidy j hj l u r' h, ?_, ?_⟩
    · have h : (oracle e c).setBounds r j l u = .ok r' := h
      simp only [oracle, Outcome.bind_eq_ok] at h
      obtain ⟨lp, h1, h4⟩ := h
      cases h4
      obtain ⟨-, -, h2⟩ := setColumnBounds_program h1
      show Built lp₀ lp.program r.lpRows
      rw [h2]; exact hr.built.withBounds _ _ _
    · have h : (oracle e c).setBounds r j l u = .ok r' := h
      obtain ⟨-, -, -, -, h3⟩ := setBounds_spec h
      rw [h3]; exact hr.inStep
  solve r r' hr h := by
    refine ⟨(keeps_tidy he hro hm (d := d)).solve r r' hr.tidy h, ?_, ?_⟩
    all_goals
      have h : (oracle e c).solve r = .ok r' := h
      obtain ⟨h1, h2, -, h4⟩ := solve_spec h
    · rw [h2, h4]; exact hr.built
    · rw [h4]; exact hr.inStep
  separate r r' hr hopt h := by
    refine ⟨(keeps_tidy he hro hm (d := d)).separate r r' hr.tidy hopt h, ?_, ?_⟩
    all_goals
      simp only [customOracle, customSeparate] at h
      split at h
      on_goal 2 => cases h
      rename_i x hx
      rw [h] at hx
    · refine (Runner.separateFuel_built hro hm
        (B := fun w rows => (Stored w.lp.program ∧ ∀ s, w.lp = .glop s → w.report.Sorted) ∧ Built lp₀ w.lp.program rows)
        (fun _ _ h => h.1) ?_ ?_ _ r r' hx ⟨⟨hr.tidy.stored, hr.tidy.sorted⟩, hr.built⟩ hr.tidy.cuts).2
      · rintro w rows cut w' ⟨⟨g1, g2⟩, g3⟩ hcut h
        simp only [customPlugins, plugins, Runner.asRow, Outcome.bind_eq_ok] at h
        obtain ⟨l, hl, h⟩ := h
        cases h
        rw [readLhs_neg] at hl
        have g4 := g3.addRow hcut hl (lhs := ((start c.lpi).infinity e).neg)
        exact ⟨⟨g4.stored, addRow_sorted hl g2⟩, g4⟩
      · rintro w rows w' ⟨⟨g1, g2⟩, g3⟩ h
        have hw' : w.solve e = .ok w' := h
        have hp := (solve_world hw').1
        exact ⟨⟨by rw [hp]; exact g1, solve_sorted he hw'⟩, by rw [hp]; exact g3⟩
    · exact Runner.separateFuel_inStep hx hr.inStep
  branch r r' col up hr h := by
    refine ⟨(keeps_tidy he hro hm (d := d)).branch r r' col up hr.tidy h, ?_, ?_⟩
    all_goals
      have h : (oracle e c).branch r = .ok (r', col, up) := h
      obtain ⟨h1, h2⟩ := branch_spec h
    · rw [h1, h2]; exact hr.built
    · rw [h2]; exact hr.inStep

/-- The LP is that of the problem and the cuts: minimisation of the user's objective (negated for maximisation, without
its offset); the rows of the constraints, then those of the cuts, which know their position. -/
def HoldsProblemAndCuts (p : Problem) (cuts : List CutData) (lp : LinearProgram) : Prop :=
  lp.maximize = false ∧ lp.cols.length = p.vars.length ∧
  (∀ x, lp.value x = if p.isMaximization then -(p.userObjective x - p.offset) else p.userObjective x - p.offset) ∧
  lp.rows.length = p.constraints.length + cuts.length ∧
  (∀ (i : Nat) (k : Constraint), p.constraints[i]? = some k → ∃ r, lp.rows[i]? = some r ∧ r.lhs = k.lhs ∧ r.rhs = k.rhs ∧
    ∀ x, lp.activity i x = k.activity x) ∧
  ∀ (i : Nat) (cut : CutData), cuts[i]? = some cut → cut.index = some (i : Int) ∧
    ∃ r, lp.rows[p.constraints.length + i]? = some r ∧ r.lhs = .ninf ∧ r.rhs = .fin cut.rhs ∧
      ∀ x, lp.activity (p.constraints.length + i) x = cut.row.eval x

theorem custom_rows {e : Engine} (hsort : e.Sorted) {x : Setup.External} {p : Problem} (hp : p.WellFormed)
    {user : Setup.ParamsMsg} {c : Setup.Created} (h : Setup.create x p user = .ok c)
    (hro : Runner.ReadsOnly (customPlugins e c generators select)) (hm : MakesClean e c generators select)
    {fuel : Nat} {s : Solver.State (Runner World)} (hs : customSolve e c generators select fuel = some (.ok s)) :
    HoldsProblemAndCuts p s.world.registry.cuts s.world.world.lp.program := by
  obtain ⟨hd, h₀⟩ := created_refines hp h
  have hk : Kept e c (start c.lpi).program s.world := by
    refine keeps_solveFuel (keeps_kept hsort hro hm) _ _ hs ⟨⟨h₀.stored, fun _ _ k => List.Pairwise.nil, ?_⟩,
      ⟨Extends.refl _, h₀.stored, ?_, ?_⟩, ?_, ?_⟩
    · simp [Solver.initial]
    · simp [Solver.initial]
    · simp [Solver.initial]
    · simp [Solver.initial]
    · simp [Solver.initial]
  obtain ⟨-, hb, hi⟩ := hk
  have hn : (start c.lpi).program.rows.length = p.constraints.length := h₀.numRows
  refine ⟨by rw [hb.good.sense, h₀.sense]; rfl, by rw [hb.good.numCols, h₀.numCols]; rfl, fun y => ?_, ?_, fun i k hk => ?_,
    fun i cut hcut => ⟨hi.2 i cut hcut, ?_⟩⟩
  · rw [hb.good.value, h₀.value, (relaxation_points p hp y).2]
  · rw [hb.numRows, hn, hi.1, List.length_map]
  · have hlt : i < p.relaxation.numRows := (List.getElem?_eq_some_iff.mp hk).1
    have hlt' : i < (start c.lpi).program.rows.length := by rw [h₀.numRows]; exact hlt
    obtain ⟨extra, hex⟩ := hb.good.rows
    obtain ⟨h1, h2⟩ := h₀.rows i _ (List.getElem?_eq_getElem hlt')
    refine ⟨_, by rw [hex, List.getElem?_append_left hlt']; exact List.getElem?_eq_getElem hlt', ?_, ?_, fun y => ?_⟩
    · rw [h1]; simp [Problem.relaxation, hk]
    · rw [h2]; simp [Problem.relaxation, hk]
    · rw [hb.good.activity hlt', h₀.activity hlt, relaxation_activity hp hk]
  · obtain ⟨r, h1, h2, h3, h4⟩ := hb.added i (Runner.asRow ((start c.lpi).infinity e) cut) (by rw [hi.1]; simp [hcut])
    rw [hn] at h1 h4
    exact ⟨r, h1, h2, h3, h4⟩

/-- **C97.**  For every well-formed problem, all parameters that `Create` takes, both LP interfaces and whatever LP code
that hands out rows in order (its answers may be anything): when `Solve` returns OK, the LP holds the objective of the
problem, its constraints in their order, and then exactly the cuts of the registry in the order of their indices, each as
a row that is unbounded below.  No cut is lost, added twice or removed, through all rounds of all nodes. -/
theorem C97_lp_rows {e : Engine} (ho : e.InOrder) (hsort : e.Sorted) {x : Setup.External} {p : Problem}
    (hp : p.WellFormed) {user : Setup.ParamsMsg} {c : Setup.Created} (h : Setup.create x p user = .ok c)
    {fuel : Nat} {s : Solver.State (Runner World)} (hs : solve e c fuel = some (.ok s)) :
    HoldsProblemAndCuts p s.world.registry.cuts s.world.world.lp.program :=
  custom_rows hsort hp h (readsOnly e c) (exact_clean ho c) hs

/-- **C97, with cuts computed in doubles.** -/
theorem C97_lp_rows_in_doubles {e : Engine} (ho : e.InOrder) (hsort : e.Sorted) {x : Setup.External} {p : Problem}
    (hp : p.WellFormed) {user : Setup.ParamsMsg} {c : Setup.Created} (h : Setup.create x p user = .ok c)
    {fuel : Nat} {s : Solver.State (Runner World)} (hs : floatRun e c fuel = some (.ok s)) :
    HoldsProblemAndCuts p s.world.registry.cuts s.world.world.lp.program :=
  custom_rows hsort hp h (float_readsOnly e c) (float_clean ho c) hs

/-- Non-vacuity: after the run of `C75_fractional_side_violated` the LP has a row that the optimum violates. -/
example : ∃ x c s, Setup.create x tight oneRoundUser = .ok c ∧ solve perfect c 4 = some (.ok s) ∧
    ∃ (i : Nat) (r : Glop.Row), s.world.world.lp.program.rows[i]? = some r ∧ tight.Feasible (fun _ => 1) ∧
      ¬ Between r.lhs (s.world.world.lp.program.activity i fun _ => 1) r.rhs := by
  obtain ⟨⟨h1, h2, h3, -, h5⟩, -, ⟨x, c, hc⟩, h6⟩ := C75_fractional_side_violated
  obtain ⟨s, hs, hopt, hlt⟩ := h6 x c hc perfect perfect_spec.1 perfect_spec.2 perfect_basic.1 perfect_inTime
  have hmax : tight.isMaximization = true := rfl
  obtain ⟨cut, hcut, hv⟩ := C96_wrong_optimum (perfect_spec.1.approximate le_rfl le_rfl) (fun _ _ => rfl)
    (fun _ _ _ => List.Pairwise.nil) h1 hc hs h5 (Or.inr (by rw [if_pos hmax]; linarith))
  obtain ⟨i, hi⟩ := List.getElem?_of_mem hcut
  obtain ⟨-, -, -, -, -, h7⟩ := C97_lp_rows (fun _ _ => rfl) (fun _ _ _ => List.Pairwise.nil) h1 hc hs
  obtain ⟨-, r, g1, g2, g3, g4⟩ := h7 i cut hi
  refine ⟨x, c, s, hc, hs, _, r, g1, h5, fun hb => ?_⟩
  have := hb.2
  rw [g3, g4, Dbl.le_fin] at this
  linarith

end Program
end MiniMip
