import Verif.Props.ProgramFractional
import Verif.Props.SolverWitness

/-!
# Runs of the whole program that do not end, or end wrongly

The random rule returns a position in the list of the integer variables where a column index is wanted (C41).
Here is what that means for `Create` followed by `Solve`: branching on columns whose bounds `Solve` does not
pass to the LP repeats the root for ever.
-/

namespace MiniMip
namespace Solver

variable {W : Type}

/-- If the rule returns only columns that are not integer, and the LP optimum of the root is never accepted as
integral, then the loop does not end. -/
theorem never_ends {o : Oracle W} {d : MipData} {prm : Params} {Good : W → Prop}
    {bounds : W → Int → Dbl × Dbl} {Answer : W → Prop} {w : W} (hd : DataOk d)
    (hp : PrimalShape o d.lower.length) (hc : Contract o Good bounds Answer) (hresp : Responsive o d prm)
    (hg : Good w) (hs : StartsAt d bounds w)
    (hbranch : ∀ w w' col up, o.branch w = .ok (w', col, up) → col ∉ d.integerVariables)
    (hroot : ∀ w, Answer w → (∀ x, InBounds d bounds w x ↔ InRootBounds d x) → o.isOptimal w = true ∧
      ∀ values, o.primal w = .ok values → d.solutionIsIntegral values prm.tol ≠ .ok true) (fuel : Nat) :
    solveFuel o d prm fuel (initial w) = none := by
  have hnode : ∀ (b : Box) (w : W), Answer w → (∀ n : Nat, (n : Int) ∈ d.integerVariables → ∀ y, b n y) →
      (∀ x, InBounds d bounds w x ↔ InRootBounds d x ∧ InBox d b x) → o.isOptimal w = true ∧
      ∀ values, o.primal w = .ok values → d.solutionIsIntegral values prm.tol ≠ .ok true := by
    intro b w ha hb hx
    exact hroot w ha fun x => by rw [hx x]; exact ⟨fun h => h.1, fun h => ⟨h, fun n hn => hb n hn _⟩⟩
  have inv : ∀ s, Reach o d prm (initial w) s → ∃ bs sols,
      Inv d Good bounds s bs sols ∧ bs ≠ [] ∧
        ∀ b ∈ bs, ∀ n : Nat, (n : Int) ∈ d.integerVariables → ∀ y, b n y := by
    intro s h
    induction h with
    | refl =>
      obtain ⟨b, hb, hi⟩ := inv_init (d := d) hg hs
      exact ⟨_, _, hi, by simp, by simpa using fun n _ y => hb n y⟩
    | step _ hstep ih =>
      obtain ⟨bs, sols, hi, hne, hall⟩ := ih
      obtain ⟨bs', sols', hi', ht⟩ := (iterate_trans hd hp hc hi).1 _ hstep
      refine ⟨bs', sols', hi', ?_⟩
      cases ht with
      | drop h1 h2 h3 h4 =>
        have := (hnode _ _ h2 (hall _ (h1.mem_iff.2 (by simp))) h3).1
        rw [this] at h4; cases h4
      | record h1 h2 h3 h4 h5 h6 =>
        exact absurd h6 ((hnode _ _ h2 (hall _ (h1.mem_iff.2 (by simp))) h3).2 _ h5)
      | split h1 h2 h3 h4 h5 h6 h7 h8 =>
        refine ⟨by simp, ?_⟩
        have hcol := hbranch _ _ _ _ h7
        rename_i b bs1 w w' values col up v
        intro b' hb' n hn y
        have hchild : ∀ dn, childBox b col v dn n y := fun dn =>
          ⟨hall b (h1.mem_iff.2 (by simp)) n hn y, fun h => by subst h; exact absurd hn hcol⟩
        simp only [List.cons_append, List.mem_cons, List.mem_append, List.not_mem_nil, or_false] at hb'
        rcases hb' with rfl | hb' | rfl
        · exact hchild _
        · exact hall b' (h1.mem_iff.2 (by simp [hb'])) n hn y
        · exact hchild _
  have again : ∀ s, Reach o d prm (initial w) s → ∃ s', iterate o d prm s = .ok (.again s') := by
    intro s h
    obtain ⟨bs, sols, hi, hne, hall⟩ := inv s h
    obtain ⟨-, hstop, herr⟩ := iterate_trans (prm := prm) hd hp hc hi
    rcases C38_never_aborts hd hp hresp h with ⟨res, hres⟩ | hres
    · cases res with
      | again s' => exact ⟨s', hres⟩
      | stop s' =>
        obtain ⟨sols', -, hf⟩ := hstop s' hres
        cases hf with
        | empty => exact absurd rfl hne
        | root ha hx _ hv hint => exact absurd hint ((hroot _ ha hx).2 _ hv)
    · obtain ⟨w, ha, hopt, hx⟩ := herr _ hres
      rw [(hroot w ha hx).1] at hopt; cases hopt
  have gen : ∀ fuel s, Reach o d prm (initial w) s → solveFuel o d prm fuel s = none := by
    intro fuel
    induction fuel with
    | zero => intro s _; rfl
    | succ n ih =>
      intro s h
      obtain ⟨s', hs'⟩ := again s h
      unfold solveFuel
      rw [hs']
      exact ih s' (h.step hs')
  exact gen fuel _ .refl

/-- Once the loop has ended, more fuel changes nothing. -/
theorem solveFuel_more {o : Oracle W} {d : MipData} {prm : Params} {x : Outcome (State W)} {n : Nat} :
    ∀ {s : State W}, solveFuel o d prm n s = some x → ∀ m, n ≤ m → solveFuel o d prm m s = some x := by
  induction n with
  | zero => intro s h; cases h
  | succ n ih =>
    intro s h m hm
    obtain ⟨m, rfl⟩ : ∃ k, m = k + 1 := ⟨m - 1, by omega⟩
    unfold solveFuel at h ⊢
    split at h
    · exact ih h m (by omega)
    all_goals exact h

end Solver

namespace Program

open Glop (LinearProgram Extends Refines)
open Solver (Oracle Contract guard point InBounds InRootBounds StartsAt)

/-! ### C78 with SoPlex -/

/-- **C78 fails with SoPlex** if a bound of an integer variable is fractional: no number of iterations brings
about a right outcome, because the process aborts in the second one. -/
theorem C78_soplex_violated :
    half.WellFormed ∧ FiniteIntegers half ∧ Bounded half ∧ half.Feasible (fun _ => 3) ∧
    (∃ x c, Setup.create x half soplexUser = .ok c) ∧
    ∀ x c, Setup.create x half soplexUser = .ok c → ∀ e : Engine, e.Right → e.SoplexReturns →
      e.epsilonZero < 1 / 2 → ∀ N tol, ¬ Solves half tol (solve e c N) := by
  obtain ⟨h1, h2, h3, h4, h5, h6⟩ := C77_soplex_crossing_bounds_violated
  refine ⟨h1, h2, h3, h4, h5, fun x c hc e he hret heps N tol h => ?_⟩
  have h2 := h6 x c hc e he hret heps
  have hmore : ∀ r, solve e c N = some r → r = .abort := fun r hr => by
    have e1 := Solver.solveFuel_more hr (max N 2) (le_max_left _ _)
    have e2 := Solver.solveFuel_more h2 (max N 2) (le_max_right _ _)
    exact Option.some.inj (e1.symm.trans e2)
  rcases h with ⟨h, -⟩ | ⟨s, h, -⟩ <;> cases hmore _ h

/-! ### C76 with the random rule -/

theorem contract_answer {e : Engine} {A : LinearProgram → Prop → Report → Prop}
    (hA : ∀ w w' : World, (∃ s, w.lp = .glop s) → w.solve e = .ok w' →
      A w'.lp.program (w'.lp.isOptimal = true) w'.report) {c : Setup.Created}
    (hn : NoCuts c.runner.params) {lp₀ : LinearProgram} :
    Contract (guard (oracle e c) (PlainGlop lp₀)) (PlainGlop lp₀) bounds
      fun r => PlainGlop lp₀ r ∧ A r.world.lp.program (r.world.lp.isOptimal = true) r.world.report := by
  have hk := keeps_plainGlop (e := e) hn (d := c.data) (lp₀ := lp₀)
  apply Contract.guard
  constructor
  · intro r j l u r' hg h
    obtain ⟨-, -, h1, h2, h3⟩ := setBounds_spec h
    refine ⟨⟨⟨?_, by rw [h1]; exact hg.numRows, by rw [h3]; exact hg.rounds, by rw [h3]; exact hg.added⟩, ?_⟩, h2⟩
    · show Extends lp₀ r'.world.lp.program
      rw [h1]
      exact Extends.withBounds hg.good _ _ _
    · obtain ⟨s, hs⟩ := hg.glop
      simp only [oracle, Outcome.bind_eq_ok] at h
      obtain ⟨lp, h4, h5⟩ := h
      rw [hs] at h4
      simp only [Lp.setColumnBounds, Outcome.bind_eq_ok] at h4
      obtain ⟨g, -, h4⟩ := h4
      rw [← Outcome.ok.inj h5]
      exact ⟨_, (Outcome.ok.inj h4).symm⟩
  · intro r r' hg h
    have := hk.solve r r' hg h
    exact ⟨this, (solve_spec h).2.2.1, this, hA _ _ hg.glop (solve_spec h).1⟩
  · intro r r' hg ha _ h
    have : r = r' := Outcome.ok.inj ((separate_plain hn hg.toPlain).symm.trans h)
    rw [← this]; exact ⟨hg, rfl, ha⟩
  · intro r r' col up hg h
    exact ⟨hk.branch r r' col up hg h, bounds_congr fun c => by rw [(branch_spec h).1]⟩

theorem contract_right {e : Engine} (he : e.Right) {c : Setup.Created} (hn : NoCuts c.runner.params)
    {lp₀ : LinearProgram} : Contract (guard (oracle e c) (PlainGlop lp₀)) (PlainGlop lp₀) bounds
      fun r => PlainGlop lp₀ r ∧ RightAnswer r.world.lp.program (r.world.lp.isOptimal = true) r.world.report :=
  contract_answer (A := RightAnswer) (fun _ _ _ h => he.solve h) hn

/-- No optimal point of the relaxation is accepted as integral. -/
def FractionalOptima (p : Problem) (tol : ℚ) : Prop :=
  ∀ y, p.RelaxedFeasible y →
    (∀ z, p.RelaxedFeasible z →
      if p.isMaximization then p.userObjective z ≤ p.userObjective y else p.userObjective y ≤ p.userObjective z) →
    ∃ (n : Nat) (v : Variable), p.vars[n]? = some v ∧ v.isInteger = true ∧ ∀ k : Int, tol < |y n - k|

/-- No more variables are integer than there are continuous variables in front of them. -/
def IntegersLast (p : Problem) : Prop :=
  ∀ (n : Nat) (v : Variable), p.vars[n]? = some v → v.isInteger = true →
    (p.vars.filter (·.isInteger)).length ≤ n

theorem integers_count {p : Problem} {d : MipData} (hd : d.Represents p) :
    d.integerVariables.length ≤ (p.vars.filter (·.isInteger)).length := by
  have hlen : ∀ l : List Variable, ((List.range l.length).filter fun n => l[n]?.any (·.isInteger)).length =
      (l.filter (·.isInteger)).length := by
    intro l
    induction l using List.reverseRecOn with
    | nil => rfl
    | append_singleton l v ih =>
      rw [List.length_append, List.length_singleton, List.range_succ, List.filter_append, List.filter_append,
        List.length_append, List.length_append, ← ih]
      congr 1
      · congr 1
        apply List.filter_congr
        intro n hn
        rw [List.getElem?_append_left (List.mem_range.1 hn)]
      · simp [List.filter_singleton]
        cases v.isInteger <;> rfl
  have hsub : d.integerVariables ⊆
      ((List.range p.vars.length).filter fun n => p.vars[n]?.any (·.isInteger)).map Int.ofNat := by
    intro j hj
    obtain ⟨n, v, h1, h2, rfl⟩ := (hd.integers j).1 hj
    refine List.mem_map.2 ⟨n, List.mem_filter.2 ⟨List.mem_range.2 (List.getElem?_eq_some_iff.1 h1).1, ?_⟩, rfl⟩
    simp [h1, h2]
  have := (hd.integersNodup.subperm hsub).length_le
  rwa [List.length_map, hlen] at this

/-- The LP of the root is optimal, and its solution is an optimal point of the relaxation. -/
theorem root_optimal {e : Engine} {p : Problem} (hp : p.WellFormed) (hB : Bounded p)
    (hfeas : ∃ y, p.RelaxedFeasible y) {c : Setup.Created}
    (hd : c.data.Represents p) (h₀ : Refines (start c.lpi).program p.relaxation) {r : Runner World}
    (hr : PlainGlop (start c.lpi).program r)
    (hans : RightAnswer r.world.lp.program (r.world.lp.isOptimal = true) r.world.report)
    (hbd : ∀ x, InBounds c.data bounds r x ↔ InRootBounds c.data x) :
    (guard (oracle e c) (PlainGlop (start c.lpi).program)).isOptimal r = true ∧
      ∀ values, (guard (oracle e c) (PlainGlop (start c.lpi).program)).primal r = .ok values →
        values.length = c.data.lower.length ∧ p.RelaxedFeasible (point values) ∧
        ∀ z, p.RelaxedFeasible z → if p.isMaximization then p.userObjective z ≤ p.userObjective (point values)
          else p.userObjective (point values) ≤ p.userObjective z := by
  have hlen₀ : (start c.lpi).program.cols.length = c.data.lower.length := by
    rw [h₀.numCols, hd.lower, List.length_map]; rfl
  have hsense : r.world.lp.program.maximize = false := by rw [hr.good.sense, h₀.sense]; rfl
  have hlen : r.world.lp.program.cols.length = c.data.lower.length := by
    rw [hr.good.numCols]; exact hlen₀
  have hval : ∀ y, r.world.lp.program.value y =
      if p.isMaximization then -(p.userObjective y - p.offset) else p.userObjective y - p.offset := fun y => by
    rw [hr.good.value, h₀.value, (relaxation_points p hp y).2]
  have hroot : ∀ y, InRootBounds c.data y ↔
      ∀ (n : Nat) (v : Variable), p.vars[n]? = some v → Between v.lower (y n) v.upper := by
    intro y
    constructor
    · intro h n v hv
      exact h n v.lower v.upper (by rw [hd.lower]; simp [hv]) (by rw [hd.upper]; simp [hv])
    · intro h n l u h1 h2
      rw [hd.lower, List.getElem?_map] at h1
      rw [hd.upper, List.getElem?_map] at h2
      cases hv : p.vars[n]? with
      | none => rw [hv] at h1; cases h1
      | some v =>
        rw [hv] at h1 h2
        cases h1
        cases h2
        exact h n v hv
  have hin : ∀ y, p.RelaxedFeasible y → r.world.lp.program.Feasible y := by
    rintro y ⟨h1, h2⟩
    refine rows_hold hp h₀ hr.good hr.numRows h2 fun n col hcol => ?_
    have hlt := (List.getElem?_eq_some_iff.mp hcol).1
    have := (hbd y).2 ((hroot y).2 h1) n (by rw [← hlen]; exact hlt)
    rw [bounds_nat, hcol] at this
    exact this
  have hout : ∀ y, r.world.lp.program.Feasible y → p.RelaxedFeasible y := by
    intro y hy
    refine ⟨(hroot y).1 ((hbd y).1 (inBounds_of hlen hy.1)), fun k hk => ?_⟩
    obtain ⟨i, hi⟩ := List.getElem?_of_mem hk
    have hlt : i < p.relaxation.numRows := (List.getElem?_eq_some_iff.mp hi).1
    have hlt' : i < (start c.lpi).program.rows.length := by rw [h₀.numRows]; exact hlt
    have h3 := h₀.rows i _ (List.getElem?_eq_getElem hlt')
    have h4 := hr.good.holds hy (List.getElem?_eq_getElem hlt')
    rw [h3.1, h3.2, h₀.activity hlt, relaxation_activity hp hi] at h4
    simpa [Problem.relaxation, hi] using h4
  have hopt : r.world.lp.isOptimal = true := by
    by_contra hno
    obtain ⟨y, hy⟩ := hfeas
    rcases hans.2 hno with h1 | h1
    · exact h1 y (hin y hy)
    · obtain ⟨B, hB⟩ := hB
      rw [hsense] at h1
      cases hm : p.isMaximization with
      | false =>
        obtain ⟨z, hz, hlt⟩ := h1 (B - p.offset)
        have hb := hB z (hout z hz)
        rw [hval] at hlt
        simp only [hm, Bool.false_eq_true, if_false] at hb hlt
        linarith
      | true =>
        obtain ⟨z, hz, hlt⟩ := h1 (-(B - p.offset))
        have hb := hB z (hout z hz)
        rw [hval] at hlt
        simp only [hm, Bool.false_eq_true, if_false, if_true] at hb hlt
        linarith
  refine ⟨(if_pos hr).trans hopt, fun values hv => ?_⟩
  have hv' : r.world.primal = .ok values := (if_pos hr).symm.trans hv
  obtain ⟨hpl, hpv⟩ := primal_spec hv'
  obtain ⟨hf1, hf2, hf3⟩ := r.world.lp.program.congr hpv
  obtain ⟨h1, h2, h3⟩ := hans.1 hopt
  refine ⟨hpl.trans hlen, hout _ (hf1.2 h1), fun z hz => ?_⟩
  have := h3 z (hin z hz)
  rw [hsense, ← hf2, hval, hval] at this
  cases hm : p.isMaximization <;> simp only [hm, Bool.false_eq_true, if_false, if_true] at this ⊢ <;> linarith

/-- The LP of the root is feasible and bounded, and no optimal point of it is accepted as integral. -/
theorem root_fractional {e : Engine} {p : Problem} (hp : p.WellFormed) (hB : Bounded p)
    (hfeas : ∃ y, p.RelaxedFeasible y) {c : Setup.Created} (hfrac : FractionalOptima p (params c).tol)
    (hd : c.data.Represents p) (h₀ : Refines (start c.lpi).program p.relaxation) {r : Runner World}
    (hr : PlainGlop (start c.lpi).program r)
    (hans : RightAnswer r.world.lp.program (r.world.lp.isOptimal = true) r.world.report)
    (hbd : ∀ x, InBounds c.data bounds r x ↔ InRootBounds c.data x) :
    (guard (oracle e c) (PlainGlop (start c.lpi).program)).isOptimal r = true ∧
      ∀ values, (guard (oracle e c) (PlainGlop (start c.lpi).program)).primal r = .ok values →
        c.data.solutionIsIntegral values (params c).tol ≠ .ok true := by
  obtain ⟨hopt, hv'⟩ := root_optimal (e := e) hp hB hfeas hd h₀ hr hans hbd
  refine ⟨hopt, fun values hv hint => ?_⟩
  obtain ⟨hlv, h1, h2⟩ := hv' values hv
  obtain ⟨n, v, hvar, hi, hk⟩ := hfrac (point values) h1 h2
  obtain ⟨b, h4, h5⟩ := MipData.allIntegral_iff values (params c).tol c.data.integerVariables
    (fun j hj => by rw [hlv]; exact (Solver.dataOk_of_represents hd).ints j hj)
  have hb : b = true := Outcome.ok.inj (h4.symm.trans hint)
  have hlt : n < values.length := by
    rw [hlv, hd.lower]; simpa using (List.getElem?_eq_some_iff.1 hvar).1
  have hx : values[n]? = some values[n] := by simp [hlt]
  obtain ⟨k, hk'⟩ := h5.1 hb n _ ((hd.integers n).2 ⟨n, v, hvar, hi, rfl⟩) hx
  rw [← Solver.point_eq hx] at hk'
  exact absurd hk' (not_le.2 (hk k))

/-- With the random rule, `Solve` does not end on a whole class of problems: for every well-formed problem with
integer variables behind enough continuous ones, a bounded feasible relaxation and no optimal point of that
accepted as integral, with Glop, without cuts and whatever is drawn. -/
theorem C76_random_never_ends {e : Engine} (he : e.Right) (hret : e.GlopReturns) {x : Setup.External} {p : Problem}
    (hp : p.WellFormed) (hB : Bounded p) (hfeas : ∃ y, p.RelaxedFeasible y) {user : Setup.ParamsMsg}
    (hfrac : FractionalOptima p (user.integralityTolerance.getD (1 / 10 ^ 6))) (hlast : IntegersLast p)
    {c : Setup.Created} (h : Setup.create x p user = .ok c) (hl : ∃ s g, c.lpi = .glop s g)
    (hn : NoCuts c.runner.params) (htol : 0 ≤ user.integralityTolerance.getD (1 / 10 ^ 6))
    (hrule : ∃ seed dir, c.rule = .random seed dir) (fuel : Nat) : solve e c fuel = none := by
  obtain ⟨hd, h₀⟩ := created_refines hp h
  obtain ⟨-, -, -, -, -, h6, -⟩ := Setup.create_ok h
  rw [← h6] at htol hfrac
  have hlen₀ : (start c.lpi).program.cols.length = c.data.lower.length := by
    rw [h₀.numCols, hd.lower, List.length_map]; rfl
  have hs := primalShape (e := e) (c := c) (Good' := PlainGlop (start c.lpi).program)
    (lp₀ := (start c.lpi).program) (fun _ h => h.good)
  rw [hlen₀] at hs
  have hg : PlainGlop (start c.lpi).program { world := { lp := start c.lpi } } := by
    obtain ⟨s, g, hl⟩ := hl
    exact ⟨plain_start c, by rw [hl]; exact ⟨_, rfl⟩⟩
  have heq : solve e c fuel = Solver.solveFuel (guard (oracle e c) (PlainGlop (start c.lpi).program)) c.data
      (params c) fuel (Solver.initial { world := { lp := start c.lpi } }) :=
    (Solver.guard_solveFuel (keeps_plainGlop hn) _ _ (by exact hg)).symm
  rw [heq]
  refine Solver.never_ends (Solver.dataOk_of_represents hd) hs (contract_right he hn)
    (responsive hret hn hd htol h₀) (by exact hg) (startsAt hd h₀) ?_ ?_ fuel
  · intro r r' col up hb hcol
    by_cases hr : PlainGlop (start c.lpi).program r
    · have hb' : (oracle e c).branch r = .ok (r', col, up) := (if_pos hr).symm.trans hb
      obtain ⟨seed, dir, hrule⟩ := hrule
      simp only [oracle, branch, hrule, Outcome.bind_eq_ok] at hb'
      obtain ⟨⟨w, col', up'⟩, ⟨⟨col'', up''⟩, h1, h2⟩, h3⟩ := hb'
      have e1 : col'' = col' := congrArg (·.2.1) (Outcome.ok.inj h2)
      have e2 : col' = col := congrArg (·.2.1) (Outcome.ok.inj h3)
      subst e1 e2
      unfold Branching.random at h1
      split at h1
      · rename_i hne
        have h1 := Outcome.ok.inj h1
        have hc : col'' = ((e.draw r.world.draws % c.data.integerVariables.length : Nat) : Int) :=
          (congrArg Prod.fst h1).symm
        obtain ⟨n, v, hv, hi, hcn⟩ := (hd.integers col'').1 hcol
        have h4 := hlast n v hv hi
        have h5 := integers_count hd
        have h6 := Nat.mod_lt (e.draw r.world.draws) hne
        omega
      · cases h1
    · have hb' := (if_neg hr).symm.trans hb
      have hc : (0 : Int) = col := congrArg (·.2.1) (Outcome.ok.inj hb')
      obtain ⟨n, v, hv, hi, hcn⟩ := (hd.integers col).1 hcol
      have h4 := hlast n v hv hi
      have : 0 < (p.vars.filter (·.isInteger)).length :=
        List.length_pos_of_mem (List.mem_filter.2 ⟨List.mem_of_getElem? hv, hi⟩)
      omega
  · rintro r ⟨hr, hans⟩ hbd
    exact root_fractional hp hB hfeas hfrac hd h₀ hr hans hbd

/-- `max x`, `-1 ≤ 2 x ≤ 1`, `0 ≤ x ≤ 1` integer, behind a continuous variable. -/
def behind : Problem := Solver.Line.problem { l := 0, u := 1, a := -1, b := 1, max := true }

theorem behind_spec : behind.WellFormed ∧ FiniteIntegers behind ∧ Bounded behind ∧ behind.Feasible (fun _ => 0) ∧
    FractionalOptima behind (1 / 10 ^ 6) ∧ IntegersLast behind := by
  have hfe : ∀ y, behind.RelaxedFeasible y → 0 ≤ y 1 ∧ 2 * y 1 ≤ 1 := by
    rintro y ⟨h1, h2⟩
    have e1 := h1 1 _ rfl
    have e2 := h2 _ (List.mem_singleton.2 rfl)
    rw [Solver.Line.activity _ _ _ (List.mem_singleton.2 rfl)] at e2
    simp only [Between, Dbl.le_fin] at e1 e2
    exact ⟨e1.1, e2.2⟩
  have hrel : ∀ q : ℚ, 0 ≤ q → 2 * q ≤ 1 → behind.RelaxedFeasible fun j => if j = 1 then q else 0 := by
    intro q h0 h1
    constructor
    · intro n v hv
      match n with
      | 0 => simp [behind, Solver.Line.problem] at hv; subst hv; simp [Between]
      | 1 =>
        simp [behind, Solver.Line.problem] at hv
        subst hv
        simp [Between]
        exact ⟨h0, by linarith⟩
      | n + 2 => simp [behind, Solver.Line.problem] at hv
    · intro k hk
      rw [Solver.Line.activity _ _ _ hk]
      simp [behind, Solver.Line.problem] at hk
      subst hk
      simp [Between]
      constructor <;> linarith
  have hobj : ∀ y, behind.userObjective y = y 1 := fun y =>
    (Solver.Line.userObjective _ y).trans (add_zero _)
  have hmx : behind.isMaximization = true := rfl
  refine ⟨Solver.Line.wellFormed (by norm_num) (by norm_num), ?_, ⟨1, ?_⟩, ⟨?_, ?_⟩, ?_, ?_⟩
  · intro v hv hi
    simp [behind, Solver.Line.problem] at hv
    rcases hv with rfl | rfl
    · simp at hi
    · exact ⟨_, _, rfl, rfl⟩
  · intro y hy
    have := hfe y hy
    rw [hobj, if_pos hmx]
    linarith
  · intro n v hv
    have := (hrel 0 (by norm_num) (by norm_num)).1 n v hv
    refine ⟨by simpa using this, fun _ => ⟨0, by simp⟩⟩
  · intro k hk
    have := (hrel 0 (by norm_num) (by norm_num)).2 k hk
    simpa using this
  · intro y hy hmax
    have h1 := hfe y hy
    have h2 := hmax _ (hrel (1 / 2) (by norm_num) (by norm_num))
    rw [if_pos hmx, hobj, hobj, if_pos rfl] at h2
    have h3 : y 1 = 1 / 2 := by linarith
    refine ⟨1, _, rfl, rfl, fun k => ?_⟩
    rw [show y ((1 : Nat) : Int) = 1 / 2 from h3]
    by_contra hk
    have hk := abs_le.1 (not_lt.1 hk)
    have k1 : (k : ℚ) < 1 := by linarith [hk.1]
    have k2 : (0 : ℚ) < k := by linarith [hk.2]
    have k1 : k < 1 := by exact_mod_cast k1
    have k2 : 0 < k := by exact_mod_cast k2
    omega
  · intro n v hv hi
    match n with
    | 0 => simp [behind, Solver.Line.problem] at hv; subst hv; simp at hi
    | n + 1 => simp [behind, Solver.Line.problem]

/-- Random branching, without cuts. -/
def randomUser : Setup.ParamsMsg where
  cutRunner := some { defaultRunner := some { maxIterations := some 0 } }
  branching := some { rule := some (.random none) }

theorem randomUser_created (x : Setup.External) {p : Problem} (hp : p.WellFormed) :
    (∃ c, Setup.create x p randomUser = .ok c) ∧ ∀ c, Setup.create x p randomUser = .ok c →
      (∃ s g, c.lpi = .glop s g) ∧ NoCuts c.runner.params ∧ ∃ seed dir, c.rule = .random seed dir := by
  refine ⟨?_, fun c hc => ?_⟩
  · exact (Setup.C73_glop_partial x p hp randomUser _ (Setup.lpWins _) rfl).1
      (by refine ⟨⟨?_, ?_, ?_, ?_, ?_, ?_, ?_, ?_⟩, rfl, ?_, ?_, rfl, rfl⟩ <;>
        simp [randomUser, Setup.LpMsg.read, ToleranceOk])
  · obtain ⟨-, -, -, hmi, -, -, -, ⟨dir, -, hrule, -⟩, -⟩ :=
      Setup.C58_user_wins_partial x p hp randomUser c hc
    obtain ⟨seed, -, hs⟩ := hrule _ rfl
    exact ⟨created_glop hc rfl, Or.inl (by rw [hmi.1 0 rfl]), seed, dir, hs⟩

/-- **C76 fails with the random rule.**  `max x`, `-1 ≤ 2 x ≤ 1`, `0 ≤ x ≤ 1` integer, behind a continuous variable:
whatever LP code that answers rightly and whatever is drawn, `Solve` does not end. -/
theorem C76_random_violated :
    (behind.WellFormed ∧ FiniteIntegers behind ∧ Bounded behind ∧ behind.Feasible (fun _ => 0)) ∧
    ∀ x, (∃ c, Setup.create x behind randomUser = .ok c) ∧ ∀ c, Setup.create x behind randomUser = .ok c →
      ∀ e : Engine, e.Right → e.GlopReturns → ∀ fuel, solve e c fuel = none := by
  obtain ⟨h1, h2, h3, h4, h5, h6⟩ := behind_spec
  refine ⟨⟨h1, h2, h3, h4⟩, fun x => ⟨(randomUser_created x h1).1, fun c hc e he hret fuel => ?_⟩⟩
  obtain ⟨hl, hn, hr⟩ := (randomUser_created x h1).2 c hc
  exact C76_random_never_ends (user := randomUser) he hret h1 h3 ⟨_, fun n v hv => (h4.1 n v hv).1, h4.2⟩ h5 h6 hc hl hn
    (by norm_num [randomUser]) hr fuel

end Program
end MiniMip
