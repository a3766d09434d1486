import Verif.Props.ProgramApprox
import Verif.Props.ProgramWitness

/-!
# C90: LP code with tolerances beyond the integrality tolerance

`Solve` need not end if the LP code may be wrong by more than the integrality tolerance: not on a single contrived problem, but
on every problem whose relaxation has an integral optimum.
-/

namespace MiniMip
namespace Solver

variable {W : Type}

/-- `Solve` does not end if every LP whose box contains the integer point `z` is optimal, with a point that is not accepted as
integral and is `z` when rounded down. -/
theorem never_leaves {o : Oracle W} {d : MipData} {prm : Params} {Good : W → Prop}
    {bounds : W → Int → Dbl × Dbl} {Answer : W → Prop} {w : W} (hd : DataOk d)
    (hp : PrimalShape o d.lower.length) (hc : Contract o Good bounds Answer) (hresp : Responsive o d prm)
    (hg : Good w) (hs : StartsAt d bounds w) (z : Nat → Int)
    (hnode : ∀ (b : Box) (w : W), Answer w → (∀ n : Nat, (n : Int) ∈ d.integerVariables → b n (z n)) →
      (∀ x, InBounds d bounds w x ↔ InRootBounds d x ∧ InBox d b x) → o.isOptimal w = true ∧
      ∀ values, o.primal w = .ok values → d.solutionIsIntegral values prm.tol ≠ .ok true ∧
        ∀ (n : Nat) (v : ℚ), (n : Int) ∈ d.integerVariables → values[n]? = some v → ⌊v⌋ = z n) (fuel : Nat) :
    solveFuel o d prm fuel (initial w) = none := by
  have hroot : ∀ w, Answer w → (∀ x, InBounds d bounds w x ↔ InRootBounds d x) → o.isOptimal w = true ∧
      ∀ values, o.primal w = .ok values → d.solutionIsIntegral values prm.tol ≠ .ok true := by
    intro w ha hx
    obtain ⟨h1, h2⟩ := hnode (fun _ _ => True) w ha (fun _ _ => trivial) fun x => by
      rw [hx x]; exact ⟨fun h => ⟨h, fun _ _ => trivial⟩, fun h => h.1⟩
    exact ⟨h1, fun values hv => (h2 values hv).1⟩
  have inv : ∀ s, Reach o d prm (initial w) s → ∃ bs sols, Inv d Good bounds s bs sols ∧
      ∃ b ∈ bs, ∀ n : Nat, (n : Int) ∈ d.integerVariables → b n (z n) := by
    intro s h
    induction h with
    | refl =>
      obtain ⟨b, hb, hi⟩ := inv_init (d := d) hg hs
      exact ⟨_, _, hi, b, by simp, fun n _ => hb n _⟩
    | step _ hstep ih =>
      obtain ⟨bs, sols, hi, b0, hb0, hz⟩ := ih
      obtain ⟨bs', sols', hi', ht⟩ := (iterate_trans hd hp hc hi).1 _ hstep
      refine ⟨bs', sols', hi', ?_⟩
      cases ht with
      | drop h1 h2 h3 h4 =>
        rcases List.mem_cons.1 (h1.mem_iff.1 hb0) with rfl | hb0
        · rw [(hnode _ _ h2 hz h3).1] at h4; cases h4
        · exact ⟨b0, hb0, hz⟩
      | record h1 h2 h3 h4 h5 h6 =>
        rcases List.mem_cons.1 (h1.mem_iff.1 hb0) with rfl | hb0
        · exact absurd h6 ((hnode _ _ h2 hz h3).2 _ h5).1
        · exact ⟨b0, hb0, hz⟩
      | split h1 h2 h3 h4 h5 h6 h7 h8 =>
        rename_i b bs1 w w' values col up v
        rcases List.mem_cons.1 (h1.mem_iff.1 hb0) with rfl | hb0
        · have hchild : ∀ n : Nat, (n : Int) ∈ d.integerVariables → childBox b0 col v true n (z n) := by
            intro n hn
            refine ⟨hz n hn, fun h => ?_⟩
            subst h
            rw [if_pos rfl, ((hnode _ _ h2 hz h3).2 _ h5).2 _ _ hn h8]
          cases up with
          | true => exact ⟨_, by simp, hchild⟩
          | false => exact ⟨_, by simp, hchild⟩
        · exact ⟨b0, by simp [hb0], hz⟩
  have again : ∀ s, Reach o d prm (initial w) s → ∃ s', iterate o d prm s = .ok (.again s') := by
    intro s h
    obtain ⟨bs, sols, hi, b, hb, -⟩ := inv s h
    obtain ⟨-, hstop, herr⟩ := iterate_trans (prm := prm) hd hp hc hi
    rcases C38_never_aborts hd hp hresp h with ⟨res, hres⟩ | hres
    · cases res with
      | again s' => exact ⟨s', hres⟩
      | stop s' =>
        obtain ⟨sols', -, hf⟩ := hstop s' hres
        cases hf with
        | empty => simp at hb
        | root ha hx _ hv hint => exact absurd hint ((hroot _ ha hx).2 _ hv)
    · obtain ⟨w, ha, hopt, hx⟩ := herr _ hres
      rw [(hroot w ha hx).1] at hopt; cases hopt
  have gen : ∀ fuel s, Reach o d prm (initial w) s → solveFuel o d prm fuel s = none := by
    intro fuel
    induction fuel with
    | zero => intro s _; rfl
    | succ n ih =>
      intro s h
      obtain ⟨s', hs'⟩ := again s h
      unfold solveFuel
      rw [hs']
      exact ih s' (h.step hs')
  exact gen fuel _ .refl

end Solver

namespace Program

open Glop (LinearProgram Refines Extends)
open Solver (Contract guard point InBounds InRootBounds)

/-- LP code that reports the point `y` whenever this is right up to tolerances, and solves all other LPs exactly. -/
noncomputable def insisting (eps delta : ℚ) (y : Nat → ℚ) : Engine :=
  open Classical in
  { perfect with
    glop := fun n s =>
      if ApproximateAnswer s.iface.lp eps delta True
          { objective := .fin (s.iface.lp.value fun j => y j.toNat), primal := some y } then
        ((perfect.glop n s).1, .optimal, false,
          { objective := .fin (s.iface.lp.value fun j => y j.toNat), primal := some y })
      else perfect.glop n s }

theorem insisting_spec {eps delta : ℚ} (h1 : 0 ≤ eps) (h2 : 0 ≤ delta) (y : Nat → ℚ) :
    (insisting eps delta y).Approximate eps delta ∧ (insisting eps delta y).GlopReturns := by
  have hp := perfect_spec.1.approximate h1 h2
  refine ⟨⟨fun n s => ?_, hp.soplex⟩, fun n s k => ?_⟩
  · unfold insisting
    dsimp only
    split
    · rename_i h
      exact ⟨fun _ => h.1 trivial, fun hn => absurd rfl hn⟩
    · exact hp.glop n s
  · unfold insisting
    dsimp only
    split <;> exact perfect_spec.2 n s k

/-- What `insisting` answers. -/
theorem insisting_solve {eps delta : ℚ} {y : Nat → ℚ} {w w' : World} (hl : ∃ s, w.lp = .glop s)
    (h : w.solve (insisting eps delta y) = .ok w') :
    ApproximateAnswer w'.lp.program eps delta True
        { objective := .fin (w'.lp.program.value fun j => y j.toNat), primal := some y } →
      w'.lp.isOptimal = true ∧ w'.report.point = fun j => y j.toNat := by
  obtain ⟨s, hl⟩ := hl
  obtain ⟨h1, -, -, h2⟩ := solve_world h
  rw [hl] at h2
  intro ha
  rw [h1, hl] at ha
  have ha : ApproximateAnswer s.iface.lp eps delta True
    { objective := .fin (s.iface.lp.value fun j => y j.toNat), primal := some y } := ha
  simp only [insisting, if_pos ha] at h2
  exact ⟨h2.2.2 trivial, by rw [h2.1]; rfl⟩

/-- The point `y` satisfies the constraints up to `eps` and is the integral point `z` up to `eps` in every variable; the
objective values are equal up to `delta`; and rounded down, the integer variables of `y` are those of `z`. -/
structure CloseAbove (p : Problem) (eps delta : ℚ) (z y : Int → ℚ) : Prop where
  vars : ∀ n : Nat, n < p.vars.length → |y n - z n| ≤ eps
  rows : ∀ k ∈ p.constraints, BetweenUpTo eps k.lhs (k.activity y) k.rhs
  objective : |p.userObjective y - p.userObjective z| ≤ delta
  floor : ∀ (n : Nat) (v : Variable), p.vars[n]? = some v → v.isInteger = true → (⌊y n⌋ : ℚ) = z n

/-- **C90, why the tolerance must be bounded.**  Take any well-formed problem whose relaxation has an optimal point `z` that
is feasible for the problem, and a point `y` close to `z` with an integer variable that is not integral within the
tolerance.  There is LP code that is right up to `eps` and `delta`, and returns from every call, on which `Solve` does
not end, with Glop, the max-fractional rule and without cuts. -/
theorem C90_never_ends {x : Setup.External} {p : Problem} (hp : p.WellFormed) {user : Setup.ParamsMsg} {eps delta : ℚ}
    (heps : 0 ≤ eps) (hdelta : 0 ≤ delta) {z y : Int → ℚ} (hz : p.Feasible z)
    (hbest : ∀ t, p.RelaxedFeasible t →
      if p.isMaximization then p.userObjective t ≤ p.userObjective z else p.userObjective z ≤ p.userObjective t)
    (hy : CloseAbove p eps delta z y)
    (hfrac : ∃ (n : Nat) (v : Variable), p.vars[n]? = some v ∧ v.isInteger = true ∧
      ∀ k : Int, user.integralityTolerance.getD (1 / 10 ^ 6) < |y n - k|)
    {c : Setup.Created} (h : Setup.create x p user = .ok c) (hl : ∃ s g, c.lpi = .glop s g)
    (hn : NoCuts c.runner.params) (htol : 0 ≤ user.integralityTolerance.getD (1 / 10 ^ 6)) :
    ∃ e : Engine, e.Approximate eps delta ∧ e.GlopReturns ∧ ∀ fuel, solve e c fuel = none := by
  obtain ⟨ha, hret⟩ := insisting_spec heps hdelta (fun n => y n)
  refine ⟨insisting eps delta fun n => y n, ha, hret, fun fuel => ?_⟩
  set e := insisting eps delta fun n => y n with he
  obtain ⟨hd, h₀⟩ := created_refines hp h
  obtain ⟨-, -, -, -, -, h6, -⟩ := Setup.create_ok h
  rw [← h6] at htol hfrac
  have hdk := Solver.dataOk_of_represents hd
  have hlen₀ : (start c.lpi).program.cols.length = c.data.lower.length := by
    rw [h₀.numCols, hd.lower, List.length_map]; rfl
  have hs := primalShape (e := e) (c := c) (Good' := PlainGlop (start c.lpi).program)
    (lp₀ := (start c.lpi).program) (fun _ h => h.good)
  rw [hlen₀] at hs
  have hg : PlainGlop (start c.lpi).program { world := { lp := start c.lpi } } := by
    obtain ⟨s, g, hl⟩ := hl
    exact ⟨plain_start c, by rw [hl]; exact ⟨_, rfl⟩⟩
  have heq : solve e c fuel = Solver.solveFuel (guard (oracle e c) (PlainGlop (start c.lpi).program)) c.data
      (params c) fuel (Solver.initial { world := { lp := start c.lpi } }) :=
    (Solver.guard_solveFuel (keeps_plainGlop hn) _ _ (by exact hg)).symm
  rw [heq]
  have hzi : ∀ n : Nat, (n : Int) ∈ c.data.integerVariables → (⌊y n⌋ : ℚ) = z n := by
    intro n hn
    obtain ⟨m, v, h1, h2, h3⟩ := (hd.integers n).1 hn
    obtain rfl : n = m := by exact_mod_cast h3
    exact hy.floor n v h1 h2
  have hroot : ∀ t, InRootBounds c.data t ↔
      ∀ (n : Nat) (v : Variable), p.vars[n]? = some v → Between v.lower (t n) v.upper := by
    intro t
    constructor
    · intro h n v hv
      exact h n v.lower v.upper (by rw [hd.lower]; simp [hv]) (by rw [hd.upper]; simp [hv])
    · intro h n l u h1 h2
      rw [hd.lower, List.getElem?_map] at h1
      rw [hd.upper, List.getElem?_map] at h2
      cases hv : p.vars[n]? with
      | none => rw [hv] at h1; cases h1
      | some v =>
        rw [hv] at h1 h2
        cases h1
        cases h2
        exact h n v hv
  refine Solver.never_leaves hdk hs (contract_answer (A := fun lp opt rep =>
      ApproximateAnswer lp eps delta True
        { objective := .fin (lp.value fun j => y j.toNat), primal := some fun n => y n } →
      opt ∧ rep.point = fun j => y j.toNat) (fun _ _ hl h => insisting_solve hl h) hn)
    (responsive hret hn hd htol h₀) (by exact hg) (startsAt hd h₀) (fun n => ⌊y n⌋) ?_ fuel
  rintro b r ⟨hr, hA⟩ hb hx
  have hsense : r.world.lp.program.maximize = false := by rw [hr.good.sense, h₀.sense]; rfl
  have hlen : r.world.lp.program.cols.length = c.data.lower.length := by
    rw [hr.good.numCols]; exact hlen₀
  have hval : ∀ t, r.world.lp.program.value t =
      if p.isMaximization then -(p.userObjective t - p.offset) else p.userObjective t - p.offset := fun t => by
    rw [hr.good.value, h₀.value, (relaxation_points p hp t).2]
  have hrow : ∀ (i : Nat) (row : Glop.Row), r.world.lp.program.rows[i]? = some row → ∃ k, p.constraints[i]? = some k ∧
      row.lhs = k.lhs ∧ row.rhs = k.rhs ∧ ∀ t, r.world.lp.program.activity i t = k.activity t := by
    intro i row hi
    have hlt := (List.getElem?_eq_some_iff.mp hi).1
    rw [hr.numRows] at hlt
    have hlt' : i < p.relaxation.numRows := by rw [← h₀.numRows]; exact hlt
    have hk : p.constraints[i]? = some p.constraints[i] := List.getElem?_eq_getElem hlt'
    obtain ⟨extra, hex⟩ := hr.good.rows
    rw [hex, List.getElem?_append_left hlt] at hi
    obtain ⟨e1, e2⟩ := h₀.rows i row hi
    refine ⟨_, hk, by rw [e1]; simp [Problem.relaxation, hk], by rw [e2]; simp [Problem.relaxation, hk], fun t => ?_⟩
    rw [hr.good.activity hlt, h₀.activity hlt', relaxation_activity hp hk]
  have hout : ∀ t, r.world.lp.program.Feasible t → p.RelaxedFeasible t := by
    intro t ht
    refine ⟨(hroot t).1 ((hx t).1 (inBounds_of hlen ht.1)).1, fun k hk => ?_⟩
    obtain ⟨i, hi⟩ := List.getElem?_of_mem hk
    have hlt : i < p.relaxation.numRows := (List.getElem?_eq_some_iff.mp hi).1
    have hlt' : i < r.world.lp.program.rows.length := by rw [hr.numRows, h₀.numRows]; exact hlt
    have h4 := ht.2 i _ (List.getElem?_eq_getElem hlt')
    obtain ⟨k', hk', e1, e2, e3⟩ := hrow i _ (List.getElem?_eq_getElem hlt')
    rw [hi] at hk'
    cases hk'
    rwa [e1, e2, e3] at h4
  have hzin : r.world.lp.program.Feasible z := by
    have hzb : InBounds c.data bounds r z := (hx z).2
      ⟨(hroot z).2 fun n v hv => (hz.1 n v hv).1, fun n hn => by rw [← hzi n hn]; exact hb n hn⟩
    refine rows_hold hp h₀ hr.good hr.numRows hz.2 fun n col hcol => ?_
    have hlt := (List.getElem?_eq_some_iff.mp hcol).1
    have := hzb n (by rw [← hlen]; exact hlt)
    rw [bounds_nat, hcol] at this
    exact this
  have hpt : ∀ n : Nat, (fun j : Int => y (j.toNat : Int)) n = y n := fun n => by simp
  obtain ⟨hvy, -⟩ := And.intro (r.world.lp.program.congr (x := fun j : Int => y (j.toNat : Int)) (y := y)
    fun n _ => hpt n) trivial
  have happ : ApproximateAnswer r.world.lp.program eps delta True
      { objective := .fin (r.world.lp.program.value fun j => y j.toNat), primal := some fun n => y n } := by
    refine ⟨fun _ => ⟨NearlyFeasible.congr (y := y) (fun n _ => hpt n) ⟨⟨z, hzin.1, fun n hn => ?_⟩,
      fun i row hi => ?_⟩, _, rfl, ?_, fun t ht => ?_⟩, fun hn => absurd trivial hn⟩
    · refine hy.vars n ?_
      rw [hlen, hd.lower, List.length_map] at hn
      exact hn
    · obtain ⟨k, hk, e1, e2, e3⟩ := hrow i row hi
      rw [e1, e2, e3]
      exact hy.rows k (List.mem_of_getElem? hk)
    · show |r.world.lp.program.value (fun j => y j.toNat) - r.world.lp.program.value fun j => y j.toNat| ≤ delta
      rw [sub_self, abs_zero]; exact hdelta
    · rw [hsense, if_neg (by simp), hvy.2.1, hval, hval]
      have h1 := hbest t (hout t ht)
      have h2 := abs_le.1 hy.objective
      cases hm : p.isMaximization <;> simp only [hm, Bool.false_eq_true, if_false, if_true] at h1 ⊢ <;> linarith [h2.1, h2.2]
  obtain ⟨hopt, hrep⟩ := hA happ
  refine ⟨(if_pos hr).trans hopt, fun values hv => ?_⟩
  have hv' : r.world.primal = .ok values := (if_pos hr).symm.trans hv
  obtain ⟨hpl, hpv⟩ := primal_spec hv'
  rw [hlen] at hpl hpv
  have hat : ∀ (n : Nat) (v : ℚ), values[n]? = some v → v = y n := by
    intro n v hnv
    have hlt := (List.getElem?_eq_some_iff.1 hnv).1
    rw [← Solver.point_eq hnv, hpv n (by omega), hrep]
    exact hpt n
  refine ⟨fun hint => ?_, fun n v _ hnv => by rw [hat n v hnv]⟩
  obtain ⟨n, v, hvar, hi, hk⟩ := hfrac
  obtain ⟨b', h4, h5⟩ := MipData.allIntegral_iff values (params c).tol c.data.integerVariables
    (fun j hj => by rw [hpl]; exact hdk.ints j hj)
  have hb' : b' = true := Outcome.ok.inj (h4.symm.trans hint)
  have hlt : n < values.length := by
    rw [hpl, hd.lower]; simpa using (List.getElem?_eq_some_iff.1 hvar).1
  have hx' : values[n]? = some values[n] := by simp [hlt]
  obtain ⟨k, hk'⟩ := h5.1 hb' n _ ((hd.integers n).2 ⟨n, v, hvar, hi, rfl⟩) hx'
  rw [hat n _ hx'] at hk'
  exact absurd hk' (not_le.2 (hk k))

/-- `min x`, `-10 ≤ 2 x ≤ 10`, `0 ≤ x ≤ 1` integer, behind a continuous variable. -/
def stuckLine : Solver.Line := { l := 0, u := 1, a := -10, b := 10 }

/-- The max-fractional rule with an integrality tolerance, without cuts. -/
def withinUser (tol : ℚ) : Setup.ParamsMsg :=
  { integralityTolerance := some tol, cutRunner := some { defaultRunner := some { maxIterations := some 0 } } }

/-- **C90: the bound on the error of the LP code is sharp.**  Whatever the integrality tolerance below one half: if the LP code may be
wrong by more than that, `Solve` need not end, although the relaxation has an integral optimum. -/
theorem C90_ends_violated (tol eps : ℚ) (h0 : 0 ≤ tol) (h1 : tol < 1 / 2) (h2 : tol < eps) :
    (stuckLine.problem.WellFormed ∧ FiniteIntegers stuckLine.problem ∧ Bounded stuckLine.problem ∧
      stuckLine.problem.Feasible (fun _ => 0)) ∧
    ∀ x, ∃ c dir, Setup.create x stuckLine.problem (withinUser tol) = .ok c ∧ c.rule = .maxFractional dir ∧
      ∃ e : Engine, e.Approximate eps eps ∧ e.GlopReturns ∧ ∀ fuel, solve e c fuel = none := by
  let p := stuckLine.problem
  have hw : p.WellFormed := Solver.Line.wellFormed (by norm_num [stuckLine]) (by norm_num [stuckLine])
  have hobj : ∀ t, p.userObjective t = t 1 := fun t => (Solver.Line.userObjective _ t).trans (add_zero _)
  have hmx : p.isMaximization = false := rfl
  have hact : ∀ t, ∀ k ∈ p.constraints, k.activity t = 2 * t 1 ∧ k.lhs = .fin (-10) ∧ k.rhs = .fin 10 := by
    intro t k hk
    refine ⟨Solver.Line.activity _ _ _ hk, ?_⟩
    simp [p, Solver.Line.problem, stuckLine] at hk
    subst hk
    exact ⟨rfl, rfl⟩
  have hvars : ∀ (n : Nat) (v : Variable), p.vars[n]? = some v →
      (n = 0 ∧ v.isInteger = false ∨ n = 1) ∧ v.lower = .fin 0 ∧ ∃ u : ℚ, v.upper = .fin u ∧ 0 ≤ u := by
    intro n v hv
    match n with
    | 0 => simp [p, Solver.Line.problem] at hv; subst hv; exact ⟨.inl ⟨rfl, rfl⟩, rfl, _, rfl, by norm_num⟩
    | 1 => simp [p, Solver.Line.problem, stuckLine] at hv; subst hv; exact ⟨.inr rfl, rfl, _, rfl, by norm_num⟩
    | n + 2 => simp [p, Solver.Line.problem] at hv
  have hlow : ∀ t, p.RelaxedFeasible t → 0 ≤ t 1 := by
    rintro t ⟨e1, -⟩
    have := e1 1 _ rfl
    simp only [Between, Dbl.le_fin] at this
    exact this.1
  have hfi : FiniteIntegers p := by
    intro v hv hi
    simp [p, Solver.Line.problem] at hv
    rcases hv with rfl | rfl
    · simp at hi
    · exact ⟨_, _, rfl, rfl⟩
  have hB : Bounded p := ⟨0, fun t ht => by
    rw [hobj, hmx, if_neg (by simp)]
    exact hlow t ht⟩
  have hz : p.Feasible (fun _ => 0) := by
    refine ⟨fun n v hv => ?_, fun k hk => ?_⟩
    · obtain ⟨-, e1, u, e2, e3⟩ := hvars n v hv
      refine ⟨?_, fun _ => ⟨0, by simp⟩⟩
      rw [e1, e2]
      simpa [Between] using e3
    · obtain ⟨e1, e2, e3⟩ := hact (fun _ => 0) k hk
      rw [e1, e2, e3]
      norm_num [Between]
  refine ⟨⟨hw, hfi, hB, hz⟩, fun x => ?_⟩
  obtain ⟨c, hc⟩ := (Setup.C73_glop_partial x p hw (withinUser tol) _ (Setup.lpWins _) rfl).1
    (by refine ⟨⟨?_, ?_, ?_, ?_, ?_, ?_, ?_, ?_⟩, rfl, ?_, ?_, rfl, rfl⟩ <;>
      simp [withinUser, Setup.LpMsg.read, ToleranceOk])
  obtain ⟨hn, dir, hrule⟩ := rule_of hw hc ⟨0, le_rfl, rfl⟩ (by intro s h; cases h)
  refine ⟨c, dir, hc, hrule, ?_⟩
  let shift := min eps (1 / 2)
  have s0 : 0 ≤ shift := le_min (by linarith) (by norm_num)
  have s1 : tol < shift := lt_min h2 h1
  have s2 : shift ≤ 1 / 2 := min_le_right _ _
  have s3 : shift ≤ eps := min_le_left _ _
  have hfl : ⌊shift⌋ = 0 := by rw [Int.floor_eq_iff]; constructor <;> push_cast <;> linarith
  refine C90_never_ends (user := withinUser tol) hw (by linarith) (by linarith) hz ?_ (y := fun j => if j = 1 then shift else 0)
    ⟨fun n _ => ?_, fun k hk => ?_, ?_, fun n v hv hi => ?_⟩ ?_ hc (created_glop hc rfl) hn h0
  · intro t ht
    rw [hobj, hobj, hmx, if_neg (by simp)]
    exact hlow t ht
  · rw [sub_zero]
    split
    · rw [abs_of_nonneg s0]; exact s3
    · rw [abs_zero]; linarith
  · obtain ⟨e1, e2, e3⟩ := hact (fun j => if j = 1 then shift else 0) k hk
    rw [e1, e2, e3]
    simp only [BetweenUpTo, Dbl.le_fin, if_true]
    constructor <;> linarith
  · rw [hobj, hobj, if_pos rfl, sub_zero, abs_of_nonneg s0]
    exact s3
  · obtain ⟨(⟨-, e1⟩ | rfl), -⟩ := hvars n v hv
    · rw [e1] at hi; cases hi
    · simp [hfl]
  · refine ⟨1, _, rfl, rfl, fun k => ?_⟩
    simp only [Nat.cast_one, if_true, withinUser, Option.getD_some]
    rcases le_or_gt k 0 with hk | hk
    · have : (k : ℚ) ≤ 0 := by exact_mod_cast hk
      exact lt_of_lt_of_le (by linarith) (le_abs_self _)
    · have : (1 : ℚ) ≤ k := by exact_mod_cast hk
      exact lt_of_lt_of_le (by linarith) (neg_le_abs _)

end Program
end MiniMip
