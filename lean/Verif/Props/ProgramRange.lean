import Verif.Props.SolverRange
import Verif.Props.ProgramTotal
import Verif.Props.ProgramWitness

/-!
# C104: integer variables without finite bounds

C76 and C78 ask for finite bounds of the integer variables.  What they need is less: that the constraints keep the
integer variables in a finite range.  And where they do not, `Solve` may run for ever on a problem with an optimum.
-/

namespace MiniMip
namespace Solver

variable {W : Type}

/-- `Solve` returns neither OK nor an error if a property of boxes holds at the root, every LP of a box with the property is
optimal with a point that is not accepted as integral, and branching there leaves a child with the property. -/
theorem never_closes {o : Oracle W} {d : MipData} {prm : Params} {Good : W → Prop}
    {bounds : W → Int → Dbl × Dbl} {Answer : W → Prop} {w : W} (hd : DataOk d)
    (hp : PrimalShape o d.lower.length) (hc : Contract o Good bounds Answer)
    (hg : Good w) (hs : StartsAt d bounds w) (P : Box → Prop) (hP : ∀ b : Box, (∀ j y, b j y) → P b)
    (hnode : ∀ (b : Box) (w : W), Answer w → P b →
      (∀ x, InBounds d bounds w x ↔ InRootBounds d x ∧ InBox d b x) → o.isOptimal w = true ∧
      ∀ values, o.primal w = .ok values → d.solutionIsIntegral values prm.tol ≠ .ok true ∧
        ∀ w' (col : Nat) up v, d.solutionIsIntegral values prm.tol = .ok false →
          o.branch w = .ok (w', (col : Int), up) → values[col]? = some v →
          ∃ down, P (childBox b col v down)) (fuel : Nat) :
    (∀ s, solveFuel o d prm fuel (initial w) ≠ some (.ok s)) ∧
      ∀ m, solveFuel o d prm fuel (initial w) ≠ some (.error m) := by
  have hroot : ∀ w, Answer w → (∀ x, InBounds d bounds w x ↔ InRootBounds d x) → o.isOptimal w = true ∧
      ∀ values, o.primal w = .ok values → d.solutionIsIntegral values prm.tol ≠ .ok true := by
    intro w ha hx
    obtain ⟨h1, h2⟩ := hnode (fun _ _ => True) w ha (hP _ fun _ _ => trivial) fun x => by
      rw [hx x]; exact ⟨fun h => ⟨h, fun _ _ => trivial⟩, fun h => h.1⟩
    exact ⟨h1, fun values hv => (h2 values hv).1⟩
  have inv : ∀ s, Reach o d prm (initial w) s → ∃ bs sols, Inv d Good bounds s bs sols ∧ ∃ b ∈ bs, P b := by
    intro s h
    induction h with
    | refl =>
      obtain ⟨b, hb, hi⟩ := inv_init (d := d) hg hs
      exact ⟨_, _, hi, b, by simp, hP b hb⟩
    | step _ hstep ih =>
      obtain ⟨bs, sols, hi, b0, hb0, hz⟩ := ih
      obtain ⟨bs', sols', hi', ht⟩ := (iterate_trans hd hp hc hi).1 _ hstep
      refine ⟨bs', sols', hi', ?_⟩
      cases ht with
      | drop h1 h2 h3 h4 =>
        rcases List.mem_cons.1 (h1.mem_iff.1 hb0) with rfl | hb0
        · rw [(hnode _ _ h2 hz h3).1] at h4; cases h4
        · exact ⟨b0, hb0, hz⟩
      | record h1 h2 h3 h4 h5 h6 =>
        rcases List.mem_cons.1 (h1.mem_iff.1 hb0) with rfl | hb0
        · exact absurd h6 ((hnode _ _ h2 hz h3).2 _ h5).1
        · exact ⟨b0, hb0, hz⟩
      | split h1 h2 h3 h4 h5 h6 h7 h8 =>
        rename_i b bs1 w w' values col up v
        rcases List.mem_cons.1 (h1.mem_iff.1 hb0) with rfl | hb0
        · obtain ⟨down, hdn⟩ := ((hnode _ _ h2 hz h3).2 _ h5).2 _ _ _ _ h6 h7 h8
          refine ⟨_, ?_, hdn⟩
          cases up <;> cases down <;> simp
        · exact ⟨b0, by simp [hb0], hz⟩
  have gen : ∀ out, solveFuel o d prm fuel (initial w) = some out → out = .abort ∨ out = .ub := by
    intro out hout
    obtain ⟨s, hr, h⟩ := solveFuel_some hout
    obtain ⟨bs, sols, hi, b, hb, -⟩ := inv s hr
    obtain ⟨-, hstop, herr⟩ := iterate_trans (prm := prm) hd hp hc hi
    rcases h with ⟨s', h1, -⟩ | ⟨m, h1, -⟩ | ⟨-, h1⟩ | ⟨-, h1⟩
    · obtain ⟨sols', -, hf⟩ := hstop s' h1
      cases hf with
      | empty => simp at hb
      | root ha hx _ hv hint => exact absurd hint ((hroot _ ha hx).2 _ hv)
    · obtain ⟨w, ha, hopt, hx⟩ := herr _ h1
      rw [(hroot w ha hx).1] at hopt; cases hopt
    · exact Or.inl h1
    · exact Or.inr h1
  refine ⟨fun s h => ?_, fun m h => ?_⟩ <;> rcases gen _ h with h | h <;> cases h

/-- If the first iteration goes on, or is the last one without an error, the LP of the root was optimal. -/
theorem iterate_first {o : Oracle W} {d : MipData} {prm : Params} {Good : W → Prop}
    {bounds : W → Int → Dbl × Dbl} {Answer : W → Prop} {w : W} (hd : DataOk d)
    (hc : Contract o Good bounds Answer) (hg : Good w)
    (hs : StartsAt d bounds w) {res : Step W} (h : iterate o d prm (initial w) = .ok res) :
    ∃ w', Answer w' ∧ o.isOptimal w' = true ∧ ∀ x, InBounds d bounds w' x ↔ InRootBounds d x := by
  obtain ⟨t, q, hinv, -⟩ := sim_init d.lower.length
  have hq : q = [0] := by
    have h0 := hinv.queue
    rcases q with _ | ⟨n, _ | ⟨m, q⟩⟩
    · simp at h0
    · simpa [eq_comm] using h0
    · simp at h0
  subst hq
  obtain ⟨hlive, hleaf, -, -, lb, ub, hlb, hub, hbs⟩ := pop_node (bj := false) (n := 0) (q' := []) hinv d hd rfl
    (by simp [PopSpec])
  obtain ⟨st, hex⟩ := hinv.exec
  unfold iterate at h
  have hpop : pop (initial w).backjump (initial w).queue = some (0, []) := rfl
  rw [hpop] at h
  simp only [Outcome.bind_eq_ok] at h
  obtain ⟨lb', h1, ub', h2, w', h3, h⟩ := h
  have e1 : lb = lb' := Outcome.ok.inj (hlb.symm.trans h1)
  have e2 : ub = ub' := Outcome.ok.inj (hub.symm.trans h2)
  subst e1 e2
  obtain ⟨-, ha, -⟩ := solveNode_spec hc hg h3
  refine ⟨w', ha, ?_, fun x => ?_⟩
  · by_contra hno
    rw [if_neg hno] at h
    simp [infeasibleNode] at h
  · rw [inBounds_iff hd hc hbs hg (fun n l u _ hl hu => hs n l u hl hu) h3 x]
    exact ⟨fun hx => hx.1, fun hx => ⟨hx, fun n _ => boxOf_root hex hinv.recs hlive _ _⟩⟩

end Solver

namespace Program

open Glop (LinearProgram Refines Extends)
open Solver (Contract guard point InBounds InRootBounds InBox RowsHold Box)

/-- Bounds and constraints keep the integer variables within `range`. -/
def IntegersWithin (p : Problem) (range : Nat → ℚ × ℚ) : Prop :=
  ∀ y, p.RelaxedFeasible y → ∀ (n : Nat) (v : Variable), p.vars[n]? = some v → v.isInteger = true →
    (range n).1 ≤ y n ∧ y n ≤ (range n).2

/-- Twice the number of integer points in the range of the integer variables, the lower ends rounded down, the upper ends
rounded up. -/
def rangeBound (p : Problem) (range : Nat → ℚ × ℚ) : Nat :=
  2 * ∏ n ∈ Finset.range p.vars.length,
    if (p.vars[n]?.map (·.isInteger)).getD false then (⌈(range n).2⌉ - ⌊(range n).1⌋).toNat + 1 else 1

theorem rangeBound_eq {d : MipData} {p : Problem} (hd : d.Represents p) (range : Nat → ℚ × ℚ) :
    Solver.Ranged.iterationBound d range = rangeBound p range := by
  unfold Solver.Ranged.iterationBound rangeBound
  congr 1
  have h1 : d.integerVariables.toFinset =
      ((Finset.range p.vars.length).filter fun n => (p.vars[n]?.map (·.isInteger)).getD false = true).image
        (Nat.cast : Nat → Int) := by
    ext j
    simp only [List.mem_toFinset, Finset.mem_image, Finset.mem_filter, Finset.mem_range]
    rw [hd.integers j]
    constructor
    · rintro ⟨n, v, h1, h2, rfl⟩
      exact ⟨n, ⟨(List.getElem?_eq_some_iff.1 h1).1, by simp [h1, h2]⟩, rfl⟩
    · rintro ⟨n, ⟨h0, h2⟩, rfl⟩
      have h1 : p.vars[n]? = some p.vars[n] := List.getElem?_eq_getElem h0
      rw [h1] at h2
      exact ⟨n, _, h1, h2, rfl⟩
  rw [h1, Finset.prod_image (fun a _ b _ h => by exact_mod_cast h), Finset.prod_filter]
  simp only [Int.toNat_natCast]

theorem relaxedFeasible_of {p : Problem} {d : MipData} (hd : d.Represents p) {y : Int → ℚ} (hb : InRootBounds d y)
    (hr : RowsHold d y) : p.RelaxedFeasible y := by
  refine ⟨fun n v hv => hb n v.lower v.upper (by rw [hd.lower]; simp [hv]) (by rw [hd.upper]; simp [hv]), fun k hk => ?_⟩
  obtain ⟨i, hi⟩ := List.getElem?_of_mem hk
  obtain ⟨m, v, hm, -, -, hev, -⟩ := hd.rows i k hi
  have := hr i k.lhs k.rhs m v (by rw [hd.lhs]; simp [hi]) (by rw [hd.rhs]; simp [hi]) hm
  rwa [hev] at this

/-- **C104, `Solve` ends.**  For every well-formed problem, whether the integer variables have finite bounds or not: if bounds
and constraints keep the integer variables within a range, `Solve` has ended within twice as many iterations as there are
integer points in the range.  As for C76: with every LP code that reports points within the LP whenever it claims to be
optimal, both interfaces, with cuts or without, the max-fractional rule and a tolerance that is not negative. -/
theorem C104_ends_partial (p : Problem) (hp : p.WellFormed) (range : Nat → ℚ × ℚ) (hf : IntegersWithin p range) (e : Engine)
    (x : Setup.External) (user : Setup.ParamsMsg) (c : Setup.Created) (dir : Setup.Direction) (he : e.Feasible)
    (h : Setup.create x p user = .ok c) (hr : c.rule = .maxFractional dir)
    (htol : 0 ≤ user.integralityTolerance.getD (1 / 10 ^ 6)) : solve e c (rangeBound p range) ≠ none := by
  obtain ⟨-, -, -, -, -, h6, -⟩ := Setup.create_ok h
  obtain ⟨hrep, h₀⟩ := created_refines hp h
  have hs := primalShape (e := e) (c := c) (Good' := Good (start c.lpi).program) (fun _ h => h)
  rw [h₀.numCols] at hs
  have hs' : Solver.PrimalShape (guard (oracle e c) (Good (start c.lpi).program)) c.data.lower.length := by
    rw [hrep.lower, List.length_map]; exact hs
  have hg : Good (start c.lpi).program { world := { lp := start c.lpi } } := Extends.refl _
  have hdk := Solver.dataOk_of_represents hrep
  have := Solver.C104_ranged_ends c.data hdk range
    (Runner World) _ (params c) (Good (start c.lpi).program) bounds
    { world := { lp := start c.lpi } } hs'
    (contract_of (A := fun w => Solver.RangedAnswer (guard (oracle e c) (Good (start c.lpi).program))
        c.data range bounds { world := w })
      (fun w w' hw hs ho values hv => by
        obtain ⟨h1, h2⟩ := answer_feasible he hp hrep h₀ w w' hw hs ho values hv
        refine ⟨h1, fun hroot n hn => ?_⟩
        obtain ⟨m, v, h3, h4, h5⟩ := (hrep.integers n).1 hn
        obtain rfl : n = m := by exact_mod_cast h5
        exact hf _ (relaxedFeasible_of hrep hroot h2) n v h3 h4)).guard
    (Solver.branchesOnFractional_of_max hdk hs' (usesMaxFractional hr) (by rw [← h6] at htol; exact htol))
    hg (startsAt hrep h₀)
  rw [Solver.guard_solveFuel keeps_good _ _ (by exact hg), rangeBound_eq hrep] at this
  exact this

/-- **C104, total correctness with Glop.**  C78 without finite bounds: for every well-formed problem whose bounds and constraints
keep the integer variables within a range, and whose objective is bounded on the relaxation. -/
theorem C104_total_correctness (p : Problem) (hp : p.WellFormed) (range : Nat → ℚ × ℚ) (hf : IntegersWithin p range)
    (hB : Bounded p) :
    ∀ (x : Setup.External) (user : Setup.ParamsMsg) (lp : LpParameters),
      Setup.LpWins user.lp lp → Setup.GlopTakes lp →
      (∃ k ≤ 0, user.runner.bind (·.maxIterations) = some k) →
      (∀ s, user.branching.bind (·.rule) ≠ some (.random s)) →
      0 ≤ user.integralityTolerance.getD (1 / 10 ^ 6) →
      ∃ c, Setup.create x p user = .ok c ∧ ∀ e : Engine, e.Right → e.GlopReturns →
        Solves p (user.integralityTolerance.getD (1 / 10 ^ 6)) (solve e c (rangeBound p range)) := by
  have hN := C104_ends_partial p hp range hf
  intro x user lp hlp ht hi hr htol
  obtain ⟨c, hc⟩ := (Setup.C73_glop_partial x p hp user lp hlp ht.solver).1 ht
  obtain ⟨hn, dir, hrule⟩ := rule_of hp hc hi hr
  exact ⟨c, hc, fun e he hret => solves_of hp hB hc hn he (hN e x user c dir he.feasible hc hrule htol)
    (C77_glop_never_aborts_partial hret hp hc (created_glop hc (by rw [← hlp.eq]; exact ht.solver)) hn htol _)⟩

/-- **C104, total correctness with SoPlex**, if the finite bounds of the integer variables are integral (see
`C77_soplex_crossing_bounds_violated`). -/
theorem C104_soplex_total_correctness_partial (p : Problem) (hp : p.WellFormed) (range : Nat → ℚ × ℚ)
    (hf : IntegersWithin p range) (hI : IntegralIntegers p) (hB : Bounded p) :
    ∀ (x : Setup.External) (set : Soplex.Settings) (user : Setup.ParamsMsg) (lp : LpParameters),
      Setup.newSoplex x = .ok set → (∀ r v, x.accepts.real r v = true) → (∀ r v, x.accepts.int r v = true) →
      Setup.LpWins user.lp lp → Setup.SoplexTakes lp →
      (∃ k ≤ 0, user.runner.bind (·.maxIterations) = some k) →
      (∀ s, user.branching.bind (·.rule) ≠ some (.random s)) →
      0 ≤ user.integralityTolerance.getD (1 / 10 ^ 6) →
      ∃ c, Setup.create x p user = .ok c ∧ ∀ e : Engine, e.Right → e.SoplexReturns →
        Solves p (user.integralityTolerance.getD (1 / 10 ^ 6)) (solve e c (rangeBound p range)) := by
  have hN := C104_ends_partial p hp range hf
  intro x set user lp hset hx1 hx2 hlp ht hi hr htol
  obtain ⟨c, hc⟩ := (Setup.C73_soplex_partial x (hx1 _ _) set hset p hp user lp hlp ht.solver).2 hx1 hx2 ht
  obtain ⟨hn, dir, hrule⟩ := rule_of hp hc hi hr
  exact ⟨c, hc, fun e he hret => solves_of hp hB hc hn he (hN e x user c dir he.feasible hc hrule htol)
    (C77_soplex_never_aborts_partial hret he.feasible hp hI hc
      (soplex_created hc (by rw [← hlp.eq]; exact ht.solver)) hn hrule htol _)⟩

/-! ### Objectives that are not bounded -/

theorem contract_plain {e : Engine} (he : e.Right) {c : Setup.Created} (hn : NoCuts c.runner.params)
    {lp₀ : LinearProgram} : Contract (guard (oracle e c) (Plain lp₀)) (Plain lp₀) bounds
      fun r => Plain lp₀ r ∧ RightAnswer r.world.lp.program (r.world.lp.isOptimal = true) r.world.report := by
  have hk := keeps_plain (e := e) hn (d := c.data) (lp₀ := lp₀)
  apply Contract.guard
  constructor
  · intro r j l u r' hg h
    obtain ⟨-, -, h1, h2, h3⟩ := setBounds_spec h
    refine ⟨⟨?_, by rw [h1]; exact hg.numRows, by rw [h3]; exact hg.rounds, by rw [h3]; exact hg.added⟩, h2⟩
    show Extends lp₀ r'.world.lp.program
    rw [h1]
    exact Extends.withBounds hg.good _ _ _
  · intro r r' hg h
    have := hk.solve r r' hg h
    exact ⟨this, (solve_spec h).2.2.1, this, he.solve (solve_spec h).1⟩
  · intro r r' hg ha _ h
    have : r = r' := Outcome.ok.inj ((separate_plain hn hg).symm.trans h)
    rw [← this]; exact ⟨hg, rfl, ha⟩
  · intro r r' col up hg h
    exact ⟨hk.branch r r' col up hg h, bounds_congr fun c => by rw [(branch_spec h).1]⟩

/-- If the objective is not bounded on the relaxation, the first iteration is the last one and not an OK. -/
theorem first_fails {e : Engine} (he : e.Right) {x : Setup.External} {p : Problem}
    (hp : p.WellFormed) (hB : ¬ Bounded p) {user : Setup.ParamsMsg} {c : Setup.Created}
    (h : Setup.create x p user = .ok c) (hn : NoCuts c.runner.params) (res : Solver.Step (Runner World)) :
    Solver.iterate (guard (oracle e c) (Plain (start c.lpi).program)) c.data (params c)
      (Solver.initial { world := { lp := start c.lpi } }) ≠ .ok res := by
  intro hit
  obtain ⟨hd, h₀⟩ := created_refines hp h
  obtain ⟨r, ⟨hr, hans⟩, hopt, hbd⟩ := Solver.iterate_first (Solver.dataOk_of_represents hd) (contract_plain he hn)
    (plain_start c) (startsAt hd h₀) hit
  have hopt : r.world.lp.isOptimal = true := (if_pos hr).symm.trans hopt
  obtain ⟨h1, -, h2⟩ := hans.1 hopt
  have hlen : r.world.lp.program.cols.length = c.data.lower.length := by
    rw [hr.good.numCols, h₀.numCols, hd.lower, List.length_map]; rfl
  have hsense : r.world.lp.program.maximize = false := by rw [hr.good.sense, h₀.sense]; rfl
  apply hB
  refine ⟨p.userObjective r.world.report.point, fun y hy => ?_⟩
  have hyr : InRootBounds c.data y := by
    intro n l u h1 h2
    rw [hd.lower, List.getElem?_map] at h1
    rw [hd.upper, List.getElem?_map] at h2
    cases hv : p.vars[n]? with
    | none => rw [hv] at h1; cases h1
    | some v =>
      rw [hv] at h1 h2
      cases h1
      cases h2
      exact hy.1 n v hv
  have hyf : r.world.lp.program.Feasible y := by
    refine rows_hold hp h₀ hr.good hr.numRows hy.2 fun n col hcol => ?_
    have hlt := (List.getElem?_eq_some_iff.mp hcol).1
    have := (hbd y).2 hyr n (by rw [← hlen]; exact hlt)
    rw [bounds_nat, hcol] at this
    exact this
  have := h2 y hyf
  rw [hsense, if_neg (by simp), hr.good.value, hr.good.value, h₀.value, h₀.value, (relaxation_points p hp y).2,
    (relaxation_points p hp _).2] at this
  cases hm : p.isMaximization <;> simp only [hm, Bool.false_eq_true, if_false, if_true] at this ⊢ <;> linarith

theorem error_of_unbounded {e : Engine} (he : e.Right) {x : Setup.External} {p : Problem}
    (hp : p.WellFormed) (hB : ¬ Bounded p) {user : Setup.ParamsMsg} {c : Setup.Created}
    (h : Setup.create x p user = .ok c) (hn : NoCuts c.runner.params)
    (h1 : solve e c 1 = none ∨ (∃ s, solve e c 1 = some (.ok s)) ∨
      solve e c 1 = some (.error "The problem is infeasible or unbounded")) {fuel : Nat} (hf : 0 < fuel) :
    solve e c fuel = some (.error "The problem is infeasible or unbounded") := by
  have hno := first_fails he hp hB h hn
  have heq : ∀ k, solve e c k = Solver.solveFuel (guard (oracle e c) (Plain (start c.lpi).program)) c.data
      (params c) k (Solver.initial { world := { lp := start c.lpi } }) := fun k =>
    (Solver.guard_solveFuel (keeps_plain hn) _ _ (by exact plain_start c)).symm
  rw [heq] at h1 ⊢
  obtain ⟨k, rfl⟩ : ∃ k, fuel = k + 1 := ⟨fuel - 1, by omega⟩
  unfold Solver.solveFuel at h1 ⊢
  cases hit : Solver.iterate (guard (oracle e c) (Plain (start c.lpi).program)) c.data (params c)
      (Solver.initial { world := { lp := start c.lpi } }) with
  | ok res => exact absurd hit (hno res)
  | error m => rw [hit] at h1; simpa using h1
  | abort => rw [hit] at h1; simp at h1
  | ub => rw [hit] at h1; simp at h1

/-- **C104, unbounded objectives with Glop.**  For every well-formed problem whose objective is not bounded on the relaxation,
whatever the bounds of the integer variables: `Solve` returns the error in its first iteration, without cuts and whatever
LP code that answers rightly. -/
theorem C104_unbounded_objective (p : Problem) (hp : p.WellFormed) (hB : ¬ Bounded p) :
    ∀ (x : Setup.External) (user : Setup.ParamsMsg) (c : Setup.Created), Setup.create x p user = .ok c →
      (∃ s g, c.lpi = .glop s g) → NoCuts c.runner.params → 0 ≤ user.integralityTolerance.getD (1 / 10 ^ 6) →
      ∀ e : Engine, e.Right → e.GlopReturns → ∀ fuel, 0 < fuel →
        solve e c fuel = some (.error "The problem is infeasible or unbounded") := by
  intro x user c hc hl hn htol e he hret fuel hf
  exact error_of_unbounded he hp hB hc hn (C77_glop_never_aborts_partial hret hp hc hl hn htol 1) hf

/-- **C104, unbounded objectives with SoPlex**, for integral finite bounds and the max-fractional rule. -/
theorem C104_soplex_unbounded_objective_partial (p : Problem) (hp : p.WellFormed) (hI : IntegralIntegers p)
    (hB : ¬ Bounded p) :
    ∀ (x : Setup.External) (user : Setup.ParamsMsg) (c : Setup.Created), Setup.create x p user = .ok c →
      (∃ g, c.lpi = .soplex g) → NoCuts c.runner.params → (∃ dir, c.rule = .maxFractional dir) →
      0 ≤ user.integralityTolerance.getD (1 / 10 ^ 6) →
      ∀ e : Engine, e.Right → e.SoplexReturns → ∀ fuel, 0 < fuel →
        solve e c fuel = some (.error "The problem is infeasible or unbounded") := by
  intro x user c hc hl hn ⟨dir, hr⟩ htol e he hret fuel hf
  exact error_of_unbounded he hp hB hc hn
    (C77_soplex_never_aborts_partial hret he.feasible hp hI hc hl hn hr htol 1) hf

/-! ### Where `Solve` does not end -/

/-- The LP of a node whose box contains a point of the relaxation is optimal, and its solution is an optimal point of the
relaxation within the box. -/
theorem node_optimal {e : Engine} {p : Problem} (hp : p.WellFormed) (hB : Bounded p) {b : Box} {c : Setup.Created}
    (hd : c.data.Represents p) (hfeas : ∃ y, p.RelaxedFeasible y ∧ InBox c.data b y)
    (h₀ : Refines (start c.lpi).program p.relaxation) {r : Runner World}
    (hr : Plain (start c.lpi).program r)
    (hans : RightAnswer r.world.lp.program (r.world.lp.isOptimal = true) r.world.report)
    (hbd : ∀ x, InBounds c.data bounds r x ↔ InRootBounds c.data x ∧ InBox c.data b x) :
    (guard (oracle e c) (Plain (start c.lpi).program)).isOptimal r = true ∧
      ∀ values, (guard (oracle e c) (Plain (start c.lpi).program)).primal r = .ok values →
        values.length = c.data.lower.length ∧ p.RelaxedFeasible (point values) ∧ InBox c.data b (point values) ∧
        ∀ z, p.RelaxedFeasible z → InBox c.data b z →
          if p.isMaximization then p.userObjective z ≤ p.userObjective (point values)
          else p.userObjective (point values) ≤ p.userObjective z := by
  have hlen₀ : (start c.lpi).program.cols.length = c.data.lower.length := by
    rw [h₀.numCols, hd.lower, List.length_map]; rfl
  have hsense : r.world.lp.program.maximize = false := by rw [hr.good.sense, h₀.sense]; rfl
  have hlen : r.world.lp.program.cols.length = c.data.lower.length := by
    rw [hr.good.numCols]; exact hlen₀
  have hval : ∀ y, r.world.lp.program.value y =
      if p.isMaximization then -(p.userObjective y - p.offset) else p.userObjective y - p.offset := fun y => by
    rw [hr.good.value, h₀.value, (relaxation_points p hp y).2]
  have hroot : ∀ y, InRootBounds c.data y ↔
      ∀ (n : Nat) (v : Variable), p.vars[n]? = some v → Between v.lower (y n) v.upper := by
    intro y
    constructor
    · intro h n v hv
      exact h n v.lower v.upper (by rw [hd.lower]; simp [hv]) (by rw [hd.upper]; simp [hv])
    · intro h n l u h1 h2
      rw [hd.lower, List.getElem?_map] at h1
      rw [hd.upper, List.getElem?_map] at h2
      cases hv : p.vars[n]? with
      | none => rw [hv] at h1; cases h1
      | some v =>
        rw [hv] at h1 h2
        cases h1
        cases h2
        exact h n v hv
  have hin : ∀ y, p.RelaxedFeasible y → InBox c.data b y → r.world.lp.program.Feasible y := by
    rintro y ⟨h1, h2⟩ hyb
    refine rows_hold hp h₀ hr.good hr.numRows h2 fun n col hcol => ?_
    have hlt := (List.getElem?_eq_some_iff.mp hcol).1
    have := (hbd y).2 ⟨(hroot y).2 h1, hyb⟩ n (by rw [← hlen]; exact hlt)
    rw [bounds_nat, hcol] at this
    exact this
  have hout : ∀ y, r.world.lp.program.Feasible y → p.RelaxedFeasible y ∧ InBox c.data b y := by
    intro y hy
    have hyb := (hbd y).1 (inBounds_of hlen hy.1)
    refine ⟨⟨(hroot y).1 hyb.1, fun k hk => ?_⟩, hyb.2⟩
    obtain ⟨i, hi⟩ := List.getElem?_of_mem hk
    have hlt : i < p.relaxation.numRows := (List.getElem?_eq_some_iff.mp hi).1
    have hlt' : i < (start c.lpi).program.rows.length := by rw [h₀.numRows]; exact hlt
    have h3 := h₀.rows i _ (List.getElem?_eq_getElem hlt')
    have h4 := hr.good.holds hy (List.getElem?_eq_getElem hlt')
    rw [h3.1, h3.2, h₀.activity hlt, relaxation_activity hp hi] at h4
    simpa [Problem.relaxation, hi] using h4
  have hopt : r.world.lp.isOptimal = true := by
    by_contra hno
    obtain ⟨y, hy, hyb⟩ := hfeas
    rcases hans.2 hno with h1 | h1
    · exact h1 y (hin y hy hyb)
    · obtain ⟨B, hB⟩ := hB
      rw [hsense] at h1
      cases hm : p.isMaximization with
      | false =>
        obtain ⟨z, hz, hlt⟩ := h1 (B - p.offset)
        have hb := hB z (hout z hz).1
        rw [hval] at hlt
        simp only [hm, Bool.false_eq_true, if_false] at hb hlt
        linarith
      | true =>
        obtain ⟨z, hz, hlt⟩ := h1 (-(B - p.offset))
        have hb := hB z (hout z hz).1
        rw [hval] at hlt
        simp only [hm, Bool.false_eq_true, if_false, if_true] at hb hlt
        linarith
  refine ⟨(if_pos hr).trans hopt, fun values hv => ?_⟩
  have hv' : r.world.primal = .ok values := (if_pos hr).symm.trans hv
  obtain ⟨hpl, hpv⟩ := primal_spec hv'
  obtain ⟨hf1, hf2, hf3⟩ := r.world.lp.program.congr hpv
  obtain ⟨h1, h2, h3⟩ := hans.1 hopt
  obtain ⟨h4, h5⟩ := hout _ (hf1.2 h1)
  refine ⟨hpl.trans hlen, h4, h5, fun z hz hzb => ?_⟩
  have := h3 z (hin z hz hzb)
  rw [hsense, ← hf2, hval, hval] at this
  cases hm : p.isMaximization <;> simp only [hm, Bool.false_eq_true, if_false, if_true] at this ⊢ <;> linarith

/-- A point of the relaxation that no point of the relaxation is better than. -/
def RelaxedOptimal (p : Problem) (y : Int → ℚ) : Prop :=
  p.RelaxedFeasible y ∧ ∀ z, p.RelaxedFeasible z →
    if p.isMaximization then p.userObjective z ≤ p.userObjective y else p.userObjective y ≤ p.userObjective z

/-- A ray of optimal points of the relaxation, along which all integer variables change that are ever fractional at an optimal
point. -/
structure OptimalRay (p : Problem) (y g : Int → ℚ) : Prop where
  optimal : ∀ t : ℚ, 0 ≤ t → RelaxedOptimal p fun j => y j + t * g j
  moves : ∀ z, RelaxedOptimal p z → ∀ (n : Nat) (v : Variable), p.vars[n]? = some v → v.isInteger = true →
    (∀ k : Int, z n ≠ k) → g n ≠ 0

/-- For every well-formed problem with a ray of optimal points of the relaxation, along which all integer variables change that
are ever fractional at an optimal point, and with no optimal point of the relaxation accepted as integral, `Solve` returns
neither OK nor an error: with both interfaces, the max-fractional rule, without cuts, and whatever LP code that answers
rightly. -/
theorem C104_never_returns {e : Engine} (he : e.Right) {x : Setup.External} {p : Problem}
    (hp : p.WellFormed) {user : Setup.ParamsMsg} {y g : Int → ℚ} (hray : OptimalRay p y g)
    (hfrac : FractionalOptima p (user.integralityTolerance.getD (1 / 10 ^ 6)))
    {c : Setup.Created} (h : Setup.create x p user = .ok c)
    (hn : NoCuts c.runner.params) (htol : 0 ≤ user.integralityTolerance.getD (1 / 10 ^ 6))
    (hrule : ∃ dir, c.rule = .maxFractional dir) (fuel : Nat) :
    (∀ s, solve e c fuel ≠ some (.ok s)) ∧ ∀ m, solve e c fuel ≠ some (.error m) := by
  obtain ⟨hd, h₀⟩ := created_refines hp h
  obtain ⟨-, -, -, -, -, h6, -⟩ := Setup.create_ok h
  obtain ⟨dir, hrule⟩ := hrule
  rw [← h6] at htol hfrac
  have hdk := Solver.dataOk_of_represents hd
  have hB : Bounded p := ⟨_, fun z hz => (hray.optimal 0 le_rfl).2 z hz⟩
  have hlen₀ : (start c.lpi).program.cols.length = c.data.lower.length := by
    rw [h₀.numCols, hd.lower, List.length_map]; rfl
  have hs := primalShape (e := e) (c := c) (Good' := Plain (start c.lpi).program)
    (lp₀ := (start c.lpi).program) (fun _ h => h.good)
  rw [hlen₀] at hs
  have hg := plain_start c
  have heq : solve e c fuel = Solver.solveFuel (guard (oracle e c) (Plain (start c.lpi).program)) c.data
      (params c) fuel (Solver.initial { world := { lp := start c.lpi } }) :=
    (Solver.guard_solveFuel (keeps_plain hn) _ _ (by exact hg)).symm
  rw [heq]
  have hbr := Solver.branchesOnFractional_of_max hdk hs
    (usesMaxFractional (e := e) (Good' := Plain (start c.lpi).program) hrule) htol
  refine Solver.never_closes hdk hs (contract_plain he hn) (by exact hg) (startsAt hd h₀)
    (fun b => ∃ T : ℚ, 0 ≤ T ∧ ∀ t, T ≤ t → InBox c.data b fun j => y j + t * g j)
    (fun b hb => ⟨0, le_rfl, fun t _ n _ => hb _ _⟩) ?_ fuel
  rintro b r ⟨hr, hans⟩ ⟨T, hT, hb⟩ hx
  obtain ⟨h1, h2⟩ := node_optimal (e := e) hp hB hd ⟨_, (hray.optimal T hT).1, hb T le_rfl⟩ h₀ hr hans hx
  refine ⟨h1, fun values hv => ?_⟩
  obtain ⟨hlv, h3, -, h4⟩ := h2 values hv
  have hopt : RelaxedOptimal p (point values) := by
    refine ⟨h3, fun z hz => ?_⟩
    have e1 := (hray.optimal T hT).2 z hz
    have e2 := h4 _ (hray.optimal T hT).1 (hb T le_rfl)
    split at e1 <;> rename_i hm
    · rw [if_pos hm] at e2 ⊢; linarith
    · rw [if_neg hm] at e2 ⊢; linarith
  refine ⟨fun hint => ?_, fun r' col up v hno hbranch hval => ?_⟩
  · obtain ⟨n, v, hvar, hi, hk⟩ := hfrac (point values) h3 hopt.2
    obtain ⟨b, h4, h5⟩ := MipData.allIntegral_iff values (params c).tol c.data.integerVariables
      (fun j hj => by rw [hlv]; exact hdk.ints j hj)
    have hb : b = true := Outcome.ok.inj (h4.symm.trans hint)
    have hlt : n < values.length := by
      rw [hlv, hd.lower]; simpa using (List.getElem?_eq_some_iff.1 hvar).1
    have hx : values[n]? = some values[n] := by simp [hlt]
    obtain ⟨k, hk'⟩ := h5.1 hb n _ ((hd.integers n).2 ⟨n, v, hvar, hi, rfl⟩) hx
    rw [← Solver.point_eq hx] at hk'
    exact absurd hk' (not_le.2 (hk k))
  · obtain ⟨hcol, hfr⟩ := hbr r values r' col up v hv hno hbranch hval
    obtain ⟨m, var, hvar, hi, hm⟩ := (hd.integers col).1 hcol
    obtain rfl : col = m := by exact_mod_cast hm
    have hg0 : g col ≠ 0 := hray.moves _ hopt col var hvar hi (by rw [Solver.point_eq hval]; exact hfr)
    rcases lt_or_gt_of_ne hg0 with hneg | hpos
    · refine ⟨true, max T ((⌊v⌋ - y col) / g col), hT.trans (le_max_left _ _), fun t ht n hn => ?_⟩
      refine ⟨hb t ((le_max_left _ _).trans ht) n hn, fun hnc => ?_⟩
      subst hnc
      have := (le_max_right _ _).trans ht
      rw [div_le_iff_of_neg hneg] at this
      simp only [if_true]
      linarith
    · refine ⟨false, max T ((⌈v⌉ - y col) / g col), hT.trans (le_max_left _ _), fun t ht n hn => ?_⟩
      refine ⟨hb t ((le_max_left _ _).trans ht) n hn, fun hnc => ?_⟩
      subst hnc
      have := (le_max_right _ _).trans ht
      rw [div_le_iff₀ hpos] at this
      simp only [Bool.false_eq_true, if_false]
      linarith

theorem never_of {e : Engine} {c : Setup.Created} {fuel : Nat}
    (h : (∀ s, solve e c fuel ≠ some (.ok s)) ∧ ∀ m, solve e c fuel ≠ some (.error m))
    (h' : solve e c fuel = none ∨ (∃ s, solve e c fuel = some (.ok s)) ∨
      solve e c fuel = some (.error "The problem is infeasible or unbounded")) : solve e c fuel = none := by
  rcases h' with h' | ⟨s, h'⟩ | h'
  · exact h'
  · exact absurd h' (h.1 s)
  · exact absurd h' (h.2 _)

/-- **C104, where `Solve` does not end.**  On the problems of `C104_never_returns` `Solve` does not end: with Glop, and with
SoPlex if the finite bounds of the integer variables are integral, whatever LP code that answers rightly and returns. -/
theorem C104_never_ends {e : Engine} (he : e.Right) {x : Setup.External} {p : Problem}
    (hp : p.WellFormed) {user : Setup.ParamsMsg} {y g : Int → ℚ} (hray : OptimalRay p y g)
    (hfrac : FractionalOptima p (user.integralityTolerance.getD (1 / 10 ^ 6)))
    {c : Setup.Created} (h : Setup.create x p user = .ok c)
    (hl : ((∃ s g, c.lpi = .glop s g) ∧ e.GlopReturns) ∨
      (∃ g, c.lpi = .soplex g) ∧ e.SoplexReturns ∧ IntegralIntegers p)
    (hn : NoCuts c.runner.params) (htol : 0 ≤ user.integralityTolerance.getD (1 / 10 ^ 6))
    (hrule : ∃ dir, c.rule = .maxFractional dir) (fuel : Nat) : solve e c fuel = none := by
  refine never_of (C104_never_returns he hp hray hfrac h hn htol hrule fuel) ?_
  rcases hl with ⟨hl, hret⟩ | ⟨hl, hret, hI⟩
  · exact C77_glop_never_aborts_partial hret hp h hl hn htol fuel
  · exact C77_soplex_never_aborts_partial hret he.feasible hp hI h hl hn hrule.choose_spec htol fuel

/-- `max 3 x + 2 y`, `5 x + 2 y ≤ 7`, `x` and `y` non-negative integers without an upper bound. -/
def openProblem : Problem :=
  { vars := [{ name := "x", objective := 3, lower := .fin 0, upper := .pinf, isInteger := true },
      { name := "y", objective := 2, lower := .fin 0, upper := .pinf, isInteger := true }]
    constraints := [{ name := "c", varIndices := [1, 0], coefficients := [2, 5], lhs := .ninf, rhs := .fin 7 }]
    isMaximization := true }

theorem openProblem_spec : openProblem.WellFormed ∧ ¬ FiniteIntegers openProblem ∧ IntegralIntegers openProblem ∧
    IntegersWithin openProblem (fun _ => (0, 7 / 2)) ∧ Bounded openProblem ∧ ∃ y, openProblem.Feasible y := by
  have hrel : ∀ y, openProblem.RelaxedFeasible y → 0 ≤ y 0 ∧ 0 ≤ y 1 ∧ 5 * y 0 + 2 * y 1 ≤ 7 := by
    rintro y ⟨h1, h2⟩
    have hx := h1 0 _ rfl
    have hy := h1 1 _ rfl
    have hc := h2 _ (List.mem_singleton.2 rfl)
    simp [Between, Constraint.activity] at hx hy hc
    exact ⟨hx, hy, by linarith⟩
  refine ⟨?_, ?_, ?_, ?_, ⟨7, ?_⟩, fun _ => 1, ?_, ?_⟩
  · simp [Problem.WellFormed, openProblem, Variable.WellFormed, Constraint.WellFormed, Ordered, Dbl.le]
  · intro h
    obtain ⟨l, u, -, h⟩ := h _ (List.mem_cons_self ..) rfl
    cases h
  · intro v hv _
    simp [openProblem] at hv
    rcases hv with rfl | rfl <;> exact ⟨.inr ⟨0, by simp⟩, .inl rfl⟩
  · intro y hy n v hv _
    obtain ⟨h1, h2, h3⟩ := hrel y hy
    match n with
    | 0 => exact ⟨h1, by show y 0 ≤ 7 / 2; linarith⟩
    | 1 => exact ⟨h2, by show y 1 ≤ 7 / 2; linarith⟩
    | n + 2 => simp [openProblem] at hv
  · intro y hy
    obtain ⟨h1, h2, h3⟩ := hrel y hy
    simp [openProblem, Problem.userObjective, objectiveFrom]
    linarith
  · intro n v hv
    match n with
    | 0 => simp [openProblem] at hv; subst hv; exact ⟨by norm_num [Between], fun _ => ⟨1, by simp⟩⟩
    | 1 => simp [openProblem] at hv; subst hv; exact ⟨by norm_num [Between], fun _ => ⟨1, by simp⟩⟩
    | n + 2 => simp [openProblem] at hv
  · intro k hk
    simp [openProblem] at hk
    subst hk
    norm_num [Between, Constraint.activity]

/-- `min z`, `2 x - 2 y + z = 1`, `x` and `y` non-negative integers without an upper bound, `z` in {0, 1}.  The optimum is 1, for
example at (0, 0, 1); the optimal points of the relaxation have `x - y = 1/2` and `z = 0`. -/
def plateau : Problem :=
  { vars := [{ name := "x", objective := 0, lower := .fin 0, upper := .pinf, isInteger := true },
      { name := "y", objective := 0, lower := .fin 0, upper := .pinf, isInteger := true },
      { name := "z", objective := 1, lower := .fin 0, upper := .fin 1, isInteger := true }]
    constraints := [{ name := "c", varIndices := [0, 1, 2], coefficients := [2, -2, 1], lhs := .fin 1, rhs := .fin 1 }] }

theorem plateau_relaxed (y : Int → ℚ) : plateau.RelaxedFeasible y ↔
    0 ≤ y 0 ∧ 0 ≤ y 1 ∧ 0 ≤ y 2 ∧ y 2 ≤ 1 ∧ 2 * y 0 - 2 * y 1 + y 2 = 1 := by
  constructor
  · rintro ⟨h1, h2⟩
    have hx := h1 0 _ rfl
    have hy := h1 1 _ rfl
    have hz := h1 2 _ rfl
    have hc := h2 _ (List.mem_singleton.2 rfl)
    simp [Between, Constraint.activity] at hx hy hz hc
    exact ⟨hx, hy, hz.1, hz.2, by linarith⟩
  · rintro ⟨h1, h2, h3, h4, h5⟩
    refine ⟨fun n v hv => ?_, fun k hk => ?_⟩
    · match n with
      | 0 => simp [plateau] at hv; subst hv; simpa [Between] using h1
      | 1 => simp [plateau] at hv; subst hv; simpa [Between] using h2
      | 2 => simp [plateau] at hv; subst hv; simpa [Between] using ⟨h3, h4⟩
      | n + 3 => simp [plateau] at hv
    · simp [plateau] at hk
      subst hk
      simp [Between, Constraint.activity]
      constructor <;> linarith

theorem plateau_objective (y : Int → ℚ) : plateau.userObjective y = y 2 := by
  simp [plateau, Problem.userObjective, objectiveFrom]

theorem plateau_optimal {y : Int → ℚ} (h : RelaxedOptimal plateau y) : y 2 = 0 ∧ y 0 - y 1 = 1 / 2 := by
  obtain ⟨h1, h2⟩ := h
  have h3 := (plateau_relaxed y).1 h1
  have h4 := h2 (fun j => if j = 0 then 1 / 2 else 0) ((plateau_relaxed _).2 (by norm_num))
  rw [if_neg (by simp [plateau]), plateau_objective, plateau_objective] at h4
  norm_num at h4
  have : y 2 = 0 := le_antisymm h4 h3.2.2.1
  exact ⟨this, by linarith [h3.2.2.2.2]⟩

theorem plateau_spec {tol : ℚ} (htol : tol < 1 / 4) : plateau.WellFormed ∧ Bounded plateau ∧
    (plateau.Feasible (fun j => if j = 2 then 1 else 0) ∧
      ∀ y, plateau.Feasible y → plateau.userObjective (fun j => if j = 2 then 1 else 0) ≤ plateau.userObjective y) ∧
    OptimalRay plateau (fun j => if j = 0 then 1 / 2 else 0) (fun j => if j = 2 then 0 else 1) ∧
    FractionalOptima plateau tol := by
  have hmin : plateau.isMaximization = false := rfl
  have hopt : ∀ t : ℚ, 0 ≤ t → RelaxedOptimal plateau
      (fun j => (if j = 0 then 1 / 2 else 0) + t * if j = 2 then 0 else 1) := by
    intro t ht
    refine ⟨(plateau_relaxed _).2 ⟨by norm_num; linarith, by norm_num; linarith, by norm_num, by norm_num, by norm_num; ring⟩,
      fun z hz => ?_⟩
    rw [hmin, if_neg (by simp), plateau_objective, plateau_objective]
    norm_num
    exact ((plateau_relaxed z).1 hz).2.2.1
  refine ⟨?_, ⟨_, fun z hz => (hopt 0 le_rfl).2 z hz⟩, ⟨⟨?_, ?_⟩, ?_⟩, ⟨hopt, ?_⟩, ?_⟩
  · simp [Problem.WellFormed, plateau, Variable.WellFormed, Constraint.WellFormed, Ordered, Dbl.le]
  · intro n v hv
    match n with
    | 0 => simp [plateau] at hv; subst hv; exact ⟨by norm_num [Between], fun _ => ⟨0, by simp⟩⟩
    | 1 => simp [plateau] at hv; subst hv; exact ⟨by norm_num [Between], fun _ => ⟨0, by simp⟩⟩
    | 2 => simp [plateau] at hv; subst hv; exact ⟨by norm_num [Between], fun _ => ⟨1, by simp⟩⟩
    | n + 3 => simp [plateau] at hv
  · intro k hk
    simp [plateau] at hk
    subst hk
    norm_num [Between, Constraint.activity]
  · rintro y ⟨h1, h2⟩
    rw [plateau_objective, plateau_objective, if_pos rfl]
    have hr := (plateau_relaxed y).1 ⟨fun n v hv => (h1 n v hv).1, h2⟩
    obtain ⟨a, ha⟩ := (h1 0 _ rfl).2 rfl
    obtain ⟨b, hb⟩ := (h1 1 _ rfl).2 rfl
    obtain ⟨k, hk⟩ := (h1 2 _ rfl).2 rfl
    have e : 2 * a - 2 * b + k = 1 := by
      have := hr.2.2.2.2
      have h0 : y 0 = a := ha
      have h1 : y 1 = b := hb
      have h2 : y 2 = k := hk
      rw [h0, h1, h2] at this
      exact_mod_cast this
    have hk0 : (0 : ℚ) ≤ k := by have := hr.2.2.1; rwa [show y 2 = k from hk] at this
    have hk0 : 0 ≤ k := by exact_mod_cast hk0
    rw [show y 2 = k from hk]
    have : 1 ≤ k := by omega
    exact_mod_cast this
  · intro z hz n v hv hi hf
    match n with
    | 0 => simp
    | 1 => simp
    | 2 => exact absurd (by show z 2 = ((0 : Int) : ℚ); simpa using (plateau_optimal hz).1) (hf 0)
    | n + 3 => simp [plateau] at hv
  · intro y hy hbest
    have h1 := (plateau_optimal ⟨hy, hbest⟩).2
    by_contra hno
    push Not at hno
    obtain ⟨a, ha⟩ := hno 0 _ rfl rfl
    obtain ⟨b, hb⟩ := hno 1 _ rfl rfl
    have ha : |y 0 - a| ≤ tol := ha
    have hb : |y 1 - b| ≤ tol := hb
    rw [abs_le] at ha hb
    have k1 : (0 : ℚ) < a - b := by linarith [ha.1, ha.2, hb.1, hb.2]
    have k2 : (a : ℚ) - b < 1 := by linarith [ha.1, ha.2, hb.1, hb.2]
    have k1 : 0 < a - b := by exact_mod_cast k1
    have k2 : a - b < 1 := by exact_mod_cast k2
    omega

/-- **C104 fails without a finite range.**  `min z`, `2 x - 2 y + z = 1`, `x` and `y` non-negative integers, `z` in {0, 1} has an
optimum, and the objective is bounded on the relaxation.  With the cut runner switched off and all other parameters at
their defaults, or with SoPlex chosen, `Create` succeeds and `Solve` does not end, whatever LP code that answers rightly
it runs on. -/
theorem C104_unbounded_violated :
    (plateau.WellFormed ∧ Bounded plateau ∧ ∃ y, plateau.Feasible y ∧
      ∀ z, plateau.Feasible z → plateau.userObjective y ≤ plateau.userObjective z) ∧
    (∀ x, (∃ c, Setup.create x plateau exUser = .ok c) ∧ ∀ c, Setup.create x plateau exUser = .ok c →
      ∀ e : Engine, e.Right → e.GlopReturns → ∀ fuel, solve e c fuel = none) ∧
    ∀ x set, Setup.newSoplex x = .ok set → (∀ r v, x.accepts.real r v = true) → (∀ r v, x.accepts.int r v = true) →
      (∃ c, Setup.create x plateau soplexUser = .ok c) ∧ ∀ c, Setup.create x plateau soplexUser = .ok c →
      ∀ e : Engine, e.Right → e.SoplexReturns → ∀ fuel, solve e c fuel = none := by
  obtain ⟨h1, h2, h3, h4, h5⟩ := plateau_spec (tol := 1 / 10 ^ 6) (by norm_num)
  refine ⟨⟨h1, h2, _, h3⟩, fun x => ⟨?_, fun c hc e he hret fuel => ?_⟩,
    fun x set hset hx1 hx2 => ⟨?_, fun c hc e he hret fuel => ?_⟩⟩
  · exact (Setup.C73_glop_partial x plateau h1 exUser _ (Setup.lpWins _) rfl).1
      (by refine ⟨⟨?_, ?_, ?_, ?_, ?_, ?_, ?_, ?_⟩, rfl, ?_, ?_, rfl, rfl⟩ <;>
        simp [exUser, Setup.LpMsg.read, ToleranceOk])
  · obtain ⟨hn, dir, hrule⟩ := rule_of h1 hc ⟨0, le_rfl, rfl⟩ (by simp [exUser])
    exact C104_never_ends (user := exUser) he h1 h4 h5 hc (.inl ⟨created_glop hc rfl, hret⟩) hn (by norm_num [exUser])
      ⟨dir, hrule⟩ fuel
  · refine (Setup.C73_soplex_partial x (hx1 _ _) set hset plateau h1 soplexUser _ (Setup.lpWins _) rfl).2 hx1 hx2
      ⟨⟨?_, ?_, ?_, ?_, ?_, ?_, ?_, ?_⟩, rfl, ?_, ?_, ?_, ?_⟩
    all_goals simp [soplexUser, Setup.LpMsg.read, ToleranceOk]
  · obtain ⟨hn, dir, hrule⟩ := rule_of h1 hc ⟨0, le_rfl, rfl⟩ (by simp [soplexUser])
    refine C104_never_ends (user := soplexUser) he h1 h4 h5 hc (.inr ⟨soplex_created hc rfl, hret, ?_⟩) hn
      (by norm_num [soplexUser]) ⟨dir, hrule⟩ fuel
    intro v hv _
    simp [plateau] at hv
    rcases hv with rfl | rfl | rfl
    · exact ⟨.inr ⟨0, by simp⟩, .inl rfl⟩
    · exact ⟨.inr ⟨0, by simp⟩, .inl rfl⟩
    · exact ⟨.inr ⟨0, by simp⟩, .inr ⟨1, by simp⟩⟩

/-- The hypotheses of `C104_ends_partial` and of both statements of total correctness are met without finite bounds. -/
example : openProblem.WellFormed ∧ ¬ FiniteIntegers openProblem ∧ IntegralIntegers openProblem ∧
    IntegersWithin openProblem (fun _ => (0, 7 / 2)) ∧ Bounded openProblem ∧ (∃ y, openProblem.Feasible y) ∧
    rangeBound openProblem (fun _ => (0, 7 / 2)) = 50 ∧ perfect.Right ∧ perfect.GlopReturns ∧ perfect.SoplexReturns ∧
    ∀ x, ∃ c, Setup.create x openProblem exUser = .ok c ∧
      Solves openProblem (1 / 10 ^ 6) (solve perfect c 50) := by
  obtain ⟨h1, h2, h3, h4, h5, h6⟩ := openProblem_spec
  have hb : rangeBound openProblem (fun _ => (0, 7 / 2)) = 50 := by
    have h : ⌈(7 / 2 : ℚ)⌉ = 4 := by norm_num
    simp [rangeBound, openProblem, Finset.prod_range_succ, h]
  refine ⟨h1, h2, h3, h4, h5, h6, hb, perfect_spec.1, perfect_spec.2, perfect_soplex, fun x => ?_⟩
  obtain ⟨c, hc, hs⟩ := C104_total_correctness openProblem h1 _ h4 h5 x exUser _ (Setup.lpWins _)
    (by refine ⟨⟨?_, ?_, ?_, ?_, ?_, ?_, ?_, ?_⟩, rfl, ?_, ?_, rfl, rfl⟩ <;>
        simp [exUser, Setup.LpMsg.read, ToleranceOk])
    ⟨0, le_rfl, rfl⟩ (by simp [exUser]) (by norm_num [exUser])
  rw [hb] at hs
  exact ⟨c, hc, hs perfect perfect_spec.1 perfect_spec.2⟩

/-- The hypotheses of both statements on unbounded objectives are met: `max x + y`, `x - y ≤ 3`, `x` a non-negative integer,
`y ≥ -1`. -/
example : ∃ p : Problem, p.WellFormed ∧ IntegralIntegers p ∧ ¬ Bounded p ∧ (∃ y, p.Feasible y) ∧
    ∀ x, ∃ c, Setup.create x p exUser = .ok c ∧ (∃ s g, c.lpi = .glop s g) ∧ NoCuts c.runner.params ∧
      solve perfect c 1 = some (.error "The problem is infeasible or unbounded") := by
  let p : Problem :=
    { vars := [{ name := "x", objective := 1, lower := .fin 0, upper := .pinf, isInteger := true },
        { name := "y", objective := 1, lower := .fin (-1), upper := .pinf }]
      constraints := [{ name := "c", varIndices := [0, 1], coefficients := [1, -1], lhs := .ninf, rhs := .fin 3 }]
      isMaximization := true }
  have hfe : ∀ t : ℚ, 0 ≤ t → (∀ n v, p.vars[n]? = some v → Between v.lower (if n = 1 then t else 0) v.upper) ∧
      ∀ k ∈ p.constraints, Between k.lhs (k.activity fun j => if j = 1 then t else 0) k.rhs := by
    intro t ht
    refine ⟨fun n v hv => ?_, fun k hk => ?_⟩
    · match n with
      | 0 => simp [p] at hv; subst hv; simp [Between]
      | 1 => simp [p] at hv; subst hv; simp [Between]; linarith
      | n + 2 => simp [p] at hv
    · simp [p] at hk
      subst hk
      simp [Between, Constraint.activity]
      linarith
  have hw : p.WellFormed := by
    simp [Problem.WellFormed, p, Variable.WellFormed, Constraint.WellFormed, Ordered, Dbl.le]
  have hB : ¬ Bounded p := by
    rintro ⟨B, hB⟩
    obtain ⟨h1, h2⟩ := hfe (|B| + 1) (by positivity)
    have := hB (fun j => if j = 1 then |B| + 1 else 0)
      ⟨fun n v hv => by have := h1 n v hv; simpa using this, h2⟩
    simp [p, Problem.userObjective, objectiveFrom] at this
    linarith [le_abs_self B]
  refine ⟨p, hw, ?_, hB, ⟨fun _ => 0, fun n v hv => ?_, fun k hk => ?_⟩, fun x => ?_⟩
  · intro v hv hi
    simp [p] at hv
    rcases hv with rfl | rfl
    · exact ⟨.inr ⟨0, by simp⟩, .inl rfl⟩
    · simp at hi
  · have := (hfe 0 le_rfl).1 n v hv
    exact ⟨by simpa using this, fun _ => ⟨0, by simp⟩⟩
  · have := (hfe 0 le_rfl).2 k hk
    simpa using this
  · obtain ⟨c, hc⟩ := (Setup.C73_glop_partial x p hw exUser _ (Setup.lpWins _) rfl).1
      (by refine ⟨⟨?_, ?_, ?_, ?_, ?_, ?_, ?_, ?_⟩, rfl, ?_, ?_, rfl, rfl⟩ <;>
        simp [exUser, Setup.LpMsg.read, ToleranceOk])
    obtain ⟨hn, dir, hrule⟩ := rule_of hw hc ⟨0, le_rfl, rfl⟩ (by simp [exUser])
    exact ⟨c, hc, created_glop hc rfl, hn, C104_unbounded_objective p hw hB x exUser c hc (created_glop hc rfl) hn
      (by norm_num [exUser]) perfect perfect_spec.1 perfect_spec.2 1 one_pos⟩

end Program
end MiniMip
