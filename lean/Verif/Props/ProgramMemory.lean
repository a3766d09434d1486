import Verif.Props.ProgramExponential
import Verif.Props.ProgramDirection
import Verif.Props.SolverMemory

/-!
# C112: how many open nodes `Solve` keeps

A search in depth-first manner keeps one open node per level.  `Solve` does that only with a backtrack limit of 0 or less; with
the default limit it can keep exponentially many.
-/

namespace MiniMip
namespace Program

open Glop (LinearProgram Refines Extends)
open Solver (Contract guard point InBounds InRootBounds InBox RowsHold Box childBox)

/-- The widths of the ranges of the integer variables, the lower bounds rounded down, the upper bounds rounded up: how often
`Solve` can branch along a path, at most. -/
def pathBound (p : Problem) : Nat :=
  (p.vars.map fun v => if v.isInteger then Solver.span (some v.lower) (some v.upper) - 1 else 0).sum

theorem pathBound_eq {d : MipData} {p : Problem} (hd : d.Represents p) : Solver.depthBound d = pathBound p := by
  unfold Solver.depthBound pathBound
  have h1 : d.integerVariables.toFinset =
      ((Finset.range p.vars.length).filter fun n => ∃ v, p.vars[n]? = some v ∧ v.isInteger = true).image
        (Nat.cast : Nat → Int) := by
    ext j
    simp only [List.mem_toFinset, Finset.mem_image, Finset.mem_filter, Finset.mem_range]
    rw [hd.integers j]
    constructor
    · rintro ⟨n, v, h1, h2, rfl⟩
      exact ⟨n, ⟨(List.getElem?_eq_some_iff.1 h1).1, v, h1, h2⟩, rfl⟩
    · rintro ⟨n, ⟨-, v, h1, h2⟩, rfl⟩
      exact ⟨n, v, h1, h2, rfl⟩
  rw [h1, Finset.sum_image (fun a _ b _ h => by exact_mod_cast h), Finset.sum_filter, Finset.sum_range,
    ← Fin.sum_univ_fun_getElem]
  refine Finset.sum_congr rfl fun i _ => ?_
  have h2 : p.vars[i.1]? = some p.vars[i.1] := List.getElem?_eq_getElem i.2
  have h3 : d.lower[i.1]? = some p.vars[i.1].lower := by rw [hd.lower, List.getElem?_map, h2]; rfl
  have h4 : d.upper[i.1]? = some p.vars[i.1].upper := by rw [hd.upper, List.getElem?_map, h2]; rfl
  simp only [Int.toNat_natCast, h2, h3, h4, Option.some.injEq, exists_eq_left']

/-- The states in which a run of `Solve` can be at the head of its loop. -/
def Reaches (e : Engine) (c : Setup.Created) (s : Solver.State (Runner World)) : Prop :=
  Solver.Reach (oracle e c) c.data (params c) (Solver.initial { world := { lp := start c.lpi } }) s

/-- **C112, what holds.**  For every well-formed problem whose integer variables have finite bounds and a backtrack limit of 0 or
less: at every point of the run, the number of open nodes is at most one more than the sum of the widths of the ranges of
the integer variables (with `n` binary variables: at most `n + 1`).  With every LP code that reports points within the LP
whenever it claims to be optimal, both interfaces, with cuts or without, and the max-fractional rule.

Missing for C112: the other backtrack limits, the default among them (`C112_many_open_violated`). -/
theorem C112_few_open_partial (p : Problem) (hp : p.WellFormed) (hf : FiniteIntegers p) (e : Engine) (x : Setup.External)
    (user : Setup.ParamsMsg) (c : Setup.Created) (dir : Setup.Direction) (he : e.Feasible)
    (h : Setup.create x p user = .ok c) (hr : c.rule = .maxFractional dir)
    (htol : 0 ≤ user.integralityTolerance.getD (1 / 10 ^ 6)) (hlim : user.backtrackLimit.getD 2 ≤ 0)
    (s : Solver.State (Runner World)) (hs : Reaches e c s) : s.queue.length ≤ pathBound p + 1 := by
  obtain ⟨-, -, -, -, -, h6, -, h8⟩ := Setup.create_ok h
  obtain ⟨hrep, h₀⟩ := created_refines hp h
  have hshape := primalShape (e := e) (c := c) (Good' := Good (start c.lpi).program) (fun _ h => h)
  rw [h₀.numCols] at hshape
  have hs' : Solver.PrimalShape (guard (oracle e c) (Good (start c.lpi).program)) c.data.lower.length := by
    rw [hrep.lower, List.length_map]; exact hshape
  have hg : Good (start c.lpi).program { world := { lp := start c.lpi } } := Extends.refl _
  have hdk := Solver.dataOk_of_represents hrep
  have := Solver.few_open hdk (finiteBounds hf hrep) hs'
    (contract_of (A := fun w => Solver.BoundedAnswer (guard (oracle e c) (Good (start c.lpi).program))
        c.data bounds { world := w })
      (fun w w' hw hs ho values hv => (answer_feasible he hp hrep h₀ w w' hw hs ho values hv).1)).guard
    (Solver.branchesOnFractional_of_max hdk hs' (usesMaxFractional hr) (by rw [← h6] at htol; exact htol))
    (by rw [← h8] at hlim; exact hlim) hg (startsAt hrep h₀)
    (Solver.guard_reach keeps_good _ (by exact hg) hs).1
  rwa [pathBound_eq hrep] at this

/-- If the LP of a node is optimal, its box contains a point of the relaxation. -/
theorem node_point {e : Engine} {p : Problem} (hp : p.WellFormed) {b : Box} {c : Setup.Created}
    (hd : c.data.Represents p)
    (h₀ : Refines (start c.lpi).program p.relaxation) {r : Runner World}
    (hr : Plain (start c.lpi).program r)
    (hans : RightAnswer r.world.lp.program (r.world.lp.isOptimal = true) r.world.report)
    (hbd : ∀ x, InBounds c.data bounds r x ↔ InRootBounds c.data x ∧ InBox c.data b x)
    (hopt : (guard (oracle e c) (Plain (start c.lpi).program)).isOptimal r = true) :
    ∃ y, p.RelaxedFeasible y ∧ InBox c.data b y := by
  have hopt' : r.world.lp.isOptimal = true := (if_pos hr).symm.trans hopt
  have hlen : r.world.lp.program.cols.length = c.data.lower.length := by
    rw [hr.good.numCols, h₀.numCols, hd.lower, List.length_map]; rfl
  have hy := (hans.1 hopt').1
  have hyb := (hbd _).1 (inBounds_of hlen hy.1)
  refine ⟨_, ⟨fun n v hv => ?_, fun k hk => ?_⟩, hyb.2⟩
  · exact hyb.1 n v.lower v.upper (by rw [hd.lower]; simp [hv]) (by rw [hd.upper]; simp [hv])
  · obtain ⟨i, hi⟩ := List.getElem?_of_mem hk
    have hlt : i < p.relaxation.numRows := (List.getElem?_eq_some_iff.mp hi).1
    have hlt' : i < (start c.lpi).program.rows.length := by rw [h₀.numRows]; exact hlt
    have h3 := h₀.rows i _ (List.getElem?_eq_getElem hlt')
    have h4 := hr.good.holds hy (List.getElem?_eq_getElem hlt')
    rw [h3.1, h3.2, h₀.activity hlt, relaxation_activity hp hi] at h4
    simpa [Problem.relaxation, hi] using h4

/-- A box of the search with `a` variables `xᵢ` fixed to 1 and `z` fixed to 0, the others free. -/
def OnesZeros (m a z : Nat) (b : Box) : Prop :=
  ∃ (F : Finset Nat) (f : Nat → ℚ), Fixes m F f b ∧ ∑ i ∈ F, f i = a ∧ F.card = a + z

/-- For every `m`: with branching upwards, the max-fractional rule, without cuts, with a tolerance below `1 / (4 m + 2)` and a
backtrack limit of at least 1, `Solve` has `(2 m choose m)` open nodes at some point. -/
theorem oddSum_open {e : Engine} (he : e.Right) {x : Setup.External} {m : Nat} {user : Setup.ParamsMsg}
    {c : Setup.Created} (h : Setup.create x (oddSum m) user = .ok c) (hn : NoCuts c.runner.params)
    (htol : 0 ≤ user.integralityTolerance.getD (1 / 10 ^ 6))
    (hsmall : (2 * m + 1) * user.integralityTolerance.getD (1 / 10 ^ 6) < 1 / 2)
    (hrule : ∃ dir, c.rule = .maxFractional dir) (hup : user.branching.bind (·.direction) = some .up)
    (hlim : 1 ≤ user.backtrackLimit.getD 2) {fuel : Nat}
    (hok : (∃ s, solve e c fuel = some (.ok s)) ∨ ∃ t, solve e c fuel = some (.error t)) :
    ∃ s, Reaches e c s ∧ s.queue.length = m.centralBinom := by
  obtain ⟨hp, -⟩ := oddSum_spec m
  obtain ⟨hd, h₀⟩ := created_refines hp h
  obtain ⟨-, -, -, -, -, -, -, h8⟩ := Setup.create_ok h
  have hdk := Solver.dataOk_of_represents hd
  have hlen : c.data.lower.length = 2 * m + 2 := by
    rw [hd.lower, List.length_map]; simp [oddSum]
  have hlen₀ : (start c.lpi).program.cols.length = c.data.lower.length := by
    rw [h₀.numCols, hd.lower, List.length_map]; rfl
  have hs := primalShape (e := e) (c := c) (Good' := Plain (start c.lpi).program)
    (lp₀ := (start c.lpi).program) (fun _ h => h.good)
  rw [hlen₀] at hs
  have hg := plain_start c
  have heq : solve e c fuel = Solver.solveFuel (guard (oracle e c) (Plain (start c.lpi).program)) c.data
      (params c) fuel (Solver.initial { world := { lp := start c.lpi } }) :=
    (Solver.guard_solveFuel (keeps_plain hn) _ _ (by exact hg)).symm
  rw [heq] at hok
  suffices ∃ s, Solver.Reach (guard (oracle e c) (Plain (start c.lpi).program)) c.data (params c)
      (Solver.initial { world := { lp := start c.lpi } }) s ∧ s.queue.length = m.centralBinom by
    obtain ⟨s, hreach, hq⟩ := this
    exact ⟨s, (Solver.guard_reach_back (keeps_plain hn) _ (by exact hg) hreach).1, hq⟩
  refine Solver.many_open hdk hs (contract_plain he hn) (by exact hg) (startsAt hd h₀)
    (by rw [← h8] at hlim; exact hlim) (OnesZeros m) m
    (fun b hb => ⟨∅, fun _ => 0, ⟨by simp, by simp, by simp, fun y => hb _ y, fun i _ y => hb _ y⟩, by simp, by simp⟩)
    ?_ ?_ hok
  · rintro z b r ⟨hr, hans⟩ ⟨F, f, hfx, hsum, hcard⟩ - hx
    by_contra hopt
    obtain ⟨y, hy, hyb⟩ := node_point (e := e) hp hd h₀ hr hans hx (by simpa using hopt)
    obtain ⟨h1, h2⟩ := (oddSum_relaxed m y).1 hy
    have hfix : ∀ i ∈ F, y ((i + 1 : Nat) : Int) = f i := by
      intro i hi
      have hlt : i + 1 < 2 * m + 2 := by have := Finset.mem_range.1 (hfx.subset hi); omega
      obtain ⟨v, hv⟩ := oddSum_var hlt
      exact (hfx.fixed i hi _ (h1 _ hlt).1 (h1 _ hlt).2).1
        (hyb (i + 1) ((hd.integers _).2 ⟨i + 1, v, hv, (oddSum_vars hv).2.2.2, rfl⟩))
    have h3 : ∑ i ∈ F, y ((i + 1 : Nat) : Int) ≤ ∑ i ∈ Finset.range (2 * m + 1), y ((i + 1 : Nat) : Int) :=
      Finset.sum_le_sum_of_subset_of_nonneg hfx.subset fun i hi _ =>
        (h1 (i + 1) (by have := Finset.mem_range.1 hi; omega)).1
    rw [Finset.sum_congr rfl hfix, hsum] at h3
    have h0 : 0 ≤ y 0 := (h1 0 (by omega)).1
    rw [Nat.cast_add, Nat.cast_one] at h3
    linarith
  · rintro a z b r ⟨hr, hans⟩ ⟨F, f, hfx, hsum, hcard⟩ ha hz hx
    have haq : (a : ℚ) ≤ m := by exact_mod_cast ha
    have hzq : (z : ℚ) ≤ m := by exact_mod_cast hz.le
    obtain ⟨h1, h2⟩ := oddSum_node (e := e) h htol hsmall hrule hfx
      (oddSum_point hfx.subset hfx.binary (by rw [hsum]; exact haq)
        (by rw [hsum, hcard]; push_cast; linarith)) hr hans hx
    refine ⟨h1, fun values hv => ?_⟩
    obtain ⟨h3, h4⟩ := h2 values hv
    refine ⟨h3, fun r' col up v hno hbranch hval => ?_⟩
    obtain ⟨i, hi, hch⟩ := h4 r' col up v hno hbranch hval
    have hup' : up = true := by
      have hb : (oracle e c).branch r = .ok (r', (col : Int), up) := (if_pos hr).symm.trans hbranch
      obtain ⟨⟨w, col', up'⟩, hb1, hb2⟩ := Outcome.bind_eq_ok.1 hb
      simp only [Outcome.pure_eq, Outcome.ok.injEq, Prod.mk.injEq] at hb2
      obtain ⟨-, -, rfl⟩ := hb2
      exact (C58_direction x _ hp user c h e _ _ _ _ hb1).1 hup
    subst hup'
    have hrest : ∀ q : ℚ, ∑ j ∈ F, Function.update f i q j = ∑ j ∈ F, f j := fun q =>
      Finset.sum_congr rfl fun j hj => Function.update_of_ne (fun (h : j = i) => hi (h ▸ hj)) _ _
    refine ⟨⟨_, _, hch false, ?_, ?_⟩, ⟨_, _, hch true, ?_, ?_⟩⟩
    · rw [Finset.sum_insert hi, hrest, hsum, Function.update_self]; push_cast; ring_nf
    · rw [Finset.card_insert_of_notMem hi, hcard]; omega
    · rw [Finset.sum_insert hi, hrest, hsum, Function.update_self]; simp
    · rw [Finset.card_insert_of_notMem hi, hcard]; omega

theorem oddSum_pathBound (m : Nat) : pathBound (oddSum m) = 2 * m + 2 := by
  have : Solver.span (some (.fin 0)) (some (.fin 1)) = 2 := by simp [Solver.span]
  simp [pathBound, oddSum, this]
  ring

theorem two_pow_le_centralBinom (m : Nat) : 2 ^ m ≤ m.centralBinom := by
  induction m with
  | zero => simp
  | succ m ih =>
    have h := Nat.succ_mul_centralBinom_succ m
    have : (m + 1) * 2 ^ (m + 1) ≤ (m + 1) * (m + 1).centralBinom := by
      rw [h, pow_succ]
      nlinarith
    exact Nat.le_of_mul_le_mul_left this (Nat.succ_pos m)

/-- **C112 fails.**  For every `m` there is a problem with `2 m + 2` binary variables and one constraint (`oddSum m`), for which
`pathBound` is `2 m + 2`, and on which `Solve` has `(2 m choose m)`, at least `2 ^ m`, open nodes at some point: for every
choice of parameters with a backtrack limit of 1 or more (the default is 2), branching upwards, the max-fractional rule,
without cuts and with a tolerance below `1 / (4 m + 2)`, both interfaces, and whatever LP code that answers rightly and
returns. -/
theorem C112_many_open_violated (m : Nat) :
    ((oddSum m).WellFormed ∧ FiniteIntegers (oddSum m) ∧ pathBound (oddSum m) = 2 * m + 2 ∧ 2 ^ m ≤ (2 * m).choose m) ∧
    ∀ (x : Setup.External) (user : Setup.ParamsMsg) (c : Setup.Created), Setup.create x (oddSum m) user = .ok c →
      NoCuts c.runner.params → (∃ dir, c.rule = .maxFractional dir) →
      user.branching.bind (·.direction) = some .up → 1 ≤ user.backtrackLimit.getD 2 →
      0 ≤ user.integralityTolerance.getD (1 / 10 ^ 6) →
      (2 * m + 1) * user.integralityTolerance.getD (1 / 10 ^ 6) < 1 / 2 →
      ∀ e : Engine, e.Right → ((∃ s g, c.lpi = .glop s g) ∧ e.GlopReturns) ∨ ((∃ g, c.lpi = .soplex g) ∧ e.SoplexReturns) →
        ∃ s, Reaches e c s ∧ s.queue.length = (2 * m).choose m := by
  obtain ⟨hp, hfin, hI, hB, hopt⟩ := oddSum_spec m
  refine ⟨⟨hp, hfin, oddSum_pathBound m, two_pow_le_centralBinom m⟩, ?_⟩
  intro x user c hc hn hrule hup hlim htol hsmall e he hl
  have hno : ∀ fuel, solve e c fuel = none ∨ (∃ s, solve e c fuel = some (.ok s)) ∨
      solve e c fuel = some (.error "The problem is infeasible or unbounded") := by
    intro fuel
    rcases hl with ⟨hl, hret⟩ | ⟨hl, hret⟩
    · exact C77_glop_never_aborts_partial hret hp hc hl hn htol fuel
    · exact C77_soplex_never_aborts_partial hret he.feasible hp hI hc hl hn hrule.choose_spec htol fuel
  refine oddSum_open he hc hn htol hsmall hrule hup hlim (fuel := iterationBound (oddSum m)) ?_
  obtain ⟨dir, hr⟩ := hrule
  rcases hno (iterationBound (oddSum m)) with h | h | h
  · exact absurd h (C76_ends_partial (oddSum m) hp hfin e x user c dir he.feasible hc hr htol)
  · exact .inl h
  · exact .inr ⟨_, h⟩

/-- A user who branches upwards, without cuts; the limit is as given. -/
def climber (limit : Option Int) : Setup.ParamsMsg :=
  { exUser with branching := some { direction := some .up }, backtrackLimit := limit }

/-- The hypotheses of both theorems are met: 202 binary variables; at most 203 open nodes with the limit 0, at least `2 ^ 100`
at some point with the default limit. -/
example : perfect.Right ∧ perfect.GlopReturns ∧ ∀ x,
    (∃ c, Setup.create x (oddSum 100) (climber (some 0)) = .ok c ∧ ∀ s, Reaches perfect c s → s.queue.length ≤ 203) ∧
    ∃ c, Setup.create x (oddSum 100) (climber none) = .ok c ∧ ∃ s, Reaches perfect c s ∧ 2 ^ 100 ≤ s.queue.length := by
  obtain ⟨hp, hfin, -⟩ := oddSum_spec 100
  have hcr : ∀ limit x, ∃ c, Setup.create x (oddSum 100) (climber limit) = .ok c ∧ NoCuts c.runner.params ∧
      (∃ dir, c.rule = .maxFractional dir) ∧ ∃ s g, c.lpi = .glop s g := by
    intro limit x
    obtain ⟨c, hc⟩ := (Setup.C73_glop_partial x (oddSum 100) hp (climber limit) _ (Setup.lpWins _) rfl).1
      (by refine ⟨⟨?_, ?_, ?_, ?_, ?_, ?_, ?_, ?_⟩, rfl, ?_, ?_, rfl, rfl⟩ <;>
        simp [climber, exUser, Setup.LpMsg.read, ToleranceOk])
    obtain ⟨hn, dir, hrule⟩ := rule_of hp hc ⟨0, le_rfl, rfl⟩ (by simp [climber])
    exact ⟨c, hc, hn, ⟨dir, hrule⟩, created_glop hc rfl⟩
  refine ⟨perfect_spec.1, perfect_spec.2, fun x => ⟨?_, ?_⟩⟩
  · obtain ⟨c, hc, hn, ⟨dir, hrule⟩, hl⟩ := hcr (some 0) x
    refine ⟨c, hc, fun s hs => ?_⟩
    have := C112_few_open_partial _ hp hfin perfect x _ c dir perfect_spec.1.feasible hc hrule
      (by norm_num [climber, exUser]) (by simp [climber]) s hs
    rwa [oddSum_pathBound] at this
  · obtain ⟨c, hc, hn, hrule, hl⟩ := hcr none x
    obtain ⟨⟨-, -, -, h1⟩, h2⟩ := C112_many_open_violated 100
    obtain ⟨s, hs, hq⟩ := h2 x _ c hc hn hrule rfl (by simp [climber]) (by norm_num [climber, exUser])
      (by norm_num [climber, exUser]) perfect perfect_spec.1 (.inl ⟨hl, perfect_spec.2⟩)
    exact ⟨c, hc, s, hs, by rw [hq]; exact h1⟩

end Program
end MiniMip
