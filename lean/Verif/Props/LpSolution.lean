import Verif.Model.LpSolution
import Verif.Props.GlopSession
import Verif.Props.SoplexSolve

/-!
# Properties C79 to C82: what the LP interfaces report after a solve
-/

namespace MiniMip

/-! ### C79: the basis head -/

namespace Glop

/-- How Glop numbers the columns and the slacks of the rows. -/
def glopNumber (numCols : Int) : ColOrRow → Int
  | .col i => i
  | .row i => numCols + i

/-- **C79** (Glop).  If the solver's basis head consists of certain columns and slacks, one for every
row, `GetColumnsAndRowsInBasis` returns exactly these columns and rows, in the same order. -/
theorem C79_basis_head (g : Interface) (items : List ColOrRow)
    (hlen : (items.length : Int) = getNumberOfRows g)
    (hcol : ∀ i, .col i ∈ items → i < getNumberOfColumns g) (hrow : ∀ i, .row i ∈ items → 0 ≤ i) :
    getColumnsAndRowsInBasis g (items.map (glopNumber (getNumberOfColumns g))) = items := by
  have hl : items.length = g.lp.rows.length := by simpa [getNumberOfRows] using hlen
  unfold getColumnsAndRowsInBasis
  rw [List.take_of_length_le (by simp [hl]), List.map_map]
  conv_rhs => rw [← List.map_id items]
  refine List.map_congr_left fun x hx => ?_
  cases x with
  | col i =>
    have := hcol i hx
    simp only [getNumberOfColumns] at this
    simp [glopNumber, this]
  | row i =>
    have h0 := hrow i hx
    have : ¬ ((g.lp.cols.length : Int) + i < g.lp.cols.length) := by omega
    simp [glopNumber, getNumberOfColumns, this]

/-- Two rows and two columns. -/
def basisInterface : Interface :=
  { lp := { cols := [⟨.fin 0, .pinf, 1, "x", [⟨0, 1⟩]⟩, ⟨.fin 0, .pinf, 1, "y", [⟨1, 2⟩]⟩]
            rows := [⟨.ninf, .fin 1, "r"⟩, ⟨.ninf, .fin 3, "s"⟩] } }

example : getColumnsAndRowsInBasis basisInterface [3, 0] = [.row 1, .col 0] ∧
    [.row 1, .col 0].map (glopNumber (getNumberOfColumns basisInterface)) = [3, 0] := by decide +kernel

end Glop

namespace Soplex

open Glop (ColOrRow LpSpec asPoint)

/-- How SoPlex numbers columns and the slacks of the rows in `getBasisInd`. -/
def soplexNumber : ColOrRow → Int
  | .col i => i
  | .row i => -1 - i

/-- **C79** (SoPlex).  As for Glop, outside of strong branching. -/
theorem C79_basis_head (g : Interface) (hf : freed g = true) (items : List ColOrRow)
    (hcol : ∀ i, .col i ∈ items → 0 ≤ i) (hrow : ∀ i, .row i ∈ items → 0 ≤ i) :
    getColumnsAndRowsInBasis g (items.map soplexNumber) = .ok items := by
  unfold getColumnsAndRowsInBasis
  rw [hf]
  simp only [Outcome.check, if_true, Outcome.bind_ok, Outcome.pure_eq, Outcome.ok.injEq, List.map_map]
  conv_rhs => rw [← List.map_id items]
  refine List.map_congr_left fun x hx => ?_
  cases x with
  | col i =>
    have : ¬ i < 0 := by have := hcol i hx; omega
    simp [soplexNumber, this]
  | row i =>
    have : -1 - i < 0 := by have := hrow i hx; omega
    simp only [Function.comp, soplexNumber, this, if_true, id]
    congr 1; ring

end Soplex

/-! ### C80: the queries after a solve -/

/-- How a solve can end, as a client of the interface sees it: `IsOptimal`, `IsPrimalInfeasible`,
`IsPrimalUnbounded`, and the three limits, in this order. -/
inductive Verdict where
  | optimal | infeasible | unbounded | objectiveLimit | iterationLimit | timeLimit
  deriving DecidableEq

/-- What the six queries should return. -/
def Verdict.queries (v : Verdict) : List Bool :=
  [v = .optimal, v = .infeasible, v = .unbounded, v = .objectiveLimit, v = .iterationLimit, v = .timeLimit]

namespace Soplex

/-- What the six queries return. -/
def queries (g : Interface) : Outcome (List Bool) := do
  let o ← isOptimal g
  return [o, isPrimalInfeasible g, isPrimalUnbounded g, objectiveLimitIsExceeded g,
    iterationLimitIsExceeded g, timeLimitIsExceeded g]

/-- The status SoPlex ends with. -/
def statusOf : Verdict → Status
  | .optimal => .optimal
  | .infeasible => .infeasible
  | .unbounded => .unbounded
  | .objectiveLimit => .abortValue
  | .iterationLimit => .abortIter
  | .timeLimit => .abortTime

theorem queries_eq (g : Interface) :
    queries g = .ok [g.status = .optimal, g.status = .infeasible, g.status = .unbounded,
      g.status = .abortValue, g.status = .abortIter, g.status = .abortTime] := by
  have : isOptimal g = .ok (decide (g.status = .optimal)) := by
    cases hb : g.basisStatus <;>
      simp [isOptimal, isPrimalFeasible, isDualFeasible, hb, Outcome.check]
  simp only [queries, this, Outcome.bind_ok]
  rfl

/-- A solve in which SoPlex returns, within its iteration limit. -/
structure Returns (a : Accepts) (g : Interface) (eps : ℚ) (ans : Answer) : Prop where
  freed : freed g = true
  consistent : consistent g eps = true
  throws : ans.throws = false
  iterations : g.settings.iterlimit < 0 ∨ ans.iterations ≤ g.settings.iterlimit
  time : a.real .timelimit g.settings.timelimit = true

theorem soPlexSolve_status {a : Accepts} {g : Interface} {eps : ℚ} {ans : Answer} (h : Returns a g eps ans) :
    ∃ g', soPlexSolve a g eps false ans = .ok (g', ans.status.isFine) ∧ g'.status = ans.status ∧
      g'.basisStatus = ans.basisStatus ∧ g'.isSolved = true ∧ g'.lp = g.lp := by
  obtain ⟨h1, h2, h3, h4, h5⟩ := h
  have h4' : (decide (g.settings.iterlimit < 0) || decide (ans.iterations ≤ g.settings.iterlimit)) = true := by
    simpa using h4
  have hf' : g.savedRows.isEmpty = true ∧ g.savedCols.isEmpty = true := by simpa [Soplex.freed] using h1
  unfold Soplex.consistent at h2
  unfold soPlexSolve
  simp only [Soplex.freed, hf'.1, hf'.2, Bool.and_self, Outcome.check, if_true, Outcome.bind_ok,
    Bool.and_false, Bool.false_eq_true, if_false]
  cases g.settings.solveFromScratch <;>
  · simp only [Bool.false_eq_true, if_false, if_true, lpSolve, Soplex.consistent]
    simp only [Outcome.check, h2, h3, h4', h5, Bool.not_false, Bool.true_or, if_true, Outcome.bind_ok,
      Outcome.pure_eq, Outcome.ok.injEq, Prod.mk.injEq, and_true, exists_eq_left', and_self]

/-- **C80** (SoPlex), partial: missing is what `IsStable` should say (`C80_unknown_stable_violated`).
Whatever SoPlex ends with (a proof of optimality, infeasibility or unboundedness, or a limit), the solve
returns OK, `IsSolved` is true, the LP is what it was, and exactly the matching one of the six
queries is true; `IsStable` is true.  A primal ray is claimed exactly for an unbounded LP, which is called
dual infeasible, a dual ray exactly for an infeasible one.  The dual is called unbounded exactly if the LP
is infeasible and the final basis is dual feasible; the primal (dual) point is called feasible exactly if
the final basis is optimal or primal (dual) feasible. -/
theorem C80_status_partial (a : Accepts) (g : Interface) (eps : ℚ) (ans : Answer) (h : Returns a g eps ans)
    (v : Verdict) (hv : ans.status = statusOf v) :
    ∃ g', soPlexSolve a g eps false ans = .ok (g', true) ∧ g'.isSolved = true ∧ g'.lp = g.lp ∧
      queries g' = .ok v.queries ∧ isStable g' = true ∧
      existsPrimalRay g' = decide (v = .unbounded) ∧ existsDualRay g' = decide (v = .infeasible) ∧
      isDualInfeasible g' = decide (v = .unbounded) ∧
      isDualUnbounded g' = decide (v = .infeasible ∧ ans.basisStatus = .dual) ∧
      isPrimalFeasible g' = decide (ans.basisStatus ∈ [BasisStatus.optimal, .primal]) ∧
      isDualFeasible g' = decide (ans.basisStatus ∈ [BasisStatus.optimal, .dual]) := by
  obtain ⟨g', h1, h2, h5, h3, h4⟩ := soPlexSolve_status h
  refine ⟨g', ?_, h3, h4, ?_, ?_, ?_, ?_, ?_, ?_, ?_, ?_⟩
  · rw [h1, hv]; cases v <;> rfl
  · rw [queries_eq, h2, hv]; cases v <;> rfl
  all_goals
    simp only [isStable, existsPrimalRay, existsDualRay, isDualInfeasible, isDualUnbounded, isPrimalFeasible,
      isDualFeasible, h2, h5, hv]
    first
    | (cases v <;> rfl)
    | (cases v <;> cases ans.basisStatus <;> rfl)

/-- A solve that ends because the basis is singular, or that is optimal only for the scaled problem,
returns OK with none of the six queries true and is not stable. -/
theorem C80_unstable_partial (a : Accepts) (g : Interface) (eps : ℚ) (ans : Answer) (h : Returns a g eps ans)
    (hv : ans.status = .singular ∨ ans.status = .optimalUnscaledViolations) :
    ∃ g', soPlexSolve a g eps false ans = .ok (g', true) ∧ queries g' = .ok (List.replicate 6 false) ∧
      isStable g' = false := by
  obtain ⟨g', h1, h2, -⟩ := soPlexSolve_status h
  refine ⟨g', ?_, ?_, ?_⟩
  · rw [h1]; rcases hv with hv | hv <;> rw [hv] <;> rfl
  · rw [queries_eq, h2]; rcases hv with hv | hv <;> rw [hv] <;> rfl
  · rcases hv with hv | hv <;> simp [isStable, h2, hv]

/-- **C80** is violated by every solve that ends without a result: the status UNKNOWN is returned as
OK and called stable, although nothing is proved and no limit is reached. -/
theorem C80_unknown_stable_violated (a : Accepts) (g : Interface) (eps : ℚ) (ans : Answer)
    (h : Returns a g eps ans) (hv : ans.status = .unknown) :
    ∃ g', soPlexSolve a g eps false ans = .ok (g', true) ∧ queries g' = .ok (List.replicate 6 false) ∧
      isStable g' = true := by
  obtain ⟨g', h1, h2, -⟩ := soPlexSolve_status h
  refine ⟨g', ?_, ?_, ?_⟩
  · rw [h1, hv]; rfl
  · rw [queries_eq, h2, hv]; rfl
  · simp [isStable, h2, hv]

/-- The solve of an infeasible LP: `x = 3`, `x ≤ 1`. -/
example : ∃ (a : Accepts) (g : Interface) (ans : Answer), Returns a g 0 ans ∧ g.lp.cols.length = 1 ∧
    g.lp.rows.length = 1 ∧ ans.status = statusOf .infeasible := by
  refine ⟨⟨fun _ _ => true, fun _ _ => true⟩,
    { solvedInterface with
      lp := { cols := [⟨.fin 0, .fin 1, 1, "", [⟨0, 1⟩]⟩], rows := [⟨.fin 3, .fin 3, ""⟩] }, savedRows := [],
      savedCols := [] },
    ⟨false, .infeasible, .infeasible, 0, 0, [], []⟩, ⟨rfl, by decide +kernel, rfl, ?_, rfl⟩, rfl, rfl, rfl⟩
  simp only [solvedInterface]
  decide

end Soplex

namespace Glop

/-- What the six queries return. -/
def queries (s : Session) : List Bool :=
  [s.isOptimal, s.isPrimalInfeasible, s.isPrimalUnbounded, s.objectiveLimitIsExceeded,
    s.iterationLimitIsExceeded, s.timeLimitIsExceeded]

/-- The iterations of the calls of the simplex in one solve: the first, and a second one if the point of
the first does not satisfy the unscaled LP. -/
def spent (g : Interface) (answers : Nat → Answer) : Int :=
  (answers 0).iterations +
    if (answers 0).feasible && g.useScaling && !(answers 0).lpFeasible then (answers 1).iterations else 0

/-- Whether the time limit had been reached after the last call. -/
def outOfTime (g : Interface) (answers : Nat → Answer) : Bool :=
  if (answers 0).feasible && g.useScaling && !(answers 0).lpFeasible then (answers 1).limitReached
  else (answers 0).limitReached

theorem solveLp_counts (g : Interface) (answers : Nat → Answer) (h : ∀ k, (answers k).ok = true) :
    (solveLp g answers).2 = true ∧ (solveLp g answers).1.modified = false ∧
    (solveLp g answers).1.lp = g.lp ∧
    (solveLp g answers).1.numIterations = spent g answers ∧
    (solveLp g answers).1.timeLimitReached = outOfTime g answers := by
  simp only [solveLp, solveInternal, h, Bool.not_true, Bool.false_eq_true, if_false, if_true, spent, outOfTime]
  split
  · simp
  · simp

/-- **C80** (Glop), partial: missing is a solve with more than one call of the simplex
(`C80_iteration_limit_violated`), and a limit of zero iterations.  If the calls of the simplex return, the
solve returns OK, `IsSolved` is true, the LP is what it was, `GetNumIterations` counts all iterations,
and the queries answer for the status of the solver: exactly one of `IsOptimal`, `IsPrimalInfeasible`
and `IsPrimalUnbounded` is true if it proved that, and `IsStable` is true; a limit is reported exactly
if it was reached. -/
theorem C80_status_partial (s : Session) (useDual : Bool) (answers : Nat → Answer) (status : ProblemStatus)
    (limit : Bool) (h : ∀ k, (answers k).ok = true) :
    ∃ s', s.solveLp useDual answers status limit = (s', true) ∧ s'.isSolved = true ∧
      s'.iface.lp = s.iface.lp ∧ s'.getNumIterations = spent s.iface answers ∧
      queries s' = [decide (status = .optimal), decide (status = .dualUnbounded ∨ status = .primalInfeasible),
        decide (status = .primalUnbounded), limit,
        decide (s.settings.maxIterations ≠ -1 ∧ s.settings.maxIterations ≤ spent s.iface answers),
        outOfTime s.iface answers] ∧
      (status = .optimal ∨ status = .dualUnbounded ∨ status = .primalInfeasible ∨
        status = .primalUnbounded → s'.isStable = true) := by
  obtain ⟨h1, h2, h3, h4, h5⟩ := solveLp_counts s.iface answers h
  refine ⟨{ s with
    iface := (Glop.solveLp s.iface answers).1, status := status, objectiveLimitReached := limit,
    useDualSimplex := useDual }, Prod.ext rfl h1, ?_, h3, h4, ?_, ?_⟩
  · simp [Session.isSolved, h2]
  · simp only [queries, Session.isOptimal, Session.isPrimalInfeasible, Session.isPrimalUnbounded,
      Session.objectiveLimitIsExceeded, Session.iterationLimitIsExceeded, Session.timeLimitIsExceeded, h4, h5,
      ge_iff_le]
  · intro hv
    rcases hv with hv | hv | hv | hv <;> simp [Session.isStable, hv]

/-- **C80** is violated by a solve with scaling whose point does not satisfy the unscaled LP, so that the
simplex is called again: if neither call reaches the limit but both together do, the LP is solved to
optimality and `IterationLimitIsExceeded` is true (then the cut runner stops,
default_runner.cc:43-49). -/
theorem C80_iteration_limit_violated (s : Session) (hs : s.iface.useScaling = true) (useDual : Bool)
    (answers : Nat → Answer) (h : ∀ k, (answers k).ok = true) (hf : (answers 0).feasible = true)
    (hl : (answers 0).lpFeasible = false)
    (_h0 : (answers 0).iterations < s.settings.maxIterations)
    (_h1 : (answers 1).iterations < s.settings.maxIterations)
    (h2 : s.settings.maxIterations ≤ (answers 0).iterations + (answers 1).iterations)
    (hp : 0 ≤ s.settings.maxIterations) :
    ∃ s', s.solveLp useDual answers .optimal false = (s', true) ∧ s'.isOptimal = true ∧
      s'.iterationLimitIsExceeded = true := by
  obtain ⟨s', h3, -, -, -, h4, -⟩ := C80_status_partial s useDual answers .optimal false h
  have hsp : spent s.iface answers = (answers 0).iterations + (answers 1).iterations := by
    simp [spent, hf, hl, hs]
  have h5 : s.settings.maxIterations ≠ -1 ∧ s.settings.maxIterations ≤ spent s.iface answers := by
    rw [hsp]; exact ⟨by omega, h2⟩
  simp only [queries, List.cons.injEq] at h4
  exact ⟨s', h3, by simp [h4.1], by rw [h4.2.2.2.2.1]; simpa using h5⟩

/-- Parameters with a limit of 10 iterations. -/
def tenIterations : Settings where
  solveFromScratch := false
  useScaling := true
  scalingMethod := .equilibration
  usePreprocessing := true
  feasibilityRule := .dantzig
  optimizationRule := .dantzig
  primalTolerance := .fin (1 / 10 ^ 8)
  dualTolerance := .fin (1 / 10 ^ 8)
  objectiveLower := .ninf
  objectiveUpper := .pinf
  maxTime := .pinf
  maxDeterministicTime := .pinf
  maxIterations := 10
  numThreads := 1
  randomSeed := 1
  logSearchProgress := false

/-- Limit 10, 6 iterations in each call. -/
example : ∃ (s : Session) (answers : Nat → Answer), s.iface.useScaling = true ∧
    (∀ k, (answers k).ok = true) ∧ (answers 0).feasible = true ∧ (answers 0).lpFeasible = false ∧
    (answers 0).iterations < s.settings.maxIterations ∧ (answers 1).iterations < s.settings.maxIterations ∧
    s.settings.maxIterations ≤ (answers 0).iterations + (answers 1).iterations ∧
    0 ≤ s.settings.maxIterations :=
  ⟨{ solvedSession tenIterations with
      iface := { (solvedSession tenIterations).iface with useScaling := true } },
    fun k => ⟨true, true, decide (k ≠ 0), false, 6, []⟩, rfl, fun _ => rfl, rfl, rfl, by decide, by decide, by decide,
    by decide⟩

/-! ### C81: dual rays -/

/-- The points within the bounds of the columns. -/
def LpSpec.InColumns (s : LpSpec) (x : Int → ℚ) : Prop :=
  ∀ c < s.numCols, Between (s.lower c) (x c) (s.upper c)

/-- A vector of row multipliers that proves infeasibility: for points within the bounds the combination of
the rows is smaller than any row activities within the sides admit (the sign SoPlex uses). -/
def LpSpec.ProvesInfeasible (s : LpSpec) (y : Int → ℚ) : Prop :=
  ∀ (x : Int → ℚ) (a : Nat → ℚ), s.InColumns x → (∀ r < s.numRows, Between (s.lhs r) (a r) (s.rhs r)) →
    (∑ r ∈ Finset.range s.numRows, y r * ∑ c ∈ Finset.range s.numCols, s.coef r c * x c) <
      ∑ r ∈ Finset.range s.numRows, y r * a r

theorem infeasible_of_proof {s : LpSpec} {y : Int → ℚ} (h : s.ProvesInfeasible y) (x : Int → ℚ) :
    ¬ s.Feasible x := by
  rintro ⟨h1, h2⟩
  exact lt_irrefl _ (h x _ h1 h2)

theorem provesInfeasible_congr {s : LpSpec} {y z : Int → ℚ} (hz : ∀ r < s.numRows, z r = y r)
    (h : s.ProvesInfeasible y) : s.ProvesInfeasible z := by
  intro x a hx ha
  have key : ∀ f : Nat → ℚ, (∑ r ∈ Finset.range s.numRows, z r * f r) =
      ∑ r ∈ Finset.range s.numRows, y r * f r := fun f =>
    Finset.sum_congr rfl fun r hr => by rw [hz r (Finset.mem_range.mp hr)]
  rw [key, key]
  exact h x a hx ha

/-- **C81** (Glop).  If the dual ray of the solver proves that the stored LP is infeasible, with the sign
that belongs to slacks with coefficient -1, the vector `GetDualRay` returns has one element per row
and proves it with the sign of the interface. -/
theorem C81_dual_ray (g : Interface) (s : LpSpec) (h : Refines g.lp s) (ray : Nat → ℚ)
    (hr : ∀ (x : Int → ℚ) (a : Nat → ℚ), s.InColumns x →
      (∀ r < s.numRows, Between (s.lhs r) (a r) (s.rhs r)) →
      (∑ r ∈ Finset.range s.numRows, ray r * a r) <
        ∑ r ∈ Finset.range s.numRows, ray r * ∑ c ∈ Finset.range s.numCols, s.coef r c * x c) :
    ((getDualRay g ray).length : Int) = getNumberOfRows g ∧
    s.ProvesInfeasible (asPoint (getDualRay g ray)) ∧ ∀ x, ¬ s.Feasible x := by
  have key : s.ProvesInfeasible (asPoint (getDualRay g ray)) := by
    refine provesInfeasible_congr (y := fun i => -ray i.toNat) (fun r hr' => ?_) fun x a hx ha => ?_
    · have : r < g.lp.rows.length := by rw [h.numRows]; exact hr'
      simp [asPoint, getDualRay, this]
    · have := hr x a hx ha
      simpa only [neg_mul, Finset.sum_neg_distrib, neg_lt_neg_iff, Int.toNat_natCast] using this
  exact ⟨by simp [getDualRay, getNumberOfRows], key, infeasible_of_proof key⟩

/-- `x + y = 3` with `0 ≤ x, y ≤ 1`. -/
def farkasLp : LpSpec := ⟨1, 2, false, fun _ => .fin 0, fun _ => .fin 1, fun _ => 1, fun _ => .fin 3,
  fun _ => .fin 3, fun _ _ => 1⟩

example : (∀ (x : Int → ℚ) (a : Nat → ℚ), farkasLp.InColumns x →
      (∀ r < farkasLp.numRows, Between (farkasLp.lhs r) (a r) (farkasLp.rhs r)) →
      (∑ r ∈ Finset.range farkasLp.numRows, (fun _ : Nat => (-2 : ℚ)) r * a r) <
        ∑ r ∈ Finset.range farkasLp.numRows, (fun _ : Nat => (-2 : ℚ)) r *
          ∑ c ∈ Finset.range farkasLp.numCols, farkasLp.coef r c * x c) ∧
    Refines { cols := [⟨.fin 0, .fin 1, 1, "x", [⟨0, 1⟩]⟩, ⟨.fin 0, .fin 1, 1, "y", [⟨0, 1⟩]⟩]
              rows := [⟨.fin 3, .fin 3, "r"⟩] } farkasLp := by
  constructor
  · intro x a hx ha
    have h0 := hx 0 (by simp [farkasLp])
    have h1 := hx 1 (by simp [farkasLp])
    have h2 := ha 0 (by simp [farkasLp])
    simp only [farkasLp, Between, Dbl.le_fin] at h0 h1 h2
    simp [farkasLp, Finset.sum_range_succ]
    simp at h0 h1
    linarith [h2.1, h0.2, h1.2]
  · refine ⟨rfl, rfl, rfl, ?_, ?_⟩
    · intro c col hc
      match c, hc with
      | 0, hc =>
        simp only [List.getElem?_cons_zero, Option.some.injEq] at hc
        subst hc
        refine ⟨rfl, rfl, rfl, by simp [SparseVector.Clean], by simp [farkasLp], ?_⟩
        intro r hr
        simp [farkasLp] at hr
        subst hr
        rfl
      | 1, hc =>
        simp only [List.getElem?_cons_succ, List.getElem?_cons_zero, Option.some.injEq] at hc
        subst hc
        refine ⟨rfl, rfl, rfl, by simp [SparseVector.Clean], by simp [farkasLp], ?_⟩
        intro r hr
        simp [farkasLp] at hr
        subst hr
        rfl
    · intro r row hr
      match r, hr with
      | 0, hr =>
        simp only [List.getElem?_cons_zero, Option.some.injEq] at hr
        subst hr
        exact ⟨rfl, rfl⟩

/-! ### C82: primal and dual values -/

/-- Primal values `x`, dual values `y` and reduced costs `d` that together prove that `x` is optimal: `x` is
feasible, `d` is the objective minus the combination of the rows, and a column or row with a multiplier
sits at the side the multiplier pushes it to. -/
structure LpSpec.Certificate (s : LpSpec) (x y d : Int → ℚ) : Prop where
  feasible : s.Feasible x
  reduced : ∀ c < s.numCols, d c = s.objective c - ∑ r ∈ Finset.range s.numRows, y r * s.coef r c
  columns : ∀ c < s.numCols,
    ((if s.maximize then d c < 0 else 0 < d c) → s.lower c = .fin (x c)) ∧
    ((if s.maximize then 0 < d c else d c < 0) → s.upper c = .fin (x c))
  rows : ∀ r < s.numRows,
    ((if s.maximize then y r < 0 else 0 < y r) →
      s.lhs r = .fin (∑ c ∈ Finset.range s.numCols, s.coef r c * x c)) ∧
    ((if s.maximize then 0 < y r else y r < 0) →
      s.rhs r = .fin (∑ c ∈ Finset.range s.numCols, s.coef r c * x c))

/-- A multiplier that pushes to the side where `a` sits. -/
theorem push {l u : Dbl} {a b m : ℚ} (hb : Between l b u) (h1 : 0 < m → l = .fin a) (h2 : m < 0 → u = .fin a) :
    m * a ≤ m * b := by
  rcases lt_trichotomy m 0 with h | h | h
  · have := hb.2
    rw [h2 h, Dbl.le_fin] at this
    nlinarith
  · simp [h]
  · have := hb.1
    rw [h1 h, Dbl.le_fin] at this
    nlinarith

theorem value_split (s : LpSpec) (y d : Int → ℚ)
    (hd : ∀ c < s.numCols, d c = s.objective c - ∑ r ∈ Finset.range s.numRows, y r * s.coef r c)
    (z : Int → ℚ) :
    s.value z = (∑ c ∈ Finset.range s.numCols, d c * z c) +
      ∑ r ∈ Finset.range s.numRows, y r * ∑ c ∈ Finset.range s.numCols, s.coef r c * z c := by
  have h1 : s.value z = ∑ c ∈ Finset.range s.numCols,
      (d c * z c + ∑ r ∈ Finset.range s.numRows, y r * s.coef r c * z c) := by
    refine Finset.sum_congr rfl fun c hc => ?_
    rw [hd c (Finset.mem_range.mp hc), sub_mul, Finset.sum_mul]; ring
  rw [h1, Finset.sum_add_distrib, Finset.sum_comm]
  congr 1
  refine Finset.sum_congr rfl fun r _ => ?_
  rw [Finset.mul_sum]
  exact Finset.sum_congr rfl fun c _ => by ring

/-- Weak duality: a certificate proves optimality. -/
theorem LpSpec.Certificate.optimal {s : LpSpec} {x y d : Int → ℚ} (h : s.Certificate x y d) (z : Int → ℚ)
    (hz : s.Feasible z) : if s.maximize then s.value z ≤ s.value x else s.value x ≤ s.value z := by
  rw [value_split s y d h.reduced x, value_split s y d h.reduced z]
  cases hm : s.maximize with
  | false =>
    simp only [Bool.false_eq_true, if_false]
    refine add_le_add (Finset.sum_le_sum fun c hc => ?_) (Finset.sum_le_sum fun r hr => ?_)
    · have hc := Finset.mem_range.mp hc
      have h1 := h.columns c hc
      simp only [hm, Bool.false_eq_true, if_false] at h1
      exact push (hz.1 c hc) h1.1 h1.2
    · have hr := Finset.mem_range.mp hr
      have h1 := h.rows r hr
      simp only [hm, Bool.false_eq_true, if_false] at h1
      exact push (hz.2 r hr) h1.1 h1.2
  | true =>
    simp only [if_true]
    refine add_le_add (Finset.sum_le_sum fun c hc => ?_) (Finset.sum_le_sum fun r hr => ?_)
    · have hc := Finset.mem_range.mp hc
      have h1 := h.columns c hc
      simp only [hm, if_true] at h1
      have := push (m := -d c) (hz.1 c hc) (fun h => h1.1 (by linarith)) (fun h => h1.2 (by linarith))
      linarith
    · have hr := Finset.mem_range.mp hr
      have h1 := h.rows r hr
      simp only [hm, if_true] at h1
      have := push (m := -y r) (hz.2 r hr) (fun h => h1.1 (by linarith)) (fun h => h1.2 (by linarith))
      linarith

theorem LpSpec.Certificate.congr {s : LpSpec} {x y d x' y' d' : Int → ℚ} (h : s.Certificate x y d)
    (hx : ∀ c < s.numCols, x' c = x c) (hy : ∀ r < s.numRows, y' r = y r)
    (hd : ∀ c < s.numCols, d' c = d c) : s.Certificate x' y' d' := by
  have hact : ∀ r, (∑ c ∈ Finset.range s.numCols, s.coef r c * x' c) =
      ∑ c ∈ Finset.range s.numCols, s.coef r c * x c := fun r =>
    Finset.sum_congr rfl fun c hc => by rw [hx c (Finset.mem_range.mp hc)]
  refine ⟨(feasible_congr s x' x hx).1.2 h.feasible, fun c hc => ?_, fun c hc => ?_, fun r hr => ?_⟩
  · rw [hd c hc, h.reduced c hc]
    congr 1
    exact Finset.sum_congr rfl fun r hr => by rw [hy r (Finset.mem_range.mp hr)]
  · rw [hd c hc, hx c hc]; exact h.columns c hc
  · rw [hy r hr, hact]; exact h.rows r hr

theorem asPoint_range (n : Nat) (f : Nat → ℚ) (c : Nat) (hc : c < n) :
    asPoint ((List.range n).map f) c = f c := by
  simp [asPoint, hc]

/-- The activities of the rows at a point. -/
def LpSpec.ActivitiesAt (s : LpSpec) (x : Int → ℚ) (a : Int → ℚ) : Prop :=
  ∀ r < s.numRows, a r = ∑ c ∈ Finset.range s.numCols, s.coef r c * x c

/-- **C82** (Glop).  If the (unscaled) values the solver holds are the row activities of its point and a
proof of its optimality for the stored LP, then so are the vectors the four getters return; in particular the
primal values are an optimal point. -/
theorem C82_values (g : Interface) (s : LpSpec) (h : Refines g.lp s) (x y d a : Nat → ℚ)
    (hc : s.Certificate (fun i => x i.toNat) (fun i => y i.toNat) fun i => d i.toNat)
    (ha : s.ActivitiesAt (fun i => x i.toNat) fun i => a i.toNat) :
    ∃ xs ys ds acts, getPrimalValues g x = .ok xs ∧ getDualValues g y = .ok ys ∧
      getReducedCosts g d = .ok ds ∧ getRowActivities g a = .ok acts ∧
      (xs.length : Int) = getNumberOfColumns g ∧ (ys.length : Int) = getNumberOfRows g ∧
      (ds.length : Int) = getNumberOfColumns g ∧ (acts.length : Int) = getNumberOfRows g ∧
      s.Certificate (asPoint xs) (asPoint ys) (asPoint ds) ∧ s.ActivitiesAt (asPoint xs) (asPoint acts) ∧
      ∀ z, s.Feasible z → if s.maximize then s.value z ≤ s.value (asPoint xs)
        else s.value (asPoint xs) ≤ s.value z := by
  have hx : ∀ c < s.numCols, asPoint ((List.range g.lp.cols.length).map x) c = x c := fun c hc =>
    asPoint_range _ _ _ (by rw [h.numCols]; exact hc)
  have hcert := hc.congr (x' := asPoint ((List.range g.lp.cols.length).map x))
    (y' := asPoint ((List.range g.lp.rows.length).map y))
    (d' := asPoint ((List.range g.lp.cols.length).map d)) hx
    (fun r hr => asPoint_range _ _ _ (by rw [h.numRows]; exact hr))
    (fun c hc => asPoint_range _ _ _ (by rw [h.numCols]; exact hc))
  refine ⟨_, _, _, _, rfl, rfl, rfl, rfl, by simp [getNumberOfColumns], by simp [getNumberOfRows],
    by simp [getNumberOfColumns], by simp [getNumberOfRows], hcert, fun r hr => ?_, hcert.optimal⟩
  rw [asPoint_range _ _ _ (by rw [h.numRows]; exact hr)]
  refine (ha r hr).trans (Finset.sum_congr rfl fun c hc => ?_)
  rw [hx c (Finset.mem_range.mp hc)]; rfl

/-- `max x + y`, `x + 2 y ≤ 4`, `0 ≤ x ≤ 2`, `0 ≤ y`: the optimum is (2, 1), with dual value 1/2. -/
def dualLp : LpSpec := ⟨1, 2, true, fun _ => .fin 0, fun c => if c = 0 then .fin 2 else .pinf, fun _ => 1,
  fun _ => .ninf, fun _ => .fin 4, fun _ c => if c = 0 then 1 else 2⟩

example : dualLp.Certificate (fun i => (fun c : Nat => if c = 0 then (2 : ℚ) else 1) i.toNat)
      (fun i => (fun _ : Nat => (1 / 2 : ℚ)) i.toNat)
      (fun i => (fun c : Nat => if c = 0 then (1 / 2 : ℚ) else 0) i.toNat) ∧
    dualLp.ActivitiesAt (fun i => (fun c : Nat => if c = 0 then (2 : ℚ) else 1) i.toNat)
      (fun i => (fun _ : Nat => (4 : ℚ)) i.toNat) := by
  refine ⟨⟨⟨?_, ?_⟩, ?_, ?_, ?_⟩, ?_⟩
  · intro c hc
    have : c = 0 ∨ c = 1 := by simp [dualLp] at hc; omega
    rcases this with rfl | rfl <;> norm_num [dualLp, Between, Dbl.le]
  · intro r _
    norm_num [dualLp, Between, Dbl.le, Finset.sum_range_succ]
  · intro c hc
    have : c = 0 ∨ c = 1 := by simp [dualLp] at hc; omega
    rcases this with rfl | rfl <;> norm_num [dualLp]
  · intro c hc
    have : c = 0 ∨ c = 1 := by simp [dualLp] at hc; omega
    rcases this with rfl | rfl <;> norm_num [dualLp]
  · intro r _
    norm_num [dualLp, Finset.sum_range_succ]
  · intro r _
    norm_num [dualLp, Finset.sum_range_succ]

end Glop

namespace Soplex

open Glop (LpSpec asPoint asPoint_range)

/-- **C81** (SoPlex).  If SoPlex says that it has a Farkas proof and hands out one, `GetDualRay` returns a
vector with one element per row that proves that the stored LP is infeasible; if it cannot hand it out,
an error. -/
theorem C81_dual_ray (g : Interface) (s : LpSpec) (h : Glop.Refines g.lp s) (ray : Nat → ℚ)
    (hr : s.ProvesInfeasible fun i => ray i.toNat) :
    (∃ l, getDualRay g true (some ray) = .ok l ∧ (l.length : Int) = getNumberOfRows g ∧
      s.ProvesInfeasible (asPoint l) ∧ ∀ x, ¬ s.Feasible x) ∧
    ∃ msg, getDualRay g true none = .error msg := by
  refine ⟨⟨(List.range g.lp.rows.length).map ray, rfl, by simp [getNumberOfRows],
    Glop.provesInfeasible_congr ?_ hr, Glop.infeasible_of_proof hr⟩, _, rfl⟩
  intro r hr'
  rw [asPoint_range _ _ _ (by rw [h.numRows]; exact hr')]
  rfl

/-- **C82** (SoPlex), for an LP solved to optimality.  As for Glop. -/
theorem C82_values (g : Interface) (s : LpSpec) (h : Glop.Refines g.lp s) (ho : g.status = .optimal)
    (x y d a : Nat → ℚ)
    (hc : s.Certificate (fun i => x i.toNat) (fun i => y i.toNat) fun i => d i.toNat)
    (ha : s.ActivitiesAt (fun i => x i.toNat) fun i => a i.toNat) :
    ∃ xs ys ds acts, getPrimalValues g (some x) = .ok xs ∧ getDualValues g (some y) = .ok ys ∧
      getReducedCosts g (some d) = .ok ds ∧ getRowActivities g (some a) = .ok acts ∧
      (xs.length : Int) = getNumberOfColumns g ∧ (ys.length : Int) = getNumberOfRows g ∧
      (ds.length : Int) = getNumberOfColumns g ∧ (acts.length : Int) = getNumberOfRows g ∧
      s.Certificate (asPoint xs) (asPoint ys) (asPoint ds) ∧ s.ActivitiesAt (asPoint xs) (asPoint acts) ∧
      ∀ z, s.Feasible z → if s.maximize then s.value z ≤ s.value (asPoint xs)
        else s.value (asPoint xs) ≤ s.value z := by
  have hopt : isOptimal g = .ok true := by
    cases hb : g.basisStatus <;>
      simp [isOptimal, isPrimalFeasible, isDualFeasible, hb, Outcome.check, ho]
  obtain ⟨xs, ys, ds, acts, h1, h2, h3, h4, h5⟩ :=
    Glop.C82_values { lp := g.lp } s h x y d a hc ha
  refine ⟨xs, ys, ds, acts, ?_, ?_, h3, h4, h5⟩
  · rw [← h1]
    simp only [getPrimalValues, hopt, Outcome.bind_ok, Outcome.check, if_true]
    rfl
  · rw [← h2]
    simp only [getDualValues, hopt, Outcome.bind_ok, Outcome.check, if_true]
    rfl

/-- `GetPrimalValues` and `GetDualValues` end the process if the LP is not optimal. -/
theorem C82_not_optimal (g : Interface) (ho : g.status ≠ .optimal) (v : Option (Nat → ℚ)) :
    getPrimalValues g v = .abort ∧ getDualValues g v = .abort := by
  have hopt : isOptimal g = .ok false := by
    cases hb : g.basisStatus <;>
      simp [isOptimal, isPrimalFeasible, isDualFeasible, hb, Outcome.check, ho]
  simp [getPrimalValues, getDualValues, hopt, Outcome.check]

end Soplex
end MiniMip
